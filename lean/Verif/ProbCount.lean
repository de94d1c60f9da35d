import Verif.ProbExpect
import Mathlib.Data.Nat.Choose.Basic

/-!
# Counting successes in independent repetitions

The binomial law, and the expected product of the numbers of successes and failures.
-/

set_option linter.unusedSectionVars false

namespace Ecrs
open MeasureTheory
open scoped ENNReal

section
variable {G α β : Type} [MeasurableSpace G] {μ : Measure G}

/-- The rest returns for certain, with `Q` exactly if `P` held before. -/
theorem chance_bind_same {m : M G α} {g : α → M G β} {A P : α → Prop} {Q : β → Prop} (hA : IfReturns m A)
    (hg : ∀ a, A a → Returns (g a) fun b => Q b ↔ P a) : chance μ (m >>= g) Q = chance μ m P := by
  unfold chance
  congr 1
  ext w
  constructor
  · rintro ⟨b, w', e, hb⟩
    obtain ⟨a, w1, e1, e2⟩ := M.bind_ok_iff.1 e
    exact ⟨a, w1, e1, ((hg a (hA _ _ _ e1)).ifReturns _ _ _ e2).1 hb⟩
  · rintro ⟨a, w1, e1, ha⟩
    obtain ⟨b, w', e2, hb⟩ := hg a (hA _ _ _ e1) w1
    exact ⟨b, w', M.bind_ok_iff.2 ⟨a, w1, e1, e2⟩, hb.2 ha⟩

/-- The rest has the same chance whatever the first step returns. -/
theorem HasLaw.chance_bind_const [IsProbabilityMeasure μ] {m : M G α} (h : HasLaw μ m) {A : α → Prop} (hr : Returns m A)
    {g : α → M G β} (hg : ∀ a, A a → HasLaw μ (g a)) {Q : β → Prop} {c : ℝ≥0∞} (hc : ∀ a, A a → chance μ (g a) Q = c) :
    chance μ (m >>= g) Q = c := by
  classical
  obtain ⟨p, hp⟩ := h
  rw [hp.chance_bind_reach (fun a ⟨w, w', e⟩ => hg a (hr.ifReturns _ _ _ e))]
  have e : ∀ a, p a * chance μ (g a) Q = p a * c := by
    intro a
    by_cases ha : ∃ w w', m w = .ok (a, w')
    · obtain ⟨w, w', e⟩ := ha
      rw [hc a (hr.ifReturns _ _ _ e)]
    · rw [hp.zero_of_unreached ha]; simp
  simp only [e]
  rw [ENNReal.tsum_mul_right]
  have h1 : ∑' a, p a = 1 := by
    have := hp.chance fun _ => True
    rw [chance_of_returns (hr.mono fun _ _ => trivial)] at this
    simpa using this.symm
  rw [h1, one_mul]

/-- If from every possible result `a` of the first step the expectation of the rest is `c` times `k a`, the whole has `c` times
the expectation of `k`. -/
theorem HasLaw.expected_bind_mul [IsProbabilityMeasure μ] {m : M G α} (h : HasLaw μ m) {g : α → M G β} {A : α → Prop}
    (hA : IfReturns m A) (hg : ∀ a, A a → HasLaw μ (g a)) {k : α → Nat} {f : β → Nat} {c d : ℝ≥0∞}
    (hc : ∀ a, A a → d * expected μ (g a) f = c * k a) : d * expected μ (m >>= g) f = c * expected μ m k := by
  obtain ⟨p, hp⟩ := h
  rw [hp.expected_bind (fun a ⟨w, w', e⟩ => hg a (hA w a w' e)), hp.expected, ← ENNReal.tsum_mul_left, ← ENNReal.tsum_mul_left]
  refine tsum_congr fun a => ?_
  by_cases hr : ∃ w w', m w = .ok (a, w')
  · obtain ⟨w, w', e⟩ := hr
    rw [show c * (p a * k a) = p a * (c * k a) by ring, ← hc a (hA w a w' e)]
    ring
  · rw [hp.zero_of_unreached hr]; simp

theorem HasLaw.expected_mul [IsProbabilityMeasure μ] {m : M G α} (h : HasLaw μ m) (c : Nat) (f : α → Nat) :
    expected μ m (fun a => c * f a) = c * expected μ m f := by
  obtain ⟨p, hp⟩ := h
  rw [hp.expected, hp.expected, ← ENNReal.tsum_mul_left]
  exact tsum_congr fun a => by push_cast; ring

theorem HasLaw.expected_mono [IsProbabilityMeasure μ] {m : M G α} (h : HasLaw μ m) {f g : α → Nat} (hfg : IfReturns m fun a => f a ≤ g a) :
    expected μ m f ≤ expected μ m g := by
  obtain ⟨p, hp⟩ := h
  rw [hp.expected, hp.expected]
  refine ENNReal.tsum_le_tsum fun a => ?_
  by_cases hr : ∃ w w', m w = .ok (a, w')
  · obtain ⟨w, w', e⟩ := hr
    exact mul_le_mul_right (by exact_mod_cast hfg w a w' e) _
  · rw [hp.zero_of_unreached hr]; simp

/-- The expectation only depends on the chances of the values. -/
theorem expected_congr {m : M G α} {m' : M G β} {f : α → Nat} {f' : β → Nat}
    (h : ∀ k, chance μ m (fun a => f a = k) = chance μ m' fun b => f' b = k) : expected μ m f = expected μ m' f' := by
  unfold expected
  exact tsum_congr fun k => by rw [h k]

theorem expected_pure [IsProbabilityMeasure μ] (a : α) (f : α → Nat) : expected μ (pure a : M G α) f = f a := by
  obtain ⟨p, hp⟩ := HasLaw.pure (μ := μ) a
  unfold expected
  rw [tsum_eq_single (f a)]
  · rw [chance_of_returns (m := pure a) (P := fun b => f b = f a) (Returns.pure rfl), mul_one]
  · intro k hk
    have : chance μ (pure a : M G α) (fun b => f b = k) = 0 := chance_zero (IfReturns.pure (Ne.symm hk))
    rw [this, mul_zero]

theorem number_add_number_not (Q : α → Prop) (xs : List α) : number Q xs + number (fun x => ¬ Q x) xs = xs.length := by
  induction xs with
  | nil => simp [number]
  | cons x xs ih =>
    rw [number_cons, number_cons, List.length_cons]
    by_cases hq : Q x <;> simp [hq] <;> omega

/-- The binomial law: the number of successes in `n` independent repetitions. -/
theorem HasLaw.binomial [IsProbabilityMeasure μ] {m : M G α} (h : HasLaw μ m) (Q : α → Prop) :
    ∀ n k, chance μ (M.replicate n m) (fun xs => number Q xs = k) =
      n.choose k * chance μ m Q ^ k * chance μ m (fun a => ¬ Q a) ^ (n - k)
  | 0, k => by
    cases k with
    | zero =>
      rw [M.replicate, chance_of_returns (P := fun xs => number Q xs = 0) (Returns.pure rfl)]
      simp
    | succ k =>
      rw [M.replicate, chance_zero (Q := fun xs => number Q xs = k + 1) (IfReturns.pure (by simp [number]))]
      simp
  | n + 1, k => by
    classical
    have hb := h
    obtain ⟨p, hp⟩ := hb
    rw [M.replicate, hp.chance_bind_reach (fun a _ => (h.replicate n).bind fun ys => .pure _)]
    have e : ∀ a, chance μ (M.replicate n m >>= fun ys => Pure.pure (a :: ys)) (fun xs => number Q xs = k) =
        if Q a then (if k = 0 then 0 else chance μ (M.replicate n m) fun xs => number Q xs = k - 1)
        else chance μ (M.replicate n m) fun xs => number Q xs = k := by
      intro a
      rw [chance_map]
      split
      · next hq =>
        split
        · next hk =>
          refine chance_zero fun w xs w' _ => ?_
          show ¬ number Q (a :: xs) = k
          rw [number_cons, if_pos hq]; omega
        · next hk =>
          unfold Ecrs.chance
          congr 1
          ext w
          refine exists_congr fun xs => exists_congr fun w' => and_congr_right fun _ => ?_
          show number Q (a :: xs) = k ↔ number Q xs = k - 1
          rw [number_cons, if_pos hq]; omega
      · next hq =>
        unfold Ecrs.chance
        congr 1
        ext w
        refine exists_congr fun xs => exists_congr fun w' => and_congr_right fun _ => ?_
        show number Q (a :: xs) = k ↔ number Q xs = k
        rw [number_cons, if_neg hq]; omega
    simp only [e]
    have e2 : ∀ x y : ℝ≥0∞, (∑' a, p a * if Q a then x else y) = chance μ m Q * x + chance μ m (fun a => ¬ Q a) * y := by
      intro x y
      rw [hp.chance, hp.chance, ← ENNReal.tsum_mul_right, ← ENNReal.tsum_mul_right, ← ENNReal.tsum_add]
      refine tsum_congr fun a => ?_
      by_cases hq : Q a <;> simp [hq]
    rw [e2]
    cases k with
    | zero =>
      rw [if_pos rfl, HasLaw.binomial h Q n 0]
      simp only [Nat.choose_zero_right, Nat.sub_zero, pow_zero, Nat.cast_one, mul_zero, zero_add, mul_one, one_mul]
      ring
    | succ k =>
      rw [if_neg (by omega), HasLaw.binomial h Q n (k + 1), Nat.add_sub_cancel, HasLaw.binomial h Q n k, Nat.choose_succ_succ,
        Nat.add_sub_add_right]
      push_cast
      by_cases hk : k < n
      · rw [show n - k = (n - (k + 1)) + 1 by omega]
        ring
      · rw [Nat.choose_eq_zero_of_lt (show n < k + 1 by omega)]
        push_cast
        ring

/-- The expected product of the numbers of successes and failures in `n` independent repetitions. -/
theorem HasLaw.expected_diversity [IsProbabilityMeasure μ] {m : M G α} (h : HasLaw μ m) (hr : Returns m fun _ => True) (Q : α → Prop) :
    ∀ n, expected μ (M.replicate n m) (fun xs => number Q xs * number (fun x => ¬ Q x) xs) =
      ((n * (n - 1) : ℕ) : ℝ≥0∞) * chance μ m Q * chance μ m fun a => ¬ Q a
  | 0 => by
    rw [M.replicate, expected_pure]
    simp [number]
  | n + 1 => by
    classical
    have ih := HasLaw.expected_diversity h hr Q n
    have hb := h
    obtain ⟨p, hp⟩ := hb
    rw [M.replicate, hp.expected_bind (fun a _ => (h.replicate n).bind fun ys => .pure _)]
    have e : ∀ a, expected μ (M.replicate n m >>= fun ys => Pure.pure (a :: ys)) (fun xs => number Q xs * number (fun x => ¬ Q x) xs) =
        expected μ (M.replicate n m) (fun xs => number Q xs * number (fun x => ¬ Q x) xs) +
          if Q a then n * chance μ m (fun a => ¬ Q a) else n * chance μ m Q := by
      intro a
      rw [expected_map]
      split
      · next hq =>
        have : (fun xs => number Q (a :: xs) * number (fun x => ¬ Q x) (a :: xs)) =
            fun xs => number Q xs * number (fun x => ¬ Q x) xs + number (fun x => ¬ Q x) xs := by
          funext xs
          rw [number_cons, number_cons, if_pos hq, if_neg (by simpa using hq)]; ring
        rw [this, (h.replicate n).expected_add, h.expected_replicate hr]
      · next hq =>
        have : (fun xs => number Q (a :: xs) * number (fun x => ¬ Q x) (a :: xs)) =
            fun xs => number Q xs * number (fun x => ¬ Q x) xs + number Q xs := by
          funext xs
          rw [number_cons, number_cons, if_neg hq, if_pos hq]; ring
        rw [this, (h.replicate n).expected_add, h.expected_replicate hr]
    simp only [e, mul_add]
    have h1 : ∑' a, p a = 1 := by
      have := hp.chance fun _ => True
      rw [chance_of_returns hr] at this
      simpa using this.symm
    have e2 : ∀ x y : ℝ≥0∞, (∑' a, p a * if Q a then x else y) = chance μ m Q * x + chance μ m (fun a => ¬ Q a) * y := by
      intro x y
      rw [hp.chance, hp.chance, ← ENNReal.tsum_mul_right, ← ENNReal.tsum_mul_right, ← ENNReal.tsum_add]
      refine tsum_congr fun a => ?_
      by_cases hq : Q a <;> simp [hq]
    rw [ENNReal.tsum_add, ENNReal.tsum_mul_right, h1, one_mul, ih, e2]
    have hn : (n + 1) * (n + 1 - 1) = n * (n - 1) + 2 * n := by
      cases n with
      | zero => rfl
      | succ n => simp only [Nat.add_sub_cancel]; ring
    rw [hn]
    push_cast
    ring

end
end Ecrs
