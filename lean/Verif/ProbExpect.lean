import Verif.ProbRun
import Verif.Ga.ProbSolver

/-!
# Expected values

`expected μ m f` is the expected value of the count `f` of the result of `m` (a run that panics counts as zero).
-/

set_option linter.unusedSectionVars false

namespace Ecrs
open MeasureTheory
open scoped ENNReal

section
variable {G α β : Type} [MeasurableSpace G] {μ : Measure G}

/-- The expected value of the number `f a`, where `a` is what `m` returns: the sum over all numbers `k` of `k` times the
probability of `k`. -/
noncomputable def expected (μ : Measure G) (m : M G α) (f : α → Nat) : ℝ≥0∞ := ∑' k : Nat, (k : ℝ≥0∞) * chance μ m fun a => f a = k

open Classical in
/-- The number of elements with a property. -/
noncomputable def number (Q : α → Prop) (xs : List α) : Nat := xs.countP fun x => decide (Q x)

open Classical in
theorem number_cons (Q : α → Prop) (x : α) (xs : List α) : number Q (x :: xs) = (if Q x then 1 else 0) + number Q xs := by
  unfold number
  rw [List.countP_cons, add_comm]
  simp

theorem Law.expected [IsProbabilityMeasure μ] {m : M G α} {p : α → ℝ≥0∞} (h : Law μ m p) (f : α → Nat) :
    Ecrs.expected μ m f = ∑' a, p a * f a := by
  classical
  unfold Ecrs.expected
  have e : ∀ k : Nat, (k : ℝ≥0∞) * Ecrs.chance μ m (fun a => f a = k) = ∑' a, if f a = k then p a * k else 0 := by
    intro k
    rw [h.chance, ← ENNReal.tsum_mul_left]
    refine tsum_congr fun a => ?_
    split
    · rw [mul_comm]
    · simp
  simp only [e]
  rw [ENNReal.tsum_comm]
  refine tsum_congr fun a => ?_
  rw [tsum_eq_single (f a)]
  · rw [if_pos rfl]
  · intro k hk; rw [if_neg (Ne.symm hk)]

/-- The expectation of a sequence of two steps. -/
theorem Law.expected_bind [IsProbabilityMeasure μ] {m : M G α} {p : α → ℝ≥0∞} (h : Law μ m p) {g : α → M G β}
    (hg : ∀ a, (∃ w w', m w = .ok (a, w')) → HasLaw μ (g a)) (f : β → Nat) :
    Ecrs.expected μ (m >>= g) f = ∑' a, p a * Ecrs.expected μ (g a) f := by
  unfold Ecrs.expected
  have e : ∀ k : Nat, (k : ℝ≥0∞) * Ecrs.chance μ (m >>= g) (fun b => f b = k) =
      ∑' a, p a * ((k : ℝ≥0∞) * Ecrs.chance μ (g a) fun b => f b = k) := by
    intro k
    rw [h.chance_bind_reach hg, ← ENNReal.tsum_mul_left]
    refine tsum_congr fun a => ?_
    ring
  simp only [e]
  rw [ENNReal.tsum_comm]
  exact tsum_congr fun a => ENNReal.tsum_mul_left

theorem expected_map (m : M G α) (h : α → β) (f : β → Nat) :
    expected μ (m >>= fun a => pure (h a)) f = expected μ m fun a => f (h a) := by
  unfold expected
  exact tsum_congr fun k => by rw [chance_map]

theorem Law.zero_of_unreached [IsProbabilityMeasure μ] {m : M G α} {p : α → ℝ≥0∞} (h : Law μ m p) {a : α}
    (ha : ¬ ∃ g g', m g = .ok (a, g')) : p a = 0 := by
  have h0 : hits m a Set.univ = ∅ := by
    by_contra hne
    obtain ⟨g, g', h1, _⟩ := Set.nonempty_iff_ne_empty.2 hne
    exact ha ⟨g, g', h1⟩
  have := h.prob a Set.univ .univ
  rw [h0, measure_empty, measure_univ, mul_one] at this
  exact this.symm

/-- If from every possible result `a` of the first step the expectation of the rest is at least `c` times `k a`, the
whole has at least `c` times the expectation of `k`. -/
theorem HasLaw.le_expected_bind [IsProbabilityMeasure μ] {m : M G α} (h : HasLaw μ m) {g : α → M G β} {A : α → Prop}
    (hA : IfReturns m A) (hg : ∀ a, A a → HasLaw μ (g a)) {k : α → Nat} {f : β → Nat} {c : ℝ≥0∞}
    (hc : ∀ a, A a → c * k a ≤ expected μ (g a) f) : c * expected μ m k ≤ expected μ (m >>= g) f := by
  obtain ⟨p, hp⟩ := h
  rw [hp.expected_bind (fun a ⟨w, w', e⟩ => hg a (hA w a w' e)), hp.expected, ← ENNReal.tsum_mul_left]
  refine ENNReal.tsum_le_tsum fun a => ?_
  by_cases hr : ∃ w w', m w = .ok (a, w')
  · obtain ⟨w, w', e⟩ := hr
    rw [show c * (p a * k a) = p a * (c * k a) by ring]
    exact mul_le_mul_right (hc a (hA w a w' e)) _
  · rw [hp.zero_of_unreached hr]; simp

/-- A first step that certainly returns, whatever it returns. -/
theorem HasLaw.le_expected_bind_sure [IsProbabilityMeasure μ] {m : M G α} (h : HasLaw μ m) {g : α → M G β} {A : α → Prop}
    (hA : Returns m A) (hg : ∀ a, A a → HasLaw μ (g a)) {f : β → Nat} {c : ℝ≥0∞}
    (hc : ∀ a, A a → c ≤ expected μ (g a) f) : c ≤ expected μ (m >>= g) f := by
  have h1 : expected μ m (fun _ => 1) = 1 := by
    unfold expected
    rw [tsum_eq_single 1]
    · rw [chance_of_returns (hA.mono fun _ _ => rfl)]; simp
    · intro k hk
      have : chance μ m (fun _ => 1 = k) = 0 := chance_zero fun _ _ _ _ => Ne.symm hk
      rw [this, mul_zero]
  have := h.le_expected_bind (k := fun _ => 1) (f := f) (c := c) hA.ifReturns hg fun a ha => by simpa using hc a ha
  rwa [h1, mul_one] at this

/-- A rest that certainly returns something with the same count. -/
theorem HasLaw.expected_bind_same [IsProbabilityMeasure μ] {m : M G α} (h : HasLaw μ m) {g : α → M G β} {A : α → Prop}
    (hA : IfReturns m A) (hg : ∀ a, A a → HasLaw μ (g a)) {k : α → Nat} {f : β → Nat}
    (hr : ∀ a, A a → Returns (g a) fun b => f b = k a) : expected μ m k ≤ expected μ (m >>= g) f := by
  have := h.le_expected_bind (k := k) (f := f) (c := 1) hA hg fun a ha => ?_
  · rwa [one_mul] at this
  · rw [one_mul]
    unfold expected
    refine le_trans ?_ (ENNReal.le_tsum (k a))
    rw [chance_of_returns (hr a ha), mul_one]

theorem HasLaw.expected_add [IsProbabilityMeasure μ] {m : M G α} (h : HasLaw μ m) (f g : α → Nat) :
    expected μ m (fun a => f a + g a) = expected μ m f + expected μ m g := by
  obtain ⟨p, hp⟩ := h
  rw [hp.expected, hp.expected, hp.expected, ← ENNReal.tsum_add]
  refine tsum_congr fun a => ?_
  push_cast
  ring

open Classical in
theorem HasLaw.expected_indicator [IsProbabilityMeasure μ] {m : M G α} (h : HasLaw μ m) (Q : α → Prop) :
    expected μ m (fun a => if Q a then 1 else 0) = chance μ m Q := by
  obtain ⟨p, hp⟩ := h
  rw [hp.expected, hp.chance]
  refine tsum_congr fun a => ?_
  split <;> simp

theorem expected_const [IsProbabilityMeasure μ] {m : M G α} (hr : Returns m fun _ => True) (c : Nat) :
    expected μ m (fun _ => c) = c := by
  unfold expected
  rw [tsum_eq_single c]
  · rw [chance_of_returns (hr.mono fun _ _ => rfl), mul_one]
  · intro k hk
    have : chance μ m (fun _ => c = k) = 0 := chance_zero fun _ _ _ _ => Ne.symm hk
    rw [this, mul_zero]

/-- Two independent steps: the expectations add up. -/
theorem HasLaw.expected_seq [IsProbabilityMeasure μ] {γ : Type} {m : M G α} (h : HasLaw μ m) (hr : Returns m fun _ => True)
    {m' : M G β} (h' : HasLaw μ m') (hr' : Returns m' fun _ => True) (c : α → β → γ) {f : γ → Nat} {k : α → Nat} {k' : β → Nat}
    (hf : ∀ a b, f (c a b) = k a + k' b) :
    expected μ (m >>= fun a => m' >>= fun b => Pure.pure (c a b)) f = expected μ m k + expected μ m' k' := by
  obtain ⟨p, hp⟩ := h
  rw [hp.expected_bind (fun a _ => h'.bind fun b => .pure _)]
  have e : ∀ a, expected μ (m' >>= fun b => Pure.pure (c a b)) f = k a + expected μ m' k' := by
    intro a
    rw [expected_map]
    simp only [hf]
    rw [h'.expected_add, expected_const hr']
  simp only [e, mul_add]
  rw [ENNReal.tsum_add, ← hp.expected, ENNReal.tsum_mul_right]
  have h1 : ∑' a, p a = 1 := by
    classical
    have := hp.chance fun _ => True
    rw [chance_of_returns hr] at this
    simpa using this.symm
  rw [h1, one_mul]

open Classical in
/-- Independent repetitions. -/
theorem HasLaw.expected_replicate [IsProbabilityMeasure μ] {m : M G α} (h : HasLaw μ m) (hr : Returns m fun _ => True)
    (Q : α → Prop) : ∀ n, expected μ (M.replicate n m) (number Q) = n * chance μ m Q
  | 0 => by
    have := expected_const (μ := μ) (Returns.pure (a := ([] : List α)) trivial) 0
    rw [M.replicate, Nat.cast_zero, zero_mul]
    unfold expected at this ⊢
    rw [Nat.cast_zero] at this
    rw [← this]
    refine tsum_congr fun k => ?_
    congr 1
    unfold Ecrs.chance
    congr 1
    ext g
    simp only [Set.mem_ofPred_eq]
    constructor
    · rintro ⟨a, g', e, hk⟩
      rw [M.pure_run] at e
      cases e
      exact ⟨[], g, rfl, by simpa [number] using hk⟩
    · rintro ⟨a, g', e, hk⟩
      rw [M.pure_run] at e
      cases e
      exact ⟨[], g, rfl, by simpa [number] using hk⟩
  | n + 1 => by
    rw [M.replicate, h.expected_seq hr (h.replicate n) ((Returns.replicate hr n).mono fun _ _ => trivial) (fun a xs => a :: xs)
      (k := fun a => if Q a then 1 else 0) (k' := number Q), h.expected_indicator,
      HasLaw.expected_replicate h hr Q n]
    · push_cast; ring
    · exact fun a xs => number_cons Q a xs

open Classical in
/-- A loop over a list: if each element satisfying `P` gives a result satisfying `Q` with probability at least `c`, the
expected number of results satisfying `Q` is at least `c` times the number of elements satisfying `P`. -/
theorem le_expected_forEach [IsProbabilityMeasure μ] {f : α → M G β} (hl : ∀ a, HasLaw μ (f a)) {A P : α → Prop} {Q : β → Prop}
    (hr : ∀ a, A a → Returns (f a) fun _ => True) {c : ℝ≥0∞} (hc : ∀ a, A a → P a → c ≤ chance μ (f a) Q) :
    ∀ xs : List α, (∀ x ∈ xs, A x) →
      c * number P xs ≤ expected μ (M.forEach f xs) (number Q)
  | [], _ => by simp [number]
  | x :: xs, hx => by
    have ih := le_expected_forEach hl hr hc xs fun y hy => hx y (by simp [hy])
    have hrs : Returns (M.forEach f xs) fun _ => True :=
      (Returns.forEach (R := fun _ _ => True) xs fun i hi => hr i (hx i (by simp [hi]))).mono fun _ _ => trivial
    rw [M.forEach, (hl x).expected_seq (hr x (hx x (by simp))) (HasLaw.forEach hl xs) hrs (fun a ys => a :: ys)
      (k := fun a => if Q a then 1 else 0) (k' := number Q), (hl x).expected_indicator]
    · rw [number_cons]
      by_cases hp : P x
      · simp only [hp, if_true]
        push_cast
        rw [mul_add, mul_one]
        exact add_le_add (hc x (hx x (by simp)) hp) ih
      · simp only [hp, if_false, zero_add]
        exact ih.trans le_add_self
    · exact fun a ys => number_cons Q a ys

/-- Markov's inequality: large counts are rare. -/
theorem HasLaw.markov [IsProbabilityMeasure μ] {m : M G α} (h : HasLaw μ m) (f : α → Nat) (k : Nat) :
    k * chance μ m (fun a => k ≤ f a) ≤ expected μ m f := by
  classical
  obtain ⟨p, hp⟩ := h
  rw [hp.chance, hp.expected, ← ENNReal.tsum_mul_left]
  refine ENNReal.tsum_le_tsum fun a => ?_
  split
  · next ha => rw [mul_comm]; exact mul_le_mul_right (by exact_mod_cast ha) _
  · simp

end
end Ecrs
