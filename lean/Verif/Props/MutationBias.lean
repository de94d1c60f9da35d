import Verif.Props.ProbVariation2
import Verif.Ga.ProbSolver
import Verif.Props.ProbConverge
import Mathlib.Data.Nat.Factorial.Basic

/-!
# C165: position bias of the reordering mutations
-/

set_option linter.unusedSectionVars false
set_option linter.unusedVariables false

namespace Ecrs.Props
open Ecrs Ecrs.Ga MeasureTheory
open scoped ENNReal

section
variable {G I A : Type} [MeasurableSpace G] {R : Rng G ℝ} {μ : Measure G}

theorem chance_pure_not [IsProbabilityMeasure μ] {α : Type} {a : α} {Q : α → Prop} (h : ¬ Q a) : chance μ (pure a : M G α) Q = 0 :=
  chance_zero (fun g b g' hb hq => by
    obtain ⟨rfl, -⟩ := Prod.mk.inj (Except.ok.inj hb)
    exact h hq)

/-! ## Reversing -/

/-- The last genes of a Reversing pass, with `x` the gene at hand. -/
noncomputable def revTail (R : Rng G ℝ) (rate : ℝ) (x : A) (xs : List A) : M G (List A) :=
  M.replicate xs.length (R.genUnit >>= fun u => pure (decide (u < rate))) >>= fun bs => pure (carried x xs bs)

theorem reversing_revTail (rate : ℝ) (x : A) (xs : List A) : reversing R rate (x :: xs) = revTail R rate x xs := by
  have e := reversing_eq (R := R) (rate := rate) xs [] x
  simp only [List.nil_append, List.length_nil, Nat.zero_add] at e
  unfold reversing
  rw [List.length_cons, Nat.add_sub_cancel, e]
  rfl

theorem revTail_chance (hR : Ideal R μ) {rate : ℝ} (h0 : 0 ≤ rate) (h1 : rate ≤ 1) (x y : A) (ys : List A) (Q : List A → Prop) :
    chance μ (revTail R rate x (y :: ys)) Q = ENNReal.ofReal rate * chance μ (revTail R rate x ys) (fun l => Q (y :: l)) +
      ENNReal.ofReal (1 - rate) * chance μ (revTail R rate y ys) (fun l => Q (x :: l)) := by
  have := hR.isProbability
  have hb := hR.unit_lt h0 h1
  have hl := (bits_law h0 h1 hb ys.length).has
  have e : revTail R rate x (y :: ys) = (R.genUnit >>= fun u => pure (decide (u < rate))) >>= fun b =>
      (M.replicate ys.length (R.genUnit >>= fun u => pure (decide (u < rate))) >>= fun bs => pure (carried x (y :: ys) (b :: bs))) := by
    unfold revTail
    rw [List.length_cons, M.replicate]
    simp only [bind_assoc, pure_bind]
  rw [e, Law.chance_bind_reach hb (fun b _ => hl.bind fun bs => .pure _), tsum_bool, add_comm]
  congr 1
  · rw [if_pos rfl]
    congr 1
    unfold revTail
    rw [chance_map, chance_map]
    rfl
  · rw [if_neg (by decide)]
    congr 1
    unfold revTail
    rw [chance_map, chance_map]
    rfl

theorem revTail_returns {rate : ℝ} (x : A) (xs : List A) : Returns (revTail R rate x xs) fun _ => True :=
  (Returns.replicate (Q := fun _ => True) (Returns.bind R.genUnit_returns fun u _ => Returns.pure trivial) _).bind fun _ _ => .pure trivial

theorem chance_pos_of_all [IsProbabilityMeasure μ] {α : Type} {m : M G α} (h : Returns m fun _ => True) {Q : α → Prop} (hQ : ∀ a, Q a) :
    chance μ m Q = 1 := chance_of_returns (h.mono fun a _ => hQ a)

theorem revTail_first (hR : Ideal R μ) {rate : ℝ} (h0 : 0 ≤ rate) (h1 : rate ≤ 1) (x : A) : ∀ (k : Nat) (xs : List A), x ∉ xs →
    k ≤ xs.length → chance μ (revTail R rate x xs) (fun l => x ∉ l.take k) = ENNReal.ofReal (rate ^ k)
  | 0, xs, hx, hk => by
    have := hR.isProbability
    rw [chance_pos_of_all (revTail_returns x xs) (fun l => by simp)]
    simp
  | k + 1, [], hx, hk => by simp at hk
  | k + 1, y :: ys, hx, hk => by
    have := hR.isProbability
    have hxy : x ≠ y := fun h => hx (h ▸ List.mem_cons_self)
    have ih := revTail_first hR h0 h1 x k ys (fun h => hx (List.mem_cons_of_mem _ h)) (by simpa using hk)
    rw [revTail_chance hR h0 h1]
    have e1 : (fun l : List A => x ∉ (y :: l).take (k + 1)) = fun l => x ∉ l.take k := by
      funext l; simp [hxy]
    rw [e1, ih, chance_zero (Q := fun l : List A => x ∉ (x :: l).take (k + 1)) (fun g a g' _ h => h (by simp)), mul_zero, add_zero,
      ← ENNReal.ofReal_mul h0, pow_succ']

theorem revTail_left (hR : Ideal R μ) {rate : ℝ} (h0 : 0 ≤ rate) (h1 : rate ≤ 1) (y : A) (q : List A) : ∀ (p : List A) (x : A),
    y ∉ x :: p → chance μ (revTail R rate x (p ++ y :: q)) (fun l => l[p.length]? = some y) = ENNReal.ofReal rate
  | [], x, h => by
    have := hR.isProbability
    have hxy : x ≠ y := fun e => h (e ▸ List.mem_cons_self)
    rw [List.nil_append, revTail_chance hR h0 h1, chance_pos_of_all (revTail_returns x q) (fun l => by simp),
      chance_zero (Q := fun l : List A => (x :: l)[([] : List A).length]? = some y) (fun g a g' _ h => hxy (by simpa using h)), mul_one, mul_zero, add_zero]
  | z :: p, x, h => by
    have := hR.isProbability
    have i1 := revTail_left hR h0 h1 y q p x (fun e => h (by simp at e ⊢; tauto))
    have i2 := revTail_left hR h0 h1 y q p z (fun e => h (by simp at e ⊢; tauto))
    rw [List.cons_append, revTail_chance hR h0 h1]
    simp only [List.length_cons, List.getElem?_cons_succ]
    rw [i1, i2, ← add_mul, ← ENNReal.ofReal_add h0 (by linarith)]
    simp

theorem revTail_right (hR : Ideal R μ) {rate : ℝ} (h0 : 0 ≤ rate) (h1 : rate ≤ 1) (y : A) (q : List A) (hq : y ∉ q) (k : Nat)
    (hk : k ≤ q.length) : ∀ (p : List A) (x : A), y ∉ x :: p →
    chance μ (revTail R rate x (p ++ y :: q)) (fun l => y ∉ l.take (p.length + 1 + k)) = ENNReal.ofReal ((1 - rate) * rate ^ k)
  | [], x, h => by
    have := hR.isProbability
    have hxy : y ≠ x := fun e => h (e ▸ List.mem_cons_self)
    have ih := revTail_first hR h0 h1 y k q hq hk
    rw [List.nil_append, revTail_chance hR h0 h1]
    have e1 : (fun l : List A => y ∉ (x :: l).take (([] : List A).length + 1 + k)) = fun l => y ∉ l.take k := by
      funext l; simp [Nat.add_comm 1 k, hxy]
    rw [e1, ih, chance_zero (Q := fun l : List A => y ∉ (y :: l).take (([] : List A).length + 1 + k)) (fun g a g' _ h => h (by simp [Nat.add_comm 1 k])),
      mul_zero, zero_add, ← ENNReal.ofReal_mul (by linarith)]
  | z :: p, x, h => by
    have := hR.isProbability
    have hyx : y ≠ x := fun e => h (e ▸ List.mem_cons_self)
    have hyz : y ≠ z := fun e => h (by simp [e])
    have i1 := revTail_right hR h0 h1 y q hq k hk p x (fun e => h (by simp at e ⊢; tauto))
    have i2 := revTail_right hR h0 h1 y q hq k hk p z (fun e => h (by simp at e ⊢; tauto))
    rw [List.cons_append, revTail_chance hR h0 h1]
    have e1 : ∀ w, y ≠ w → (fun l : List A => y ∉ (w :: l).take ((z :: p).length + 1 + k)) = fun l => y ∉ l.take (p.length + 1 + k) := by
      intro w hw
      funext l
      rw [show (z :: p).length + 1 + k = (p.length + 1 + k) + 1 by simp; omega, List.take_succ_cons]
      simp [hw]
    rw [e1 z hyz, e1 x hyx, i1, i2, ← add_mul, ← ENNReal.ofReal_add h0 (by linarith)]
    simp

/-- **C165, Reversing, the first gene**: the first gene of a chromosome of distinct genes is carried `k` places or more to
the right with probability `rate ^ k`: with rate 1 it always ends last. -/
theorem C165_reversing_first (hR : Ideal R μ) {rate : ℝ} (h0 : 0 ≤ rate) (h1 : rate ≤ 1) {x : A} {xs : List A} (hx : x ∉ xs) {k : Nat}
    (hk : k ≤ xs.length) :
    chance μ (reversing R rate (x :: xs)) (fun l => x ∉ l.take k) = ENNReal.ofReal (rate ^ k) := by
  rw [reversing_revTail]
  exact revTail_first hR h0 h1 x k xs hx hk

/-- **C165, Reversing, any other gene, to the left**: a gene that is not the first moves one place to the left with
probability `rate`. -/
theorem C165_reversing_left (hR : Ideal R μ) {rate : ℝ} (h0 : 0 ≤ rate) (h1 : rate ≤ 1) {x y : A} {p q : List A}
    (hn : (x :: p ++ y :: q).Nodup) :
    chance μ (reversing R rate (x :: p ++ y :: q)) (fun l => l[p.length]? = some y) = ENNReal.ofReal rate := by
  rw [List.cons_append, reversing_revTail]
  have h := (List.nodup_append.1 hn).2.2
  exact revTail_left hR h0 h1 y q p x fun e => h y e y List.mem_cons_self rfl

/-- **C165, Reversing, any other gene, to the right**: a gene that is not the first ends `k` places or more to the right of
where it was, `k = 0` included, with probability `(1 - rate) * rate ^ k`. -/
theorem C165_reversing_right (hR : Ideal R μ) {rate : ℝ} (h0 : 0 ≤ rate) (h1 : rate ≤ 1) {x y : A} {p q : List A}
    (hn : (x :: p ++ y :: q).Nodup) {k : Nat} (hk : k ≤ q.length) :
    chance μ (reversing R rate (x :: p ++ y :: q)) (fun l => y ∉ l.take ((x :: p).length + k)) = ENNReal.ofReal ((1 - rate) * rate ^ k) := by
  rw [List.cons_append, reversing_revTail]
  have h := (List.nodup_append.1 hn).2.2
  exact revTail_right hR h0 h1 y q (List.nodup_cons.1 (List.nodup_append.1 hn).2.1).1 k hk p x fun e => h y e y List.mem_cons_self rfl

/-- **C165, Reversing at rate 1** does not reverse: it moves the first gene to the end and leaves the order of the others. -/
theorem C165_reversing_rate_one (x : A) (xs : List A) : Returns (reversing R 1 (x :: xs)) fun l => l = xs ++ [x] := by
  rw [reversing_revTail]
  unfold revTail
  refine Returns.bind (Returns.replicate (Q := fun b => b = true)
    (Returns.bind R.genUnit_returns fun u hu => Returns.pure (by simpa using hu.2)) _) fun bs hbs => Returns.pure ?_
  obtain ⟨hl, hb⟩ := hbs
  induction xs generalizing bs with
  | nil => cases bs <;> rfl
  | cons y ys ih =>
    cases bs with
    | nil => simp at hl
    | cons b bs =>
      obtain rfl := hb b List.mem_cons_self
      rw [carried, ih bs (by simpa using hl) fun c hc => hb c (List.mem_cons_of_mem _ hc)]
      rfl

/-! ## Inversion -/

/-- A chromosome with the genes from `lo` to `hi` reversed. -/
def reversedBetween (c : List A) (lo hi : Nat) : List A := c.take lo ++ ((c.take (hi + 1)).drop lo).reverse ++ c.drop (hi + 1)

theorem reversedBetween_getElem? {c : List A} {lo hi : Nat} (h : lo ≤ hi) (hh : hi < c.length) (i : Nat) :
    (reversedBetween c lo hi)[i]? = if lo ≤ i ∧ i ≤ hi then c[lo + hi - i]? else c[i]? := by
  unfold reversedBetween
  by_cases h1 : i < lo
  · rw [List.append_assoc, List.getElem?_append_left (by simp; omega), List.getElem?_take_of_lt h1, if_neg (by omega)]
  · by_cases h2 : i ≤ hi
    · rw [List.getElem?_append_left (by simp; omega), List.getElem?_append_right (by simp; omega), List.getElem?_reverse (by simp; omega),
        List.getElem?_drop, List.getElem?_take_of_lt (by simp; omega), if_pos (by omega)]
      congr 1
      simp
      omega
    · rw [List.getElem?_append_right (by simp; omega), List.getElem?_drop, if_neg (by omega)]
      congr 1
      simp
      omega

theorem getElem?_ne_of_nodup {c : List A} (hn : c.Nodup) {i j : Nat} (hi : i < c.length) (hj : j < c.length) (h : i ≠ j) : c[i]? ≠ c[j]? := by
  rw [List.getElem?_eq_getElem hi, List.getElem?_eq_getElem hj]
  intro e
  exact h ((List.Nodup.getElem_inj_iff hn).1 (Option.some.inj e))

/-- Over the draws of an inversion, when every start `lo` has `k lo` ends `hi` for which the result is `Q`. -/
theorem inversion_count (hR : Ideal R μ) {rate : ℝ} (h0 : 0 ≤ rate) (h1 : rate ≤ 1) {c : List A} (hc : c ≠ []) (Q : List A → Prop)
    (k : Nat → Nat) (hk : ∀ lo, lo < c.length → {hi | lo ≤ hi ∧ hi < c.length ∧ Q (reversedBetween c lo hi)}.ncard = k lo) :
    chance μ (inversion R rate c) Q = ENNReal.ofReal (1 - rate) * (open Classical in if Q c then 1 else 0) + ENNReal.ofReal rate *
      ((∑ lo ∈ Finset.range c.length, (k lo : ℝ≥0∞) / (c.length - lo : ℕ)) / c.length) := by
  classical
  rw [C134_inversion hR h0 h1 hc Q]
  congr 3
  refine Finset.sum_congr rfl fun lo hlo => ?_
  congr 2
  rw [← hk lo (Finset.mem_range.1 hlo), ← Set.ncard_coe_finset]
  congr 1
  ext hi
  simp [and_assoc, reversedBetween]

/-- **C165, Inversion, unchanged**: an inversion leaves a chromosome of `n` distinct genes as it was with probability
`1 - rate + rate * (1 + 1/2 + … + 1/n) / n`. -/
theorem C165_inversion_unchanged (hR : Ideal R μ) {rate : ℝ} (h0 : 0 ≤ rate) (h1 : rate ≤ 1) {c : List A} (hc : c ≠ []) (hn : c.Nodup) :
    chance μ (inversion R rate c) (· = c) = ENNReal.ofReal (1 - rate) + ENNReal.ofReal rate *
      ((∑ k ∈ Finset.range c.length, (1 : ℝ≥0∞) / (k + 1 : ℕ)) / c.length) := by
  rw [inversion_count hR h0 h1 hc (· = c) (fun _ => 1)]
  · rw [if_pos rfl, mul_one]
    congr 3
    rw [← Finset.sum_range_reflect]
    refine Finset.sum_congr rfl fun lo hlo => ?_
    have := Finset.mem_range.1 hlo
    rw [Nat.cast_one]
    congr 2
    omega
  · intro lo hlo
    rw [Set.ncard_eq_one]
    refine ⟨lo, ?_⟩
    ext hi
    simp only [Set.mem_ofPred_eq, Set.mem_singleton_iff]
    constructor
    · rintro ⟨h2, h3, h4⟩
      by_contra hne
      have := congrArg (·[lo]?) h4
      simp only [reversedBetween_getElem? h2 h3, le_refl, h2, and_self, if_true, Nat.add_sub_cancel_left] at this
      exact getElem?_ne_of_nodup hn h3 hlo hne this
    · rintro rfl
      refine ⟨le_refl _, hlo, ?_⟩
      apply List.ext_getElem?
      intro i
      rw [reversedBetween_getElem? (le_refl _) hlo]
      split
      · congr 1; omega
      · rfl

/-- **C165, Inversion, the first gene**: the first of `n` distinct genes leaves its place with probability
`rate * ((n - 1) / n) / n`. -/
theorem C165_inversion_first (hR : Ideal R μ) {rate : ℝ} (h0 : 0 ≤ rate) (h1 : rate ≤ 1) {c : List A} (hc : c ≠ []) (hn : c.Nodup) :
    chance μ (inversion R rate c) (fun l => l[0]? ≠ c[0]?) = ENNReal.ofReal rate * (((c.length - 1 : ℕ) : ℝ≥0∞) / c.length / c.length) := by
  have hpos : 0 < c.length := List.length_pos_iff.2 hc
  rw [inversion_count hR h0 h1 hc _ (fun lo => if lo = 0 then c.length - 1 else 0)]
  · rw [if_neg (by simp), mul_zero, zero_add, Finset.sum_eq_single 0]
    · simp
    · intro b _ hb; simp [hb]
    · intro h; exact absurd (Finset.mem_range.2 hpos) h
  · intro lo hlo
    split
    · next h =>
      subst h
      have : {hi | 0 ≤ hi ∧ hi < c.length ∧ (reversedBetween c 0 hi)[0]? ≠ c[0]?} = ((Finset.Ico 1 c.length : Finset Nat) : Set Nat) := by
        ext hi
        simp only [Set.mem_ofPred_eq, Finset.coe_Ico, Set.mem_Ico]
        constructor
        · rintro ⟨-, h3, h4⟩
          rw [reversedBetween_getElem? (Nat.zero_le _) h3, if_pos (by omega)] at h4
          refine ⟨?_, h3⟩
          by_contra h5
          exact h4 (by congr 1; omega)
        · rintro ⟨h2, h3⟩
          refine ⟨Nat.zero_le _, h3, ?_⟩
          rw [reversedBetween_getElem? (Nat.zero_le _) h3, if_pos (by omega)]
          exact getElem?_ne_of_nodup hn (by omega) hpos (by omega)
      rw [this, Set.ncard_coe_finset, Nat.card_Ico]
    · next h =>
      rw [Set.ncard_eq_zero (Set.Finite.subset (Set.finite_Iio c.length) fun hi h => h.2.1), Set.eq_empty_iff_forall_notMem]
      rintro hi ⟨h2, h3, h4⟩
      rw [reversedBetween_getElem? h2 h3, if_neg (by omega)] at h4
      exact h4 rfl

/-- **C165, Inversion, the last gene**: the last of `n` distinct genes leaves its place with probability
`rate * (1/2 + 1/3 + … + 1/n) / n`. -/
theorem C165_inversion_last (hR : Ideal R μ) {rate : ℝ} (h0 : 0 ≤ rate) (h1 : rate ≤ 1) {c : List A} (hc : c ≠ []) (hn : c.Nodup) :
    chance μ (inversion R rate c) (fun l => l[c.length - 1]? ≠ c[c.length - 1]?) =
      ENNReal.ofReal rate * ((∑ k ∈ Finset.range (c.length - 1), (1 : ℝ≥0∞) / (k + 2 : ℕ)) / c.length) := by
  have hpos : 0 < c.length := List.length_pos_iff.2 hc
  rw [inversion_count hR h0 h1 hc _ (fun lo => if lo = c.length - 1 then 0 else 1)]
  · rw [if_neg (by simp), mul_zero, zero_add]
    congr 2
    obtain ⟨m, hm⟩ : ∃ m, c.length = m + 1 := ⟨c.length - 1, by omega⟩
    rw [hm, Finset.sum_range_succ, Nat.add_sub_cancel, if_pos rfl, Nat.cast_zero, ENNReal.zero_div, add_zero, ← Finset.sum_range_reflect]
    refine Finset.sum_congr rfl fun lo hlo => ?_
    have := Finset.mem_range.1 hlo
    rw [if_neg (by omega), Nat.cast_one]
    congr 2
    omega
  · intro lo hlo
    split
    · next h =>
      subst h
      rw [Set.ncard_eq_zero (Set.Finite.subset (Set.finite_Iio c.length) fun hi h => h.2.1), Set.eq_empty_iff_forall_notMem]
      rintro hi ⟨h2, h3, h4⟩
      rw [reversedBetween_getElem? h2 h3, if_pos (by omega)] at h4
      exact h4 (by congr 1; omega)
    · next h =>
      rw [Set.ncard_eq_one]
      refine ⟨c.length - 1, ?_⟩
      ext hi
      simp only [Set.mem_ofPred_eq, Set.mem_singleton_iff]
      constructor
      · rintro ⟨h2, h3, h4⟩
        by_contra h5
        rw [reversedBetween_getElem? h2 h3, if_neg (by omega)] at h4
        exact h4 rfl
      · rintro rfl
        refine ⟨by omega, by omega, ?_⟩
        rw [reversedBetween_getElem? (by omega) (by omega), if_pos (by omega)]
        exact getElem?_ne_of_nodup hn (by omega) (by omega) (by omega)

/-- **C165, Inversion, ends compared**: among three or more distinct genes the last one is moved more often than the first. -/
theorem C165_inversion_ends (hR : Ideal R μ) {rate : ℝ} (h0 : 0 < rate) (h1 : rate ≤ 1) {c : List A} (hc : 3 ≤ c.length) (hn : c.Nodup) :
    chance μ (inversion R rate c) (fun l => l[0]? ≠ c[0]?) < chance μ (inversion R rate c) (fun l => l[c.length - 1]? ≠ c[c.length - 1]?) := by
  have hne : c ≠ [] := fun h => by rw [h] at hc; simp at hc
  rw [C165_inversion_first hR h0.le h1 hne hn, C165_inversion_last hR h0.le h1 hne hn]
  have hr : ENNReal.ofReal rate ≠ 0 := by simpa using h0
  refine (ENNReal.mul_lt_mul_iff_right hr ENNReal.ofReal_ne_top).2 ?_
  refine ENNReal.div_lt_div_right (by simp; omega) (by simp) ?_
  obtain ⟨m, hm⟩ : ∃ m, c.length = m + 3 := ⟨c.length - 3, by omega⟩
  rw [hm, show m + 3 - 1 = m + 2 by omega, Finset.sum_range_succ']
  have h2 : ((m + 2 : ℕ) : ℝ≥0∞) / (m + 3 : ℕ) = ∑ k ∈ Finset.range (m + 1), (1 : ℝ≥0∞) / (m + 3 : ℕ) + 1 / (m + 3 : ℕ) := by
    rw [Finset.sum_const, Finset.card_range, nsmul_eq_mul, mul_one_div, ENNReal.div_add_div_same]
    push_cast
    ring_nf
  rw [h2]
  refine ENNReal.add_lt_add_of_le_of_lt ?_ ?_ ?_
  · rw [Finset.sum_const, Finset.card_range, nsmul_eq_mul, mul_one_div]
    exact ENNReal.div_ne_top (by simp) (by simp)
  · refine Finset.sum_le_sum fun k hk => ?_
    have := Finset.mem_range.1 hk
    refine ENNReal.div_le_div_left ?_ _
    exact_mod_cast (by omega : k + 1 + 2 ≤ m + 3)
  · refine ENNReal.div_lt_div_left (by simp) (by simp) ?_
    exact_mod_cast (by omega : 0 + 2 < m + 3)

/-! ## Interchange -/

/-- The lists of `k` numbers below `n`. -/
def choices (n : Nat) : Nat → List (List Nat)
  | 0 => [[]]
  | k + 1 => (List.range n).flatMap fun j => (choices n k).map (j :: ·)

theorem mem_choices {n : Nat} : ∀ {k : Nat} {js : List Nat}, js ∈ choices n k ↔ js.length = k ∧ ∀ j ∈ js, j < n
  | 0, js => by
    simp only [choices, List.mem_singleton, List.length_eq_zero_iff]
    constructor
    · rintro rfl; simp
    · exact fun h => h.1
  | k + 1, js => by
    simp only [choices, List.mem_flatMap, List.mem_range, List.mem_map, mem_choices]
    constructor
    · rintro ⟨j, hj, l, ⟨rfl, h2⟩, rfl⟩
      exact ⟨rfl, by simpa using ⟨hj, h2⟩⟩
    · rintro ⟨h1, h2⟩
      cases js with
      | nil => simp at h1
      | cons j l =>
        exact ⟨j, h2 j List.mem_cons_self, l, ⟨by simpa using h1, fun i hi => h2 i (List.mem_cons_of_mem _ hi)⟩, rfl⟩

theorem nodup_choices (n : Nat) : ∀ k, (choices n k).Nodup
  | 0 => by simp [choices]
  | k + 1 => by
    rw [choices, List.nodup_flatMap]
    refine ⟨fun j _ => (nodup_choices n k).map fun a b h => (List.cons.inj h).2, ?_⟩
    refine List.nodup_range.imp fun hab => ?_
    rw [Function.onFun, List.disjoint_left]
    rintro l h1 h2
    obtain ⟨l1, -, rfl⟩ := List.mem_map.1 h1
    obtain ⟨l2, -, e⟩ := List.mem_map.1 h2
    exact hab (List.cons.inj e).1.symm

theorem length_choices (n : Nat) : ∀ k, (choices n k).length = n ^ k
  | 0 => rfl
  | k + 1 => by
    rw [choices, List.length_flatMap]
    simp [length_choices n k, pow_succ, mul_comm]

/-- A chromosome with the genes at `i` and `j` exchanged. -/
def exchanged (c : List A) (i j : Nat) : List A :=
  if h : i < c.length ∧ j < c.length then swapped c i j h.1 h.2 else c

/-- Exchange the gene at `i` with the one at the first number, the gene at `i + 1` with the one at the second, and so on. -/
def exchangedBy (c : List A) (i : Nat) : List Nat → List A
  | [] => c
  | j :: js => exchangedBy (exchanged c i j) (i + 1) js

theorem exchanged_length (c : List A) (i j : Nat) : (exchanged c i j).length = c.length := by
  unfold exchanged
  split
  · exact (swapped_perm _ _).length_eq
  · rfl

theorem interchangeStep_chance (hR : Ideal R μ) {β : Type} {rate : ℝ} (h0 : 0 ≤ rate) (h1 : rate ≤ 1) {s : List A} {i : Nat} (hi : i < s.length)
    {f : List A → M G β} (hf : ∀ s, HasLaw μ (f s)) (Q : β → Prop) :
    chance μ (interchangeStep R rate s i >>= f) Q = ENNReal.ofReal (1 - rate) * chance μ (f s) Q +
      ENNReal.ofReal rate * ((∑ j ∈ Finset.range s.length, chance μ (f (exchanged s i j)) Q) / s.length) := by
  have := hR.isProbability
  have hs : ∀ j, j < s.length → (swapIdx s i j : M G _) = pure (exchanged s i j) := by
    intro j hj
    rw [swapIdx_eq hi hj]
    unfold exchanged
    rw [dif_pos ⟨hi, hj⟩]
  have hm : ∀ g a g', R.threadRange 0 s.length g = .ok (a, g') → a ∈ Finset.range s.length := by
    intro g a g' h
    have := (R.threadRange_returns (by omega : 0 < s.length)).ifReturns g a g' h
    simpa using this
  have hu : Uniform μ (R.threadRange 0 s.length) ((Finset.range s.length : Finset Nat) : Set Nat) := by
    rw [Finset.range_eq_Ico, Finset.coe_Ico]
    exact hR.threadBelow 0 s.length (by omega)
  have hd := draw_chance hu hm (f := fun j => swapIdx s i j >>= f) (Q := Q) (x := fun j => chance μ (f (exchanged s i j)) Q)
    (fun j hj => by
      show HasLaw μ (swapIdx s i j >>= f)
      rw [hs j (Finset.mem_range.1 hj), pure_bind]; exact hf _)
    (fun j hj => by
      show chance μ (swapIdx s i j >>= f) Q = _
      rw [hs j (Finset.mem_range.1 hj), pure_bind])
  rw [Finset.card_range] at hd
  have e : interchangeStep R rate s i >>= f = (R.genUnit >>= fun u => pure (decide (u < rate))) >>= fun b =>
      if b then R.threadRange 0 s.length >>= fun j => swapIdx s i j >>= f else f s := by
    unfold interchangeStep
    simp only [bind_assoc, pure_bind, decide_eq_true_eq]
    congr 1
    funext u
    split
    · rw [bind_assoc]
    · rw [pure_bind]
  rw [e, (hR.unit_lt h0 h1).chance_bind_reach (fun b _ => .ite hd.1 (hf s)), tsum_bool]
  simp only [Bool.false_eq_true, if_false, if_true]
  rw [hd.2]

theorem hasLaw_interchangeFold (hR : Ideal R μ) {rate : ℝ} (h0 : 0 ≤ rate) (h1 : rate ≤ 1) (is : List Nat) (s : List A) :
    HasLaw μ (M.fold (interchangeStep R rate) s is) := by
  have := hR.isProbability
  refine HasLaw.fold (fun s i => ?_) is s
  exact hR.hasLaw_unit_lt h0 h1 ((hR.hasLaw_thread 0 s.length).bind fun j => hasLaw_swapIdx s i j) (.pure s)

theorem sum_range_list (f : Nat → Nat) : ∀ n, ((List.range n).map f).sum = ∑ j ∈ Finset.range n, f j
  | 0 => rfl
  | n + 1 => by rw [List.range_succ, List.map_append, List.sum_append, sum_range_list f n, Finset.sum_range_succ]; simp

theorem interchangeFold_one (hR : Ideal R μ) (Q : List A → Prop) [DecidablePred Q] : ∀ (k i : Nat) (s : List A), i + k = s.length →
    chance μ (M.fold (interchangeStep R 1) s (List.range' i k)) Q =
      ((choices s.length k).countP fun js => Q (exchangedBy s i js) : ℕ) / (s.length : ℝ≥0∞) ^ k
  | 0, i, s, h => by
    have := hR.isProbability
    rw [List.range'_zero, M.fold, choices, List.countP_singleton, pow_zero, div_one]
    by_cases hq : Q s
    · rw [if_pos (by rw [exchangedBy]; exact decide_eq_true hq), chance_of_returns (Returns.pure hq), Nat.cast_one]
    · rw [if_neg (by rw [exchangedBy]; simpa only [decide_eq_true_eq] using hq), chance_pure_not hq, Nat.cast_zero]
  | k + 1, i, s, h => by
    have := hR.isProbability
    rw [List.range'_succ, M.fold, interchangeStep_chance hR zero_le_one le_rfl (by omega) (fun s => hasLaw_interchangeFold hR zero_le_one le_rfl _ s) Q]
    rw [sub_self, ENNReal.ofReal_zero, zero_mul, zero_add, ENNReal.ofReal_one, one_mul]
    have ih : ∀ j, chance μ (M.fold (interchangeStep R 1) (exchanged s i j) (List.range' (i + 1) k)) Q =
        ((choices s.length k).countP fun js => Q (exchangedBy s i (j :: js)) : ℕ) / (s.length : ℝ≥0∞) ^ k := by
      intro j
      rw [interchangeFold_one hR Q k (i + 1) (exchanged s i j) (by rw [exchanged_length]; omega), exchanged_length]
      rfl
    simp only [ih]
    have hn : (s.length : ℝ≥0∞) ≠ 0 := by simp only [ne_eq, Nat.cast_eq_zero]; omega
    rw [pow_succ, choices, List.countP_flatMap, sum_range_list]
    have e : ∀ j, ((List.countP fun js => decide (Q (exchangedBy s i js))) ∘ fun j => List.map (fun x => j :: x) (choices s.length k)) j =
        List.countP (fun js => decide (Q (exchangedBy s i (j :: js)))) (choices s.length k) := by
      intro j
      simp only [Function.comp, List.countP_map]
      rfl
    simp only [e]
    push_cast
    simp only [div_eq_mul_inv]
    rw [← Finset.sum_mul, ENNReal.mul_inv (Or.inr (by simp)) (Or.inr hn), mul_assoc]

/-- **C165, Interchange at rate 1**: the chance of a result is the proportion of the `nⁿ` equally likely choices of one
partner for each position that lead to it when the exchanges are made from left to right. -/
theorem C165_interchange_law (hR : Ideal R μ) {c : List A} (hc : c ≠ []) (Q : List A → Prop) [DecidablePred Q] :
    chance μ (interchange R 1 c) Q =
      ((choices c.length c.length).countP fun js => Q (exchangedBy c 0 js) : ℕ) / (c.length : ℝ≥0∞) ^ c.length := by
  unfold interchange
  rw [assert_pure (by simpa using List.length_pos_iff.2 hc), pure_bind, List.range_eq_range']
  exact interchangeFold_one hR Q c.length 0 c (by omega)

/-- **C165, Interchange is no fair shuffle**: with rate 1 and three genes or more, no ordering of the genes results with
the probability `1 / n!` that it has in a fair shuffle. -/
theorem C165_interchange_biased (hR : Ideal R μ) {c : List A} (hc : 3 ≤ c.length) (target : List A) :
    chance μ (interchange R 1 c) (· = target) ≠ 1 / (c.length.factorial : ℝ≥0∞) := by
  classical
  have hne : c ≠ [] := fun h => by rw [h] at hc; simp at hc
  rw [C165_interchange_law hR hne (· = target)]
  generalize (List.countP (fun js => decide (exchangedBy c 0 js = target)) (choices c.length c.length)) = K
  generalize c.length = n at hc
  intro h
  have hf : (n.factorial : ℝ≥0∞) ≠ 0 := by simpa using Nat.factorial_ne_zero n
  have hn : (n : ℝ≥0∞) ^ n ≠ 0 := by
    refine pow_ne_zero _ ?_
    simp only [ne_eq, Nat.cast_eq_zero]; omega
  rw [ENNReal.div_eq_div_iff hf (by simp) hn (by simp)] at h
  have h' : n.factorial * K = n ^ n := by
    have : (n.factorial : ℝ≥0∞) * K = (n : ℝ≥0∞) ^ n := by rw [h, mul_one]
    exact_mod_cast this
  have hd : (n - 1) ∣ n ^ n := by
    rw [← h']
    exact Dvd.dvd.mul_right (Nat.dvd_factorial (by omega) (by omega)) K
  have hcop : Nat.Coprime (n - 1) (n ^ n) := by
    refine Nat.Coprime.pow_right n ?_
    have : n = (n - 1) + 1 := by omega
    rw [this, Nat.add_sub_cancel]
    simp
  have := Nat.Coprime.eq_one_of_dvd hcop hd
  omega

/-- **C165, Interchange, two genes**: they end exchanged with probability `rate * (1 - rate / 2)`, one half at rate 1 and
never more. -/
theorem C165_interchange_pair (hR : Ideal R μ) {rate : ℝ} (h0 : 0 ≤ rate) (h1 : rate ≤ 1) {a b : A} (hab : a ≠ b) :
    chance μ (interchange R rate [a, b]) (· = [b, a]) = ENNReal.ofReal (rate * (1 - rate / 2)) := by
  have := hR.isProbability
  unfold interchange
  rw [assert_pure (by simp), pure_bind]
  have hp : ∀ s : List A, chance μ (M.fold (interchangeStep R rate) s []) (· = [b, a]) = open Classical in if s = [b, a] then 1 else 0 := by
    intro s
    rw [M.fold]
    split
    · next h => exact chance_of_returns (Returns.pure h)
    · next h => exact chance_pure_not h
  have hl := fun (is : List Nat) (s : List A) => hasLaw_interchangeFold hR h0 h1 is s
  have e0 : ∀ x y : A, exchanged [x, y] 0 0 = [x, y] := fun _ _ => rfl
  have e1 : ∀ x y : A, exchanged [x, y] 0 1 = [y, x] := fun _ _ => rfl
  have e2 : ∀ x y : A, exchanged [x, y] 1 0 = [y, x] := fun _ _ => rfl
  have e3 : ∀ x y : A, exchanged [x, y] 1 1 = [x, y] := fun _ _ => rfl
  have s1 : ∀ x y : A, chance μ (M.fold (interchangeStep R rate) [x, y] [1]) (· = [b, a]) =
      ENNReal.ofReal (1 - rate) * (open Classical in if [x, y] = [b, a] then 1 else 0) + ENNReal.ofReal rate *
        (((open Classical in if [y, x] = [b, a] then 1 else 0) + (open Classical in if [x, y] = [b, a] then 1 else 0)) / 2) := by
    intro x y
    rw [M.fold, interchangeStep_chance hR h0 h1 (by simp) (fun s => hl _ s)]
    simp only [List.length_cons, List.length_nil, Finset.sum_range_succ, Finset.sum_range_zero, zero_add, e2, e3]
    rw [hp, hp]
    norm_num
  have q1 : ¬ [a, b] = [b, a] := fun h => hab (List.cons.inj h).1
  have t1 : chance μ (M.fold (interchangeStep R rate) [a, b] [1]) (· = [b, a]) = ENNReal.ofReal (rate / 2) := by
    rw [s1, if_neg q1, if_pos rfl, mul_zero, zero_add, add_zero, ENNReal.ofReal_div_of_pos (by norm_num), mul_one_div]
    simp
  have t2 : chance μ (M.fold (interchangeStep R rate) [b, a] [1]) (· = [b, a]) = ENNReal.ofReal (1 - rate / 2) := by
    rw [s1, if_neg q1, if_pos rfl, mul_one, zero_add, mul_one_div,
      show (2 : ℝ≥0∞) = ENNReal.ofReal 2 by simp, ← ENNReal.ofReal_div_of_pos (by norm_num), ← ENNReal.ofReal_add (by linarith) (by linarith)]
    congr 1
    ring
  show chance μ (M.fold (interchangeStep R rate) [a, b] [0, 1]) _ = _
  rw [M.fold, interchangeStep_chance hR h0 h1 (by simp) (fun s => hl _ s)]
  simp only [List.length_cons, List.length_nil, Finset.sum_range_succ, Finset.sum_range_zero, zero_add, e0, e1, t1, t2]
  rw [← ENNReal.ofReal_add (by linarith) (by linarith), show rate / 2 + (1 - rate / 2) = 1 by ring, ENNReal.ofReal_one,
    show ((1 + 1 : ℕ) : ℝ≥0∞) = ENNReal.ofReal 2 by norm_num, mul_one_div, ← ENNReal.ofReal_div_of_pos (by norm_num),
    ← ENNReal.ofReal_mul (by linarith), ← ENNReal.ofReal_add (by nlinarith) (by linarith)]
  congr 1
  ring

/-- **C165, Interchange, three genes at rate 1**: of the six orderings, three result with probability `5 / 27` and three with
`4 / 27`. -/
theorem C165_interchange_three (hR : Ideal R μ) :
    (∀ t ∈ [[1, 0, 2], [1, 2, 0], [0, 2, 1]], chance μ (interchange R 1 [0, 1, 2]) (· = t) = 5 / 27) ∧
    (∀ t ∈ [[0, 1, 2], [2, 0, 1], [2, 1, 0]], chance μ (interchange R 1 [0, 1, 2]) (· = t) = 4 / 27) := by
  have h : ∀ t : List Nat, chance μ (interchange R 1 [0, 1, 2]) (· = t) =
      ((choices 3 3).countP fun js => exchangedBy [0, 1, 2] 0 js = t : ℕ) / (27 : ℝ≥0∞) := by
    intro t
    rw [C165_interchange_law hR (by decide) (· = t)]
    congr 1
    simp only [List.length_cons, List.length_nil]
    norm_num
  have a : ∀ t ∈ [[1, 0, 2], [1, 2, 0], [0, 2, 1]], (choices 3 3).countP (fun js => exchangedBy [0, 1, 2] 0 js = t) = 5 := by decide
  have b : ∀ t ∈ [[0, 1, 2], [2, 0, 1], [2, 1, 0]], (choices 3 3).countP (fun js => exchangedBy [0, 1, 2] 0 js = t) = 4 := by decide
  exact ⟨fun t ht => by rw [h t, a t ht]; rfl, fun t ht => by rw [h t, b t ht]; rfl⟩

end

example := C165_reversing_first tapeRng_ideal (rate := 1 / 2) (by norm_num) (by norm_num) (x := 1) (xs := [2, 3]) (k := 2) (by decide) (by decide)
example := C165_reversing_left tapeRng_ideal (rate := 1 / 2) (by norm_num) (by norm_num) (x := 1) (p := [2]) (y := 3) (q := [4]) (by decide)
example := C165_reversing_right tapeRng_ideal (rate := 1 / 2) (by norm_num) (by norm_num) (x := 1) (p := [2]) (y := 3) (q := [4]) (k := 1) (by decide) (by decide)
example := C165_inversion_unchanged tapeRng_ideal (rate := 1 / 2) (by norm_num) (by norm_num) (c := [1, 2, 3]) (by decide) (by decide)
example := C165_inversion_first tapeRng_ideal (rate := 1 / 2) (by norm_num) (by norm_num) (c := [1, 2, 3]) (by decide) (by decide)
example := C165_inversion_last tapeRng_ideal (rate := 1 / 2) (by norm_num) (by norm_num) (c := [1, 2, 3]) (by decide) (by decide)
example := C165_inversion_ends tapeRng_ideal (rate := 1 / 2) (by norm_num) (by norm_num) (c := [1, 2, 3]) (by decide) (by decide)
example := C165_interchange_law tapeRng_ideal (c := [1, 2, 3]) (by decide) (fun l => l[0]? = some 1)
example := C165_interchange_biased tapeRng_ideal (c := [1, 2, 3]) (by decide) [3, 2, 1]
example := C165_interchange_pair tapeRng_ideal (rate := 1 / 2) (by norm_num) (by norm_num) (a := 1) (b := 2) (by decide)
example := C165_interchange_three tapeRng_ideal

end Ecrs.Props
