import Verif.Props.ProbVariation4
import Mathlib.Data.Nat.Choose.Sum
import Mathlib.Algebra.BigOperators.Intervals
import Mathlib.Tactic.FieldSimp

/-!
# C154: positional and distributional bias of the crossover operators

How likely a gene is exchanged, depending on its position, and how likely two genes are separated, depending on their distance.
-/

set_option linter.unusedSectionVars false

namespace Ecrs.Props
open Ecrs Ecrs.Ga MeasureTheory
open scoped ENNReal Nat

section
variable {G A : Type} [MeasurableSpace G] {R : Rng G ℝ} {μ : Measure G}

/-- Specification: the first child has the second parent's gene at position `i`. -/
def Exchanged (p2 : List A) (i : Nat) (kids : List A × List A) : Prop := kids.1[i]? = p2[i]?

/-- Specification: the first child has the genes at positions `i` and `j` from different parents. -/
def Separated (p1 p2 : List A) (i j : Nat) (kids : List A × List A) : Prop :=
  (kids.1[i]? = p1[i]? ∧ kids.1[j]? = p2[j]?) ∨ (kids.1[i]? = p2[i]? ∧ kids.1[j]? = p1[j]?)

/-- Specification: the parents differ at position `i`. -/
def DifferAt (p1 p2 : List A) (i : Nat) : Prop := i < p1.length ∧ p1[i]? ≠ p2[i]?

theorem exchanged_iff {p1 p2 : List A} {kids : List A × List A} {i : Nat} (hi : DifferAt p1 p2 i) {b : Nat → Prop} [DecidablePred b]
    (hb : kids.1[i]? = if b i then p1[i]? else p2[i]?) : Exchanged p2 i kids ↔ ¬ b i := by
  unfold Exchanged
  rw [hb]
  split
  · rename_i h; exact ⟨fun h' => absurd h' hi.2, fun h' => absurd h h'⟩
  · rename_i h; exact ⟨fun _ => h, fun _ => rfl⟩

theorem separated_iff {p1 p2 : List A} {kids : List A × List A} {i j : Nat} (hi : DifferAt p1 p2 i) (hj : DifferAt p1 p2 j)
    {b : Nat → Prop} [DecidablePred b] (hbi : kids.1[i]? = if b i then p1[i]? else p2[i]?)
    (hbj : kids.1[j]? = if b j then p1[j]? else p2[j]?) : Separated p1 p2 i j kids ↔ ¬ (b i ↔ b j) := by
  unfold Separated
  rw [hbi, hbj]
  have h1 := hi.2
  have h2 := hj.2
  by_cases k1 : b i <;> by_cases k2 : b j <;> simp [k1, k2, h1, h2, Ne.symm h1, Ne.symm h2]

/-! ## SinglePoint -/

theorem getElem?_cut {p1 p2 : List A} (hl : p1.length = p2.length) {cut z : Nat} (hz : z < p1.length) :
    (p1.take cut ++ p2.drop cut)[z]? = if z < cut then p1[z]? else p2[z]? := by
  rw [List.getElem?_append]
  simp only [List.length_take]
  split
  · rw [List.getElem?_take, if_pos (by omega), if_pos (by omega)]
  · rw [List.getElem?_drop, if_neg (by omega)]
    congr 1; omega

/-- **C154, SinglePoint, position.** The gene at position `i` (from 0) of `n` is exchanged with probability `(i + 1) / n`: the last one always,
the first one hardly ever. -/
theorem C154_single_point_position (hR : Ideal R μ) {p1 p2 : List A} (hl : p1.length = p2.length) {i : Nat} (hi : DifferAt p1 p2 i) :
    chance μ (singlePoint R p1 p2) (Exchanged p2 i) = ((i + 1 : ℕ) : ℝ≥0∞) / p1.length := by
  classical
  have hn := hi.1
  rw [C134_single_point hR hl (by omega)]
  congr 2
  rw [show (Finset.range p1.length).filter _ = Finset.range (i + 1) from ?_, Finset.card_range]
  ext cut
  simp only [Finset.mem_filter, Finset.mem_range]
  rw [exchanged_iff (b := fun z => z < cut) hi (getElem?_cut hl hn)]
  omega

/-- **C154, SinglePoint, distance.** Genes at distance `d` are separated with probability `d / n`. -/
theorem C154_single_point_linkage (hR : Ideal R μ) {p1 p2 : List A} (hl : p1.length = p2.length) {i j : Nat} (hij : i < j)
    (hi : DifferAt p1 p2 i) (hj : DifferAt p1 p2 j) :
    chance μ (singlePoint R p1 p2) (Separated p1 p2 i j) = ((j - i : ℕ) : ℝ≥0∞) / p1.length := by
  classical
  have hn := hj.1
  rw [C134_single_point hR hl (by omega)]
  congr 2
  rw [show (Finset.range p1.length).filter _ = Finset.Ioc i j from ?_, Nat.card_Ioc]
  ext cut
  simp only [Finset.mem_filter, Finset.mem_range, Finset.mem_Ioc]
  rw [separated_iff (b := fun z => z < cut) hi hj (getElem?_cut hl hi.1) (getElem?_cut hl hj.1)]
  omega

/-! ## TwoPoint -/

theorem getElem?_segment {p1 p2 : List A} (hl : p1.length = p2.length) {lo hi z : Nat} (h : lo ≤ hi) (hhi : hi < p1.length) (hz : z < p1.length) :
    (p1.take lo ++ (p2.take hi).drop lo ++ p1.drop hi)[z]? = if ¬ (lo ≤ z ∧ z < hi) then p1[z]? else p2[z]? := by
  rw [List.getElem?_append, List.getElem?_append]
  simp only [List.length_append, List.length_take, List.length_drop]
  split
  · split
    · rw [List.getElem?_take, if_pos (by omega), if_pos (by omega)]
    · rw [List.getElem?_drop, List.getElem?_take, if_pos (by omega), if_neg (by omega)]
      congr 1; omega
  · rw [List.getElem?_drop, if_pos (by omega)]
    congr 1; omega

theorem card_one_of_two (n : Nat) (S : Finset Nat) (hS : S ⊆ Finset.range n) :
    ((Finset.range n ×ˢ Finset.range n).filter fun c => ¬ (c.1 ∈ S ↔ c.2 ∈ S)).card = 2 * S.card * (n - S.card) := by
  have e : (Finset.range n ×ˢ Finset.range n).filter (fun c => ¬ (c.1 ∈ S ↔ c.2 ∈ S)) =
      S ×ˢ (Finset.range n \ S) ∪ (Finset.range n \ S) ×ˢ S := by
    ext ⟨a, b⟩
    simp only [Finset.mem_filter, Finset.mem_product, Finset.mem_union, Finset.mem_sdiff]
    have ha := @hS a
    have hb := @hS b
    tauto
  rw [e, Finset.card_union_of_disjoint, Finset.card_product, Finset.card_product, Finset.card_sdiff_of_subset hS, Finset.card_range]
  · ring
  · rw [Finset.disjoint_left]
    rintro ⟨a, b⟩ h1 h2
    simp only [Finset.mem_product, Finset.mem_sdiff] at h1 h2
    exact h2.1.2 h1.1

/-- **C154, TwoPoint, position.** The gene at position `i` (from 0) of `n` is exchanged with probability `2 (i + 1)(n - 1 - i) / n²`: the last
one never, those in the middle with probability about 1/2. -/
theorem C154_two_point_position (hR : Ideal R μ) {p1 p2 : List A} (hl : p1.length = p2.length) {i : Nat} (hi : DifferAt p1 p2 i) :
    chance μ (twoPoint R p1 p2) (Exchanged p2 i) = ((2 * (i + 1) * (p1.length - (i + 1)) : ℕ) : ℝ≥0∞) / p1.length ^ 2 := by
  classical
  have hn := hi.1
  rw [C134_two_point hR hl (by omega)]
  congr 2
  have h := card_one_of_two p1.length (Finset.range (i + 1)) (by intro x hx; rw [Finset.mem_range] at hx ⊢; omega)
  rw [Finset.card_range] at h
  rw [← h]
  congr 1
  refine Finset.filter_congr fun c hc => ?_
  obtain ⟨h1, h2⟩ := Finset.mem_product.1 hc
  rw [Finset.mem_range] at h1 h2
  rw [exchanged_iff (b := fun z => ¬ (min c.1 c.2 ≤ z ∧ z < max c.1 c.2)) hi (getElem?_segment hl (by omega) (by omega) hn)]
  simp only [Finset.mem_range]
  omega

/-- **C154, TwoPoint, distance.** Genes at distance `d` are separated with probability `2 d (n - d) / n²`. -/
theorem C154_two_point_linkage (hR : Ideal R μ) {p1 p2 : List A} (hl : p1.length = p2.length) {i j : Nat} (hij : i < j)
    (hi : DifferAt p1 p2 i) (hj : DifferAt p1 p2 j) :
    chance μ (twoPoint R p1 p2) (Separated p1 p2 i j) = ((2 * (j - i) * (p1.length - (j - i)) : ℕ) : ℝ≥0∞) / p1.length ^ 2 := by
  classical
  have hn := hj.1
  rw [C134_two_point hR hl (by omega)]
  congr 2
  have h := card_one_of_two p1.length (Finset.Ioc i j) (by intro x hx; rw [Finset.mem_Ioc] at hx; rw [Finset.mem_range]; omega)
  rw [Nat.card_Ioc] at h
  rw [← h]
  congr 1
  refine Finset.filter_congr fun c hc => ?_
  obtain ⟨h1, h2⟩ := Finset.mem_product.1 hc
  rw [Finset.mem_range] at h1 h2
  rw [separated_iff (b := fun z => ¬ (min c.1 c.2 ≤ z ∧ z < max c.1 c.2)) hi hj (getElem?_segment hl (by omega) (by omega) hi.1)
    (getElem?_segment hl (by omega) (by omega) hn)]
  simp only [Finset.mem_Ioc]
  omega

/-! ## Uniform, UniformParameterized and Shuffle -/

/-- Summing over the bits at one position first. -/
theorem sum_masks_at {n i : Nat} (hi : i ≤ n) (F : List Bool → ℝ≥0∞) :
    ∑ m ∈ masks (n + 1), F m = ∑ m ∈ masks n, (F (m.insertIdx i true) + F (m.insertIdx i false)) := by
  rw [Finset.sum_add_distrib]
  have hinj : ∀ b, Set.InjOn (fun m : List Bool => m.insertIdx i b) (masks n) := by
    intro b m hm m' hm' h
    have h1 := congrArg (List.eraseIdx · i) h
    simpa using h1
  have e : masks (n + 1) = (masks n).image (fun m => m.insertIdx i true) ∪ (masks n).image (fun m => m.insertIdx i false) := by
    ext m
    simp only [Finset.mem_union, Finset.mem_image, mem_masks]
    constructor
    · intro hm
      have hlen : (m.eraseIdx i).length = n := by rw [List.length_eraseIdx_of_lt (by omega)]; omega
      have hins : (m.eraseIdx i).insertIdx i m[i] = m := List.insertIdx_eraseIdx_getElem (by omega)
      cases hb : m[i] with
      | true => left; exact ⟨_, hlen, by rw [hb] at hins; exact hins⟩
      | false => right; exact ⟨_, hlen, by rw [hb] at hins; exact hins⟩
    · rintro (⟨a, ha, rfl⟩ | ⟨a, ha, rfl⟩) <;> rw [List.length_insertIdx_of_le_length (by omega)] <;> omega
  rw [e, Finset.sum_union, Finset.sum_image (hinj true), Finset.sum_image (hinj false)]
  rw [Finset.disjoint_left]
  intro m h1 h2
  obtain ⟨a, ha, rfl⟩ := Finset.mem_image.1 h1
  obtain ⟨b, hb, h⟩ := Finset.mem_image.1 h2
  have h3 := congrArg (fun l : List Bool => l[i]?) h
  rw [mem_masks] at ha hb
  rw [List.getElem?_insertIdx_self, List.getElem?_insertIdx_self, if_pos (by omega), if_pos (by omega)] at h3
  simp at h3

theorem mask_exchanged {p1 p2 : List A} (hl : p1.length = p2.length) {i : Nat} (hi : DifferAt p1 p2 i) {m : List Bool} (hm : m.length = p1.length) :
    Exchanged p2 i (mix m p1 p2, mix m p2 p1) ↔ m[i]? ≠ some true :=
  exchanged_iff (b := fun z => m[z]? = some true) hi (mix_getElem? m p1 p2 i hm hl)

theorem mask_separated {p1 p2 : List A} (hl : p1.length = p2.length) {i j : Nat} (hi : DifferAt p1 p2 i) (hj : DifferAt p1 p2 j)
    {m : List Bool} (hm : m.length = p1.length) :
    Separated p1 p2 i j (mix m p1 p2, mix m p2 p1) ↔ ¬ (m[i]? = some true ↔ m[j]? = some true) :=
  separated_iff (b := fun z => m[z]? = some true) hi hj (mix_getElem? m p1 p2 i hm hl) (mix_getElem? m p1 p2 j hm hl)

/-- Masks with a zero at a position, weighted. -/
theorem sum_masks_zero {n i : Nat} (hi : i ≤ n) (F : List Bool → ℝ≥0∞) :
    ∑ m ∈ masks (n + 1) with m[i]? ≠ some true, F m = ∑ m ∈ masks n, F (m.insertIdx i false) := by
  rw [Finset.sum_filter, sum_masks_at hi]
  refine Finset.sum_congr rfl fun m hm => ?_
  rw [mem_masks] at hm
  have h : ∀ b : Bool, (m.insertIdx i b)[i]? = some b := fun b => by rw [List.getElem?_insertIdx_self, if_pos (by omega)]
  rw [h, h]
  simp

/-- Masks that differ at two positions, weighted by the number of ones and zeros. -/
theorem sum_masks_apart {n i j : Nat} (hij : i < j) (hj : j < n + 2) (F : Nat → Nat → ℝ≥0∞) :
    ∑ m ∈ masks (n + 2) with ¬ (m[i]? = some true ↔ m[j]? = some true), F (m.count true) (m.count false) =
      2 * ∑ m ∈ masks n, F (m.count true + 1) (m.count false + 1) := by
  rw [Finset.sum_filter, sum_masks_at (i := j) (by omega), sum_masks_at (i := i) (by omega), Finset.mul_sum]
  refine Finset.sum_congr rfl fun m hm => ?_
  rw [mem_masks] at hm
  have hc : ∀ (b : Bool) (l : List Bool) (k : Nat) (x : Bool), k ≤ l.length → (l.insertIdx k x).count b = l.count b + if x = b then 1 else 0 := by
    intro b l k x hk
    have := (List.perm_insertIdx x l hk).count_eq b
    rw [this, List.count_cons]
    congr 1
    cases x <;> cases b <;> rfl
  have hg : ∀ x y : Bool, ((m.insertIdx i x).insertIdx j y)[i]? = some x ∧ ((m.insertIdx i x).insertIdx j y)[j]? = some y := by
    intro x y
    have hlen : (m.insertIdx i x).length = n + 1 := by rw [List.length_insertIdx_of_le_length (by omega)]; omega
    constructor
    · rw [List.getElem?_insertIdx_of_lt hij, List.getElem?_insertIdx_self, if_pos (by omega)]
    · rw [List.getElem?_insertIdx_self, if_pos (by omega)]
  have hk : ∀ x y b : Bool, ((m.insertIdx i x).insertIdx j y).count b = m.count b + (if x = b then 1 else 0) + if y = b then 1 else 0 := by
    intro x y b
    have hlen : (m.insertIdx i x).length = n + 1 := by rw [List.length_insertIdx_of_le_length (by omega)]; omega
    rw [hc _ _ _ _ (by omega), hc _ _ _ _ (by omega)]
  simp only [(hg _ _).1, (hg _ _).2, hk]
  simp
  ring

/-- Summing over masks by the number of ones. -/
theorem sum_masks_count (n : Nat) : ∀ F : Nat → ℝ≥0∞, ∑ m ∈ masks n, F (m.count true) = ∑ c ∈ Finset.range (n + 1), (n.choose c) * F c := by
  induction n with
  | zero =>
    intro F
    have : masks 0 = {[]} := by ext m; rw [mem_masks, Finset.mem_singleton, List.length_eq_zero_iff]
    simp [this]
  | succ n ih =>
    intro F
    rw [sum_masks_at (i := 0) (by omega)]
    simp only [List.insertIdx_zero, List.count_cons_self]
    have : ∀ m : List Bool, (false :: m).count true = m.count true := fun m => by simp
    simp only [this]
    rw [Finset.sum_add_distrib, ih (fun c => F (c + 1)), ih F]
    rw [Finset.sum_range_succ' (fun c => ((n + 1).choose c : ℝ≥0∞) * F c)]
    simp only [Nat.choose_succ_succ, Nat.cast_add, add_mul, Finset.sum_add_distrib]
    rw [Finset.sum_range_succ' (fun c => (n.choose c : ℝ≥0∞) * F c) n]
    have h2 : ∑ c ∈ Finset.range (n + 1), (n.choose (c + 1) : ℝ≥0∞) * F (c + 1) = ∑ c ∈ Finset.range n, (n.choose (c + 1) : ℝ≥0∞) * F (c + 1) := by
      rw [Finset.sum_range_succ]; simp
    rw [h2]
    simp
    ring

theorem card_eq_sum {α : Type} (s : Finset α) : (s.card : ℝ≥0∞) = ∑ _x ∈ s, 1 := by simp

/-- **C154, Uniform, position.** Every gene is exchanged with probability 1/2. -/
theorem C154_uniform_position (hR : Ideal R μ) {p1 p2 : List A} (hl : p1.length = p2.length) {i : Nat} (hi : DifferAt p1 p2 i) :
    chance μ (uniform R (1 / 2) p1 p2) (Exchanged p2 i) = 1 / 2 := by
  classical
  rw [C134_uniform hR hl]
  have hn := hi.1
  obtain ⟨n, hn'⟩ : ∃ n, p1.length = n + 1 := ⟨p1.length - 1, by omega⟩
  have e : (masks p1.length).filter (fun m => Exchanged p2 i (mix m p1 p2, mix m p2 p1)) =
      (masks (n + 1)).filter fun m => m[i]? ≠ some true := by
    rw [← hn']
    exact Finset.filter_congr fun m hm => mask_exchanged hl hi (mem_masks.1 hm)
  rw [e, card_eq_sum, sum_masks_zero (by omega), ← card_eq_sum, card_masks, hn', Nat.cast_pow, Nat.cast_ofNat]
  rw [pow_succ, ENNReal.div_eq_div_iff (by simp) (by simp) (by simp) (ENNReal.mul_ne_top (ENNReal.pow_ne_top ENNReal.ofNat_ne_top) ENNReal.ofNat_ne_top)]
  ring

/-- **C154, Uniform, distance.** Any two genes are separated with probability 1/2, whatever their distance. -/
theorem C154_uniform_linkage (hR : Ideal R μ) {p1 p2 : List A} (hl : p1.length = p2.length) {i j : Nat} (hij : i < j)
    (hi : DifferAt p1 p2 i) (hj : DifferAt p1 p2 j) :
    chance μ (uniform R (1 / 2) p1 p2) (Separated p1 p2 i j) = 1 / 2 := by
  classical
  rw [C134_uniform hR hl]
  have hn := hj.1
  obtain ⟨n, hn'⟩ : ∃ n, p1.length = n + 2 := ⟨p1.length - 2, by omega⟩
  have e : (masks p1.length).filter (fun m => Separated p1 p2 i j (mix m p1 p2, mix m p2 p1)) =
      (masks (n + 2)).filter fun m => ¬ (m[i]? = some true ↔ m[j]? = some true) := by
    rw [← hn']
    exact Finset.filter_congr fun m hm => mask_separated hl hi hj (mem_masks.1 hm)
  rw [e, card_eq_sum, sum_masks_apart hij (by omega) (fun _ _ => 1), ← card_eq_sum, card_masks, hn', Nat.cast_pow, Nat.cast_ofNat]
  rw [pow_add, ENNReal.div_eq_div_iff (by simp) (by simp) (by simp) (ENNReal.mul_ne_top (ENNReal.pow_ne_top ENNReal.ofNat_ne_top)
    (ENNReal.pow_ne_top ENNReal.ofNat_ne_top))]
  ring

theorem sum_bits {b : ℝ} (h0 : 0 ≤ b) (h1 : b ≤ 1) (n : Nat) :
    ∑ m ∈ masks n, ENNReal.ofReal (b ^ m.count true * (1 - b) ^ m.count false) = 1 := by
  induction n with
  | zero =>
    have : masks 0 = {[]} := by ext m; rw [mem_masks, Finset.mem_singleton, List.length_eq_zero_iff]
    simp [this]
  | succ n ih =>
    rw [sum_masks_at (i := 0) (by omega), ← ih]
    refine Finset.sum_congr rfl fun m _ => ?_
    simp only [List.insertIdx_zero]
    rw [← ENNReal.ofReal_add (by have : 0 ≤ 1 - b := by linarith
                                 positivity) (by have : 0 ≤ 1 - b := by linarith
                                                 positivity)]
    congr 1
    simp
    ring

/-- **C154, UniformParameterized, position.** Every gene is exchanged with probability `1 - bias`. -/
theorem C154_uniform_parameterized_position (hR : Ideal R μ) {bias : ℝ} (h0 : 0 ≤ bias) (h1 : bias ≤ 1) {p1 p2 : List A}
    (hl : p1.length = p2.length) {i : Nat} (hi : DifferAt p1 p2 i) :
    chance μ (uniformParameterized R bias p1 p2) (Exchanged p2 i) = ENNReal.ofReal (1 - bias) := by
  classical
  rw [C134_uniform_parameterized hR h0 h1 hl]
  have hn := hi.1
  obtain ⟨n, hn'⟩ : ∃ n, p1.length = n + 1 := ⟨p1.length - 1, by omega⟩
  have e : (masks p1.length).filter (fun m => Exchanged p2 i (mix m p1 p2, mix m p2 p1)) =
      (masks (n + 1)).filter fun m => m[i]? ≠ some true := by
    rw [← hn']
    exact Finset.filter_congr fun m hm => mask_exchanged hl hi (mem_masks.1 hm)
  rw [e, sum_masks_zero (by omega), ← mul_one (ENNReal.ofReal (1 - bias)), ← sum_bits h0 h1 n, Finset.mul_sum]
  refine Finset.sum_congr rfl fun m hm => ?_
  rw [mem_masks] at hm
  have hp := List.perm_insertIdx false m (i := i) (by omega)
  rw [hp.count_eq, hp.count_eq, ← ENNReal.ofReal_mul (by linarith)]
  congr 1
  simp
  ring

/-- **C154, UniformParameterized, distance.** Any two genes are separated with probability `2 bias (1 - bias)`. -/
theorem C154_uniform_parameterized_linkage (hR : Ideal R μ) {bias : ℝ} (h0 : 0 ≤ bias) (h1 : bias ≤ 1) {p1 p2 : List A}
    (hl : p1.length = p2.length) {i j : Nat} (hij : i < j) (hi : DifferAt p1 p2 i) (hj : DifferAt p1 p2 j) :
    chance μ (uniformParameterized R bias p1 p2) (Separated p1 p2 i j) = ENNReal.ofReal (2 * bias * (1 - bias)) := by
  classical
  rw [C134_uniform_parameterized hR h0 h1 hl]
  have hn := hj.1
  obtain ⟨n, hn'⟩ : ∃ n, p1.length = n + 2 := ⟨p1.length - 2, by omega⟩
  have e : (masks p1.length).filter (fun m => Separated p1 p2 i j (mix m p1 p2, mix m p2 p1)) =
      (masks (n + 2)).filter fun m => ¬ (m[i]? = some true ↔ m[j]? = some true) := by
    rw [← hn']
    exact Finset.filter_congr fun m hm => mask_separated hl hi hj (mem_masks.1 hm)
  rw [e, sum_masks_apart hij (by omega) (fun a b => ENNReal.ofReal (bias ^ a * (1 - bias) ^ b)),
    ← mul_one (ENNReal.ofReal (2 * bias * (1 - bias))), ← sum_bits h0 h1 n, Finset.mul_sum, Finset.mul_sum]
  refine Finset.sum_congr rfl fun m hm => ?_
  have h2 : 0 ≤ 1 - bias := by linarith
  rw [show (2 : ℝ≥0∞) = ENNReal.ofReal 2 by simp, ← ENNReal.ofReal_mul (by norm_num), ← ENNReal.ofReal_mul (by positivity)]
  congr 1
  ring

theorem sum_count_down (N : Nat) : 2 * ∑ c ∈ Finset.range (N + 1), (N + 1 - c) = (N + 1) * (N + 2) := by
  induction N with
  | zero => rfl
  | succ N ih =>
    rw [Finset.sum_range_succ']
    simp only [Nat.add_sub_add_right, Nat.sub_zero, mul_add, ih]
    ring

theorem sum_count_both (N : Nat) : 6 * ∑ c ∈ Finset.range (N + 1), (c + 1) * (N + 1 - c) = (N + 1) * (N + 2) * (N + 3) := by
  induction N with
  | zero => rfl
  | succ N ih =>
    have h1 : ∑ c ∈ Finset.range (N + 1), (c + 1) * (N + 1 + 1 - c) =
        ∑ c ∈ Finset.range (N + 1), (c + 1) * (N + 1 - c) + ∑ c ∈ Finset.range (N + 1), (c + 1) := by
      rw [← Finset.sum_add_distrib]
      refine Finset.sum_congr rfl fun c hc => ?_
      rw [Finset.mem_range] at hc
      rw [show N + 1 + 1 - c = (N + 1 - c) + 1 by omega]; ring
    have h2 : 2 * ∑ c ∈ Finset.range (N + 1), (c + 1) = (N + 1) * (N + 2) := by
      clear ih h1
      induction N with
      | zero => rfl
      | succ N ih => rw [Finset.sum_range_succ, mul_add, ih]; ring
    rw [Finset.sum_range_succ, h1, mul_add, mul_add, ih]
    have : N + 1 + 1 - (N + 1) = 1 := by omega
    rw [this]
    linarith

/-- **C154, Shuffle, position.** Every gene is exchanged with probability `(n + 1) / (2 n)`, whatever its position. -/
theorem C154_shuffle_position (hR : Ideal R μ) {p1 p2 : List A} (hl : p1.length = p2.length) {i : Nat} (hi : DifferAt p1 p2 i) :
    chance μ (shuffle R p1 p2) (Exchanged p2 i) = ((p1.length + 1 : ℕ) : ℝ≥0∞) / (2 * p1.length : ℕ) := by
  classical
  have hn := hi.1
  rw [C134_shuffle hR hl (by omega)]
  obtain ⟨n, hn'⟩ : ∃ n, p1.length = n + 1 := ⟨p1.length - 1, by omega⟩
  have e : (masks p1.length).filter (fun m => m.count true < p1.length ∧ Exchanged p2 i (mix m p1 p2, mix m p2 p1)) =
      (masks (n + 1)).filter fun m => m[i]? ≠ some true := by
    rw [← hn']
    refine Finset.filter_congr fun m hm => ?_
    rw [mask_exchanged hl hi (mem_masks.1 hm)]
    refine ⟨And.right, fun h => ⟨?_, h⟩⟩
    rw [mem_masks] at hm
    have hlt : i < m.length := by omega
    refine lt_of_le_of_ne (hm ▸ List.count_le_length) fun hc => h ?_
    rw [← hm] at hc
    rw [List.getElem?_eq_getElem hlt]
    exact congrArg some (List.count_eq_length.1 hc _ (List.getElem_mem hlt)).symm
  rw [e, hn', sum_masks_zero (by omega)]
  have e2 : ∑ m ∈ masks n, (((n + 1) * (n + 1).choose ((m.insertIdx i false).count true) : ℕ) : ℝ≥0∞)⁻¹ =
      ∑ m ∈ masks n, (fun c => (((n + 1) * (n + 1).choose c : ℕ) : ℝ≥0∞)⁻¹) (m.count true) := by
    refine Finset.sum_congr rfl fun m hm => ?_
    rw [mem_masks] at hm
    have hp := List.perm_insertIdx false m (i := i) (by omega)
    rw [hp.count_eq]
    simp
  rw [e2, sum_masks_count n (fun c => (((n + 1) * (n + 1).choose c : ℕ) : ℝ≥0∞)⁻¹)]
  have e3 : ∀ c ∈ Finset.range (n + 1), (n.choose c : ℝ≥0∞) * (((n + 1) * (n + 1).choose c : ℕ) : ℝ≥0∞)⁻¹ =
      ((n + 1 - c : ℕ) : ℝ≥0∞) / ((n + 1) ^ 2 : ℕ) := by
    intro c hc
    rw [Finset.mem_range] at hc
    have hpos : 0 < (n + 1).choose c := Nat.choose_pos (by omega)
    rw [← div_eq_mul_inv, ENNReal.div_eq_div_iff (by positivity) (ENNReal.natCast_ne_top _) (by positivity) (ENNReal.natCast_ne_top _)]
    norm_cast
    have := Nat.choose_mul_succ_eq n c
    calc (n + 1) ^ 2 * n.choose c = (n + 1) * (n.choose c * (n + 1)) := by ring
      _ = _ := by rw [this]; ring
  rw [Finset.sum_congr rfl e3]
  simp only [div_eq_mul_inv]
  rw [← Finset.sum_mul, ← div_eq_mul_inv, ← div_eq_mul_inv, ENNReal.div_eq_div_iff (by positivity) (ENNReal.natCast_ne_top _) (by positivity) (ENNReal.natCast_ne_top _)]
  norm_cast
  have := sum_count_down n
  calc 2 * (n + 1) * ∑ c ∈ Finset.range (n + 1), (n + 1 - c) = (n + 1) * (2 * ∑ c ∈ Finset.range (n + 1), (n + 1 - c)) := by ring
    _ = _ := by rw [this]; ring

/-- **C154, Shuffle, distance.** Any two genes are separated with probability `(n + 1) / (3 n)`, whatever their distance. -/
theorem C154_shuffle_linkage (hR : Ideal R μ) {p1 p2 : List A} (hl : p1.length = p2.length) {i j : Nat} (hij : i < j)
    (hi : DifferAt p1 p2 i) (hj : DifferAt p1 p2 j) :
    chance μ (shuffle R p1 p2) (Separated p1 p2 i j) = ((p1.length + 1 : ℕ) : ℝ≥0∞) / (3 * p1.length : ℕ) := by
  classical
  have hn := hj.1
  rw [C134_shuffle hR hl (by omega)]
  obtain ⟨n, hn'⟩ : ∃ n, p1.length = n + 2 := ⟨p1.length - 2, by omega⟩
  have e : (masks p1.length).filter (fun m => m.count true < p1.length ∧ Separated p1 p2 i j (mix m p1 p2, mix m p2 p1)) =
      (masks (n + 2)).filter fun m => ¬ (m[i]? = some true ↔ m[j]? = some true) := by
    rw [← hn']
    refine Finset.filter_congr fun m hm => ?_
    rw [mask_separated hl hi hj (mem_masks.1 hm)]
    refine ⟨And.right, fun h => ⟨?_, h⟩⟩
    rw [mem_masks] at hm
    refine lt_of_le_of_ne (hm ▸ List.count_le_length) fun hc => h ?_
    rw [← hm] at hc
    have hall : ∀ k, k < m.length → m[k]? = some true := fun k hk => by
      rw [List.getElem?_eq_getElem hk]
      exact congrArg some (List.count_eq_length.1 hc _ (List.getElem_mem hk)).symm
    rw [hall i (by omega), hall j (by omega)]
  rw [e, hn', sum_masks_apart hij (by omega) (fun a _ => (((n + 2) * (n + 2).choose a : ℕ) : ℝ≥0∞)⁻¹),
    sum_masks_count n (fun a => (((n + 2) * (n + 2).choose (a + 1) : ℕ) : ℝ≥0∞)⁻¹)]
  have e3 : ∀ c ∈ Finset.range (n + 1), (n.choose c : ℝ≥0∞) * (((n + 2) * (n + 2).choose (c + 1) : ℕ) : ℝ≥0∞)⁻¹ =
      (((c + 1) * (n + 1 - c) : ℕ) : ℝ≥0∞) / ((n + 2) ^ 2 * (n + 1) : ℕ) := by
    intro c hc
    rw [Finset.mem_range] at hc
    have hpos : 0 < (n + 2).choose (c + 1) := Nat.choose_pos (by omega)
    rw [← div_eq_mul_inv, ENNReal.div_eq_div_iff (by positivity) (ENNReal.natCast_ne_top _) (by positivity) (ENNReal.natCast_ne_top _)]
    norm_cast
    have h1 := Nat.choose_mul_succ_eq n c
    have h2 : (n + 2) * (n + 1).choose c = (n + 2).choose (c + 1) * (c + 1) := Nat.add_one_mul_choose_eq (n + 1) c
    calc (n + 2) ^ 2 * (n + 1) * n.choose c = (n + 2) ^ 2 * (n.choose c * (n + 1)) := by ring
      _ = (n + 2) * ((n + 2) * (n + 1).choose c) * (n + 1 - c) := by rw [h1]; ring
      _ = _ := by rw [h2]; ring
  rw [Finset.sum_congr rfl e3]
  simp only [div_eq_mul_inv]
  rw [← Finset.sum_mul, ← mul_assoc, ← div_eq_mul_inv, ← div_eq_mul_inv,
    ENNReal.div_eq_div_iff (by positivity) (ENNReal.natCast_ne_top _) (by positivity) (ENNReal.natCast_ne_top _)]
  norm_cast
  have := sum_count_both n
  calc 3 * (n + 2) * (2 * ∑ c ∈ Finset.range (n + 1), (c + 1) * (n + 1 - c)) =
      (n + 2) * (6 * ∑ c ∈ Finset.range (n + 1), (c + 1) * (n + 1 - c)) := by ring
    _ = _ := by rw [this]; ring

end

/-! ## Concrete cases -/

theorem linkage_len : [1, 2, 3, 4].length = [5, 6, 7, 8].length := rfl

theorem linkage_differ {i : Nat} (h : i < 4) : DifferAt [1, 2, 3, 4] [5, 6, 7, 8] i := by
  refine ⟨h, ?_⟩
  match i, h with
  | 0, _ => decide
  | 1, _ => decide
  | 2, _ => decide
  | 3, _ => decide

example := C154_single_point_position tapeRng_ideal linkage_len (linkage_differ (i := 3) (by decide))
example := C154_single_point_linkage tapeRng_ideal linkage_len (by decide) (linkage_differ (i := 0) (by decide)) (linkage_differ (i := 2) (by decide))
example := C154_two_point_position tapeRng_ideal linkage_len (linkage_differ (i := 1) (by decide))
example := C154_two_point_linkage tapeRng_ideal linkage_len (by decide) (linkage_differ (i := 0) (by decide)) (linkage_differ (i := 2) (by decide))
example := C154_uniform_position tapeRng_ideal linkage_len (linkage_differ (i := 1) (by decide))
example := C154_uniform_linkage tapeRng_ideal linkage_len (by decide) (linkage_differ (i := 0) (by decide)) (linkage_differ (i := 3) (by decide))
example := C154_uniform_parameterized_position tapeRng_ideal (bias := 1 / 4) (by norm_num) (by norm_num) linkage_len (linkage_differ (i := 1) (by decide))
example := C154_uniform_parameterized_linkage tapeRng_ideal (bias := 1 / 4) (by norm_num) (by norm_num) linkage_len (by decide) (linkage_differ (i := 0) (by decide)) (linkage_differ (i := 3) (by decide))
example := C154_shuffle_position tapeRng_ideal linkage_len (linkage_differ (i := 1) (by decide))
example := C154_shuffle_linkage tapeRng_ideal linkage_len (by decide) (linkage_differ (i := 0) (by decide)) (linkage_differ (i := 3) (by decide))

end Ecrs.Props
