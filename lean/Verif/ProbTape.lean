import Verif.Prob
import Mathlib.Probability.ProductMeasure
import Mathlib.MeasureTheory.Function.Floor
import Mathlib.Data.Set.Finite.List
import Mathlib.Data.List.GetD

/-!
# An ideal generator

The state is an infinite tape of numbers of the unit interval, whose law is the infinite product of the uniform
law; every call consumes the first number `u` of the tape.  A call that is to choose from a finite set takes the
element number `⌊u · size⌋` of a list of it.
-/

set_option linter.unusedSectionVars false

namespace Ecrs
open MeasureTheory
open scoped ENNReal

/-- The numbers on the tape. -/
abbrev UnitI : Type := Set.Ico (0 : ℝ) 1

/-- The tape. -/
abbrev Tape : Type := ℕ → UnitI

/-- The uniform law of one number. -/
noncomputable def unitLaw : Measure UnitI := Measure.comap Subtype.val volume

instance : IsProbabilityMeasure unitLaw := by
  refine ⟨?_⟩
  unfold unitLaw
  rw [comap_subtype_coe_apply measurableSet_Ico, Set.image_univ, Subtype.range_coe, Real.volume_Ico]
  simp

/-- The law of the tape. -/
noncomputable def tapeLaw : Measure Tape := Measure.infinitePi fun _ => unitLaw

instance : IsProbabilityMeasure tapeLaw := by unfold tapeLaw; infer_instance

/-- The rest of the tape. -/
def Tape.rest (g : Tape) : Tape := fun n => g (n + 1)

/-- A tape from its first number and its rest. -/
def Tape.cons (x : UnitI × Tape) : Tape
  | 0 => x.1
  | n + 1 => x.2 n

theorem Tape.measurable_cons : Measurable Tape.cons := by
  refine measurable_pi_lambda _ fun n => ?_
  cases n with
  | zero => exact measurable_fst
  | succ n => exact (measurable_pi_apply n).comp measurable_snd

theorem Tape.measurable_rest : Measurable Tape.rest := measurable_pi_lambda _ fun n => measurable_pi_apply (n + 1)

theorem tapeLaw_range (t : ℕ → Set UnitI) (ht : ∀ i, MeasurableSet (t i)) (N : ℕ) :
    (unitLaw.prod tapeLaw).map Tape.cons (Set.pi (Finset.range (N + 1)) t) =
      ∏ i ∈ Finset.range (N + 1), unitLaw (t i) := by
  rw [Measure.map_apply Tape.measurable_cons (MeasurableSet.pi (Finset.countable_toSet _) fun i _ => ht i)]
  have : Tape.cons ⁻¹' (Set.pi (Finset.range (N + 1)) t) = t 0 ×ˢ Set.pi (Finset.range N) fun i => t (i + 1) := by
    ext ⟨u, g⟩
    simp only [Set.mem_preimage, Set.mem_pi, Set.mem_prod]
    constructor
    · intro h
      refine ⟨h 0 (by simp), fun i hi => h (i + 1) (by simpa using hi)⟩
    · rintro ⟨h0, h1⟩ i hi
      cases i with
      | zero => exact h0
      | succ i => exact h1 i (by simpa using hi)
  rw [this, Measure.prod_prod, tapeLaw, Measure.infinitePi_pi _ fun i _ => ht (i + 1), Finset.prod_range_succ', mul_comm]

theorem tapeLaw_cons : (unitLaw.prod tapeLaw).map Tape.cons = tapeLaw := by
  classical
  refine Measure.eq_infinitePi _ fun s t ht => ?_
  obtain ⟨N, hN⟩ := s.exists_nat_subset_range
  have hN' : s ⊆ Finset.range (N + 1) := hN.trans (Finset.range_subset_range.2 (by omega))
  have e1 : Set.pi (s : Set ℕ) t = Set.pi (Finset.range (N + 1)) fun i => if i ∈ s then t i else Set.univ := by
    ext g
    simp only [Set.mem_pi]
    constructor
    · intro h i _
      split
      · next hi => exact h i hi
      · trivial
    · intro h i hi
      have := h i (hN' hi)
      rwa [if_pos (by simpa using hi)] at this
  rw [e1, tapeLaw_range _ (fun i => by split; exacts [ht i, .univ])]
  rw [← Finset.prod_subset hN']
  · exact Finset.prod_congr rfl fun i hi => by rw [if_pos hi]
  · intro i _ hi
    rw [if_neg hi, measure_univ]

theorem measurable_step {A : Set UnitI} {E : Set Tape} (hA : MeasurableSet A) (hE : MeasurableSet E) :
    MeasurableSet {g : Tape | g 0 ∈ A ∧ g.rest ∈ E} :=
  ((measurable_pi_apply 0) hA).inter (Tape.measurable_rest hE)

/-- The first number and the rest of the tape are independent, and the rest has the law of the tape. -/
theorem tapeLaw_step {A : Set UnitI} {E : Set Tape} (hA : MeasurableSet A) (hE : MeasurableSet E) :
    tapeLaw {g | g 0 ∈ A ∧ g.rest ∈ E} = unitLaw A * tapeLaw E := by
  have hm := measurable_step hA hE
  conv_lhs => rw [← tapeLaw_cons]
  rw [Measure.map_apply Tape.measurable_cons hm, ← Measure.prod_prod]
  rfl

/-- The measure of a set of reals on the tape. -/
theorem volume_unitI {A : Set ℝ} :
    unitLaw (Subtype.val ⁻¹' A) = volume (A ∩ Set.Ico 0 1) := by
  rw [unitLaw, comap_subtype_coe_apply measurableSet_Ico, Subtype.image_preimage_coe, Set.inter_comm]

section choose
variable {α : Type}

/-- Choose from a finite set. -/
noncomputable def pick [Inhabited α] (S : Finset α) (g : Tape) : α × Tape :=
  (S.toList.getD ⌊(g 0 : ℝ) * S.card⌋₊ default, g.rest)

theorem pick_lt (S : Finset α) (hS : S.Nonempty) (g : Tape) : ⌊(g 0 : ℝ) * S.card⌋₊ < S.toList.length := by
  have h0 := (g 0).2
  have hc : (0 : ℝ) < S.card := by exact_mod_cast hS.card_pos
  rw [Finset.length_toList, Nat.floor_lt (mul_nonneg h0.1 hc.le)]
  nlinarith [h0.2]

theorem pick_mem [Inhabited α] (S : Finset α) (hS : S.Nonempty) (g : Tape) : (pick S g).1 ∈ S := by
  have := pick_lt S hS g
  unfold pick
  rw [List.getD_eq_getElem _ _ this]
  exact Finset.mem_toList.1 (List.getElem_mem this)

/-- The numbers that make `pick` choose element number `i`. -/
theorem volume_cell {n i : ℕ} (hi : i < n) :
    volume ({u : ℝ | ⌊u * n⌋₊ = i} ∩ Set.Ico 0 1) = (n : ℝ≥0∞)⁻¹ := by
  have hn : (0 : ℝ) < n := by exact_mod_cast (by omega : 0 < n)
  have e : {u : ℝ | ⌊u * n⌋₊ = i} ∩ Set.Ico 0 1 = Set.Ico ((i : ℝ) / n) ((i + 1 : ℝ) / n) := by
    ext u
    simp only [Set.mem_inter_iff, Set.mem_ofPred_eq, Set.mem_Ico]
    constructor
    · rintro ⟨h, h0, h1⟩
      obtain ⟨h2, h3⟩ := (Nat.floor_eq_iff (mul_nonneg h0 hn.le)).1 h
      exact ⟨(div_le_iff₀ hn).2 h2, (lt_div_iff₀ hn).2 h3⟩
    · rintro ⟨h2, h3⟩
      have h0 : 0 ≤ u := le_trans (by positivity) h2
      have hin : (i + 1 : ℝ) ≤ n := by exact_mod_cast hi
      refine ⟨(Nat.floor_eq_iff (mul_nonneg h0 hn.le)).2 ⟨(div_le_iff₀ hn).1 h2, (lt_div_iff₀ hn).1 h3⟩, h0, ?_⟩
      exact lt_of_lt_of_le h3 ((div_le_one hn).2 hin)
  rw [e, Real.volume_Ico, show ((i + 1 : ℝ) / n - i / n) = (n : ℝ)⁻¹ by field_simp; ring, ENNReal.ofReal_inv_of_pos hn,
    ENNReal.ofReal_natCast]

theorem measurable_cell (n i : ℕ) : MeasurableSet {u : ℝ | ⌊u * n⌋₊ = i} :=
  (Nat.measurable_floor.comp (measurable_id.mul_const (n : ℝ))) (measurableSet_singleton i)

theorem pick_uniform [Inhabited α] [Countable α] {S : Finset α} (hS : S.Nonempty) :
    Uniform tapeLaw (M.lift (pick S)) (S : Set α) := by
  classical
  have key : ∀ a E, hits (M.lift (pick S)) a E =
      if a ∈ S then {g | g 0 ∈ Subtype.val ⁻¹' {u : ℝ | ⌊u * S.card⌋₊ = S.toList.idxOf a} ∧ g.rest ∈ E} else ∅ := by
    intro a E
    ext g
    have hl := pick_lt S hS g
    simp only [hits, Set.mem_ofPred_eq]
    constructor
    · rintro ⟨g', h, hE⟩
      rw [M.lift_run] at h
      have h' := Except.ok.inj h
      have ha : a ∈ S := by
        have := pick_mem S hS g
        rw [h'] at this
        exact this
      rw [if_pos ha]
      have h1 : S.toList.getD ⌊(g 0 : ℝ) * S.card⌋₊ default = a := (Prod.mk.inj h').1
      rw [List.getD_eq_getElem _ _ hl] at h1
      refine ⟨?_, ?_⟩
      · simp only [Set.mem_preimage, Set.mem_ofPred_eq]
        rw [← h1]
        exact (S.nodup_toList.idxOf_getElem _ hl).symm
      · rw [show g.rest = g' from (Prod.mk.inj h').2]; exact hE
    · intro h
      split at h
      · next ha =>
        refine ⟨g.rest, ?_, h.2⟩
        rw [M.lift_run]
        have h1 : ⌊(g 0 : ℝ) * S.card⌋₊ = S.toList.idxOf a := h.1
        have h2 : S.toList.idxOf a < S.toList.length := List.idxOf_lt_length_of_mem (Finset.mem_toList.2 ha)
        unfold pick
        rw [h1, List.getD_eq_getElem _ _ h2, List.getElem_idxOf]
      · cases h
  have hidx : ∀ a ∈ S, S.toList.idxOf a < S.card := by
    intro a ha
    have := List.idxOf_lt_length_of_mem (Finset.mem_toList.2 ha)
    rwa [Finset.length_toList] at this
  refine ⟨?_, ?_, ⟨Set.univ, Set.countable_univ, fun _ _ _ _ => trivial⟩⟩
  · intro a E hE
    rw [key]
    split
    · exact ((measurable_pi_apply (0 : ℕ)) (measurable_subtype_coe (measurable_cell _ _))).inter (Tape.measurable_rest hE)
    · exact .empty
  · intro a E hE
    rw [key]
    by_cases ha : a ∈ S
    · rw [if_pos ha, if_pos (by simpa using ha), tapeLaw_step (measurable_subtype_coe (measurable_cell _ _)) hE,
        volume_unitI, volume_cell (hidx a ha), Set.ncard_coe_finset]
    · rw [if_neg ha, if_neg (by simpa using ha), measure_empty, zero_mul]

end choose

theorem finite_samples (n k : ℕ) : {l : List ℕ | l.length = k ∧ l.Nodup ∧ ∀ i ∈ l, i < n}.Finite := by
  refine (List.finite_length_eq (Fin n) k |>.image (List.map Fin.val)).subset ?_
  rintro l ⟨h1, -, h3⟩
  refine ⟨l.pmap Fin.mk h3, by simpa using h1, ?_⟩
  rw [List.map_pmap]
  exact List.pmap_eq_self.2 fun _ _ => rfl

theorem finite_perms (n : ℕ) : {l : List ℕ | l.Perm (List.range n)}.Finite := by
  refine (List.finite_toSet (List.range n).permutations).subset ?_
  intro l hl
  exact List.mem_permutations.2 hl

open Classical in
/-- The ideal generator on the tape. -/
noncomputable def tapeRng : Rng Tape ℝ where
  below g lo hi := pick (Finset.Ico lo hi) g
  below_spec g lo hi h := by
    have := pick_mem (Finset.Ico lo hi) ⟨lo, by simpa using h⟩ g
    simpa using this
  upto g lo hi := pick (Finset.Icc lo hi) g
  upto_spec g lo hi h := by
    have := pick_mem (Finset.Icc lo hi) ⟨lo, by simpa using h⟩ g
    simpa using this
  unit g := (g 0, g.rest)
  unit_spec g := (g 0).2
  coin g := pick Finset.univ g
  sample g n k := pick (finite_samples n k).toFinset g
  sample_spec g n k h := by
    have := pick_mem (finite_samples n k).toFinset
      ⟨List.range k, by simpa [List.nodup_range] using fun i hi => lt_of_lt_of_le hi h⟩ g
    simpa using this
  shuffle g n := pick (finite_perms n).toFinset g
  shuffle_spec g n := by
    have := pick_mem (finite_perms n).toFinset ⟨List.range n, by simp⟩ g
    simpa using this
  threadBelow g lo hi := pick (Finset.Ico lo hi) g
  threadBelow_spec g lo hi h := by
    have := pick_mem (Finset.Ico lo hi) ⟨lo, by simpa using h⟩ g
    simpa using this
  clonesShareState := true

/-- Such a generator exists. -/
theorem tapeRng_ideal : Ideal tapeRng tapeLaw where
  total := measure_univ
  below lo hi h := by
    have := pick_uniform (S := Finset.Ico lo hi) ⟨lo, by simpa using h⟩
    rw [Finset.coe_Ico] at this
    exact Law.of_eq this (by unfold Rng.genRange; rw [if_pos h]; rfl)
  upto lo hi h := by
    have := pick_uniform (S := Finset.Icc lo hi) ⟨lo, by simpa using h⟩
    rw [Finset.coe_Icc] at this
    exact Law.of_eq this (by unfold Rng.genRangeIncl; rw [if_pos h]; rfl)
  unit A E hA hE := by
    have h1 : MeasurableSet (Subtype.val ⁻¹' A : Set UnitI) := measurable_subtype_coe hA
    refine ⟨measurable_step h1 hE, ?_⟩
    rw [← volume_unitI, ← tapeLaw_step (measurable_subtype_coe hA) hE]
    rfl
  coin := by
    have := pick_uniform (S := (Finset.univ : Finset Bool)) ⟨true, by simp⟩
    rw [Finset.coe_univ] at this
    exact this
  sample n k h := by
    have := pick_uniform (S := (finite_samples n k).toFinset)
      ⟨List.range k, by simpa [List.nodup_range] using fun i hi => lt_of_lt_of_le hi h⟩
    rw [Set.Finite.coe_toFinset] at this
    exact Law.of_eq this (by unfold Rng.indexSample; rw [if_pos h]; rfl)
  shuffle n := by
    have := pick_uniform (S := (finite_perms n).toFinset) ⟨List.range n, by simp⟩
    rw [Set.Finite.coe_toFinset] at this
    exact this
  threadBelow lo hi h := by
    have := pick_uniform (S := Finset.Ico lo hi) ⟨lo, by simpa using h⟩
    rw [Finset.coe_Ico] at this
    exact Law.of_eq this (by unfold Rng.threadRange; rw [if_pos h]; rfl)
  clones := rfl

end Ecrs
