import Verif.Ga.Boltzmann
import Verif.ProbTape
import Verif.ProbRun
import Mathlib.MeasureTheory.Integral.Marginal
import Mathlib.Analysis.SpecialFunctions.Integrals.Basic
import Mathlib.MeasureTheory.Constructions.Pi

/-!
# C138: Boltzmann selection
-/

set_option linter.unusedSectionVars false

namespace Ecrs
open Ecrs.Ga MeasureTheory
open scoped ENNReal

/-! ## The joint law of several unit draws -/

section draws
variable {G : Type} [MeasurableSpace G] {R : Rng G ℝ} {μ : Measure G}

/-- The law of one unit draw. -/
noncomputable def unit01 : Measure ℝ := volume.restrict (Set.Ico 0 1)

instance : IsProbabilityMeasure unit01 := ⟨by simp [unit01]⟩

theorem unit_measurePreserving (hR : Ideal R μ) : MeasurePreserving R.unit μ (unit01.prod μ) := by
  have := hR.isProbability
  have hm : Measurable R.unit := by
    refine Measurable.prodMk (f := fun g => (R.unit g).1) (g := fun g => (R.unit g).2) ?_ ?_
    · intro A hA
      have := (hR.unit A Set.univ hA .univ).1
      have e : (fun g => (R.unit g).1) ⁻¹' A = {g | (R.unit g).1 ∈ A ∧ (R.unit g).2 ∈ Set.univ} := by
        ext g; simp
      rw [e]; exact this
    · intro E hE
      have := (hR.unit Set.univ E .univ hE).1
      have e : (fun g => (R.unit g).2) ⁻¹' E = {g | (R.unit g).1 ∈ Set.univ ∧ (R.unit g).2 ∈ E} := by
        ext g; simp
      rw [e]; exact this
  refine ⟨hm, ?_⟩
  symm
  refine Measure.prod_eq fun A E hA hE => ?_
  rw [Measure.map_apply hm (hA.prod hE)]
  have := (hR.unit A E hA hE).2
  rw [unit01, Measure.restrict_apply hA]
  exact this

/-- `n` unit draws in a row. -/
def unitsOf (R : Rng G ℝ) : (n : Nat) → G → (Fin n → ℝ) × G
  | 0, g => (Fin.elim0, g)
  | n + 1, g => (Fin.cons (R.unit g).1 (unitsOf R n (R.unit g).2).1, (unitsOf R n (R.unit g).2).2)

theorem units_measurePreserving (hR : Ideal R μ) : ∀ n,
    MeasurePreserving (unitsOf R n) μ ((Measure.pi fun _ : Fin n => unit01).prod μ)
  | 0 => by
    have := hR.isProbability
    refine ⟨measurable_const.prodMk measurable_id, ?_⟩
    rw [Measure.pi_of_empty, Measure.dirac_prod]
    congr 1
  | n + 1 => by
    have := hR.isProbability
    have ih := units_measurePreserving hR n
    have h1 := unit_measurePreserving hR
    have h2 : MeasurePreserving (Prod.map id (unitsOf R n)) (unit01.prod μ) (unit01.prod ((Measure.pi fun _ : Fin n => unit01).prod μ)) :=
      (MeasurePreserving.id _).prod ih
    have h3 := (measurePreserving_prodAssoc unit01 (Measure.pi fun _ : Fin n => unit01) μ).symm
    have h4 : MeasurePreserving (MeasurableEquiv.piFinSuccAbove (fun _ : Fin (n + 1) => ℝ) 0).symm
        (unit01.prod (Measure.pi fun _ : Fin n => unit01)) (Measure.pi fun _ : Fin (n + 1) => unit01) :=
      (measurePreserving_piFinSuccAbove (fun _ => unit01) 0).symm
    have h5 := h4.prod (MeasurePreserving.id μ)
    have h6 := h5.comp (h3.comp (h2.comp h1))
    have e : unitsOf R (n + 1) = Prod.map (MeasurableEquiv.piFinSuccAbove (fun _ : Fin (n + 1) => ℝ) 0).symm id ∘
        MeasurableEquiv.prodAssoc.symm ∘ Prod.map id (unitsOf R n) ∘ R.unit := by
      funext g
      refine Prod.ext ?_ rfl
      show Fin.cons (R.unit g).1 (unitsOf R n (R.unit g).2).1 =
        (Fin.insertNthEquiv (fun _ : Fin (n + 1) => ℝ) 0) ((R.unit g).1, (unitsOf R n (R.unit g).2).1)
      exact (Fin.insertNth_zero' _ _).symm
    rw [e]
    exact h6

end draws

/-! ## The order of the keys -/

section keys
variable {n : Nat} (w : Fin n → ℝ)

/-- The key of index `i` for the draws `x`. -/
noncomputable def key (x : Fin n → ℝ) (i : Fin n) : ℝ := x i ^ (1 / w i)

/-- The keys of the indices in `L` fall from below `y`, those of `Rs` are below the last of them. -/
def Falls (rel : ℝ → ℝ → Prop) (Rs : List (Fin n)) : List (Fin n) → ℝ → (Fin n → ℝ) → Prop
  | [], y, x => ∀ j ∈ Rs, rel (key w x j) y
  | i :: L, y, x => rel (key w x i) y ∧ Falls rel Rs L (key w x i) x

/-- `<` or `≤`. -/
structure Between (rel : ℝ → ℝ → Prop) : Prop where
  of_lt : ∀ a b, a < b → rel a b
  le : ∀ a b, rel a b → a ≤ b
  meas : ∀ {X : Type} [MeasurableSpace X] {f g : X → ℝ}, Measurable f → Measurable g → MeasurableSet {x | rel (f x) (g x)}

theorem between_lt : Between (· < ·) := ⟨fun _ _ h => h, fun _ _ h => h.le, fun hf hg => measurableSet_lt hf hg⟩
theorem between_le : Between (· ≤ ·) := ⟨fun _ _ h => h.le, fun _ _ h => h, fun hf hg => measurableSet_le hf hg⟩

theorem measurable_key (i : Fin n) : Measurable fun x : Fin n → ℝ => key w x i :=
  (measurable_pi_apply i).pow_const _

theorem measurable_falls {rel : ℝ → ℝ → Prop} (hrel : Between rel) (Rs : List (Fin n)) : ∀ (L : List (Fin n)) {y : (Fin n → ℝ) → ℝ},
    Measurable y → MeasurableSet {x | Falls w rel Rs L (y x) x}
  | [], y, hy => by
    have : {x | Falls w rel Rs [] (y x) x} = ⋂ j ∈ Rs, {x | rel (key w x j) (y x)} := by
      ext x; simp [Falls]
    rw [this]
    exact MeasurableSet.biInter (Set.to_countable {j | j ∈ Rs}) fun j _ => hrel.meas (measurable_key w j) hy
  | i :: L, y, hy => (hrel.meas (measurable_key w i) hy).inter (measurable_falls hrel Rs L (measurable_key w i))

/-- The integral behind everything. -/
theorem lintegral_key {rel : ℝ → ℝ → Prop} (hrel : Between rel) {a y V : ℝ} (ha : 0 < a) (hy0 : 0 ≤ y) (hy1 : y ≤ 1) (hV : 0 ≤ V)
    [∀ u : ℝ, Decidable (rel (u ^ (1 / a)) y)] :
    ∫⁻ u, (if rel (u ^ (1 / a)) y then ENNReal.ofReal ((u ^ (1 / a)) ^ V) else 0) ∂unit01 =
      ENNReal.ofReal (y ^ (a + V) * (a / (a + V))) := by
  have hya : y ^ a ≤ 1 := Real.rpow_le_one hy0 hy1 ha.le
  have hya0 : 0 ≤ y ^ a := Real.rpow_nonneg hy0 _
  have hyy : (y ^ a) ^ (1 / a) = y := by rw [← Real.rpow_mul hy0, mul_one_div_cancel ha.ne', Real.rpow_one]
  have hae : ∀ᵐ u ∂unit01, (if rel (u ^ (1 / a)) y then ENNReal.ofReal ((u ^ (1 / a)) ^ V) else 0) =
      (Set.Ioc 0 (y ^ a)).indicator (fun u => ENNReal.ofReal (u ^ (V / a))) u := by
    rw [unit01, ae_restrict_iff' measurableSet_Ico]
    have h1 : ∀ᵐ u : ℝ, u ≠ y ^ a := by simp [ae_iff, measure_singleton]
    have h2 : ∀ᵐ u : ℝ, u ≠ 0 := by simp [ae_iff, measure_singleton]
    filter_upwards [h1, h2] with u hu hu0 ⟨hl, hr⟩
    have hup : 0 < u := lt_of_le_of_ne hl (Ne.symm hu0)
    have hpow : (u ^ (1 / a)) ^ V = u ^ (V / a) := by
      rw [← Real.rpow_mul hl]; congr 1; ring
    by_cases hlt : u < y ^ a
    · have : rel (u ^ (1 / a)) y := by
        apply hrel.of_lt
        calc u ^ (1 / a) < (y ^ a) ^ (1 / a) := Real.rpow_lt_rpow hl hlt (by positivity)
          _ = y := hyy
      rw [if_pos this, Set.indicator_of_mem (show u ∈ Set.Ioc 0 (y ^ a) from ⟨hup, hlt.le⟩), hpow]
    · have hgt : y ^ a < u := lt_of_le_of_ne (not_lt.1 hlt) (Ne.symm hu)
      have : ¬ rel (u ^ (1 / a)) y := by
        intro h
        have h3 := hrel.le _ _ h
        have : y < u ^ (1 / a) := by
          calc y = (y ^ a) ^ (1 / a) := hyy.symm
            _ < u ^ (1 / a) := Real.rpow_lt_rpow hya0 hgt (by positivity)
        linarith
      rw [if_neg this, Set.indicator_of_notMem]
      rintro ⟨-, h⟩
      linarith
  rw [lintegral_congr_ae hae, lintegral_indicator measurableSet_Ioc, unit01, Measure.restrict_restrict measurableSet_Ioc]
  have hset : (Set.Ioc 0 (y ^ a) ∩ Set.Ico 0 1 : Set ℝ) =ᵐ[volume] Set.Ioc 0 (y ^ a) := by
    have h1 : ∀ᵐ u : ℝ, u ≠ 1 := by simp [ae_iff, measure_singleton]
    filter_upwards [h1] with u hu
    apply propext
    constructor
    · rintro ⟨h, -⟩; exact h
    · intro h
      have h : 0 < u ∧ u ≤ y ^ a := h
      exact ⟨h, h.1.le, lt_of_le_of_ne (h.2.trans hya) hu⟩
  rw [Measure.restrict_congr_set hset]
  have hVa : 0 ≤ V / a := by positivity
  rw [← ofReal_integral_eq_lintegral_ofReal]
  · rw [← intervalIntegral.integral_of_le hya0, integral_rpow (.inl (by linarith))]
    congr 1
    have hne : V / a + 1 ≠ 0 := by positivity
    have e1 : (y ^ a) ^ (V / a + 1) = y ^ (a + V) := by
      rw [← Real.rpow_mul hy0]; congr 1; field_simp; ring
    rw [e1, Real.zero_rpow hne]
    field_simp
    ring
  · have := (intervalIntegral.intervalIntegrable_rpow' (a := 0) (b := y ^ a) (r := V / a) (by linarith)).1
    exact this
  · refine (ae_restrict_iff' measurableSet_Ioc).2 (.of_forall fun u hu => ?_)
    exact Real.rpow_nonneg hu.1.le _

/-- A factor that depends on coordinate `i` only comes out of the integral over other coordinates. -/
theorem lmarginal_split {s : Finset (Fin n)} {i : Fin n} (hi : i ∉ s) (P : ℝ → Prop) [DecidablePred P]
    (F : ℝ → (Fin n → ℝ) → ℝ≥0∞) (x : Fin n → ℝ) (u : ℝ) :
    (∫⋯∫⁻_s, (fun z => if P (z i) then F (z i) z else 0) ∂(fun _ => unit01)) (Function.update x i u) =
      if P u then (∫⋯∫⁻_s, F u ∂(fun _ => unit01)) (Function.update x i u) else 0 := by
  have hv : ∀ y : (∀ j : s, ℝ), Function.updateFinset (Function.update x i u) s y i = u := by
    intro y
    rw [Function.updateFinset_def]
    simp [hi]
  unfold lmarginal
  by_cases hp : P u
  · rw [if_pos hp]
    refine lintegral_congr fun y => ?_
    simp only [hv, if_pos hp]
  · rw [if_neg hp]
    simp only [hv, if_neg hp, lintegral_zero]

theorem ite_both {P Q : Prop} [Decidable (P ∧ Q)] [Decidable P] [Decidable Q] :
    (if P ∧ Q then (1 : ℝ≥0∞) else 0) = if P then (if Q then 1 else 0) else 0 := by
  by_cases h1 : P <;> by_cases h2 : Q <;> simp [h1, h2]

/-- The sum of the weights of the indices in a list. -/
noncomputable def total (L : List (Fin n)) : ℝ := (L.map w).sum

theorem total_nonneg (hw : ∀ i, 0 < w i) : ∀ L : List (Fin n), 0 ≤ total w L
  | [] => by simp [total]
  | i :: L => by
    have h1 := total_nonneg hw L
    have h2 := hw i
    unfold total at *
    simp only [List.map_cons, List.sum_cons]
    linarith

/-- Specification: the probability of drawing the indices of the list one after another without replacement, each with
probability proportional to its weight among those that are left; `T` is the weight of all that are left. -/
noncomputable def seqProb : ℝ → List (Fin n) → ℝ
  | _, [] => 1
  | T, i :: L => w i / T * seqProb (T - w i) L

theorem seqProb_nonneg (hw : ∀ i, 0 < w i) : ∀ (L Rs : List (Fin n)), 0 ≤ seqProb w (total w (L ++ Rs)) L
  | [], Rs => zero_le_one
  | i :: L, Rs => by
    have h := seqProb_nonneg hw L Rs
    have e : total w (i :: L ++ Rs) - w i = total w (L ++ Rs) := by simp [total]
    rw [seqProb, e]
    exact mul_nonneg (div_nonneg (hw i).le (total_nonneg w hw _)) h

open Classical in
theorem lmarginal_below {rel : ℝ → ℝ → Prop} (hrel : Between rel) (hw : ∀ i, 0 < w i) {y : ℝ} (hy0 : 0 ≤ y) (hy1 : y ≤ 1) :
    ∀ (Rs : List (Fin n)), Rs.Nodup → ∀ x : Fin n → ℝ,
    (∫⋯∫⁻_Rs.toFinset, (fun z => if Falls w rel Rs [] y z then 1 else 0) ∂(fun _ => unit01)) x =
      ENNReal.ofReal (y ^ total w Rs)
  | [], _, x => by
    simp [Falls, total]
  | j :: Rs, hnd, x => by
    obtain ⟨hj, hnd'⟩ := List.nodup_cons.1 hnd
    have hjf : j ∉ Rs.toFinset := by simpa using hj
    have hmeas : Measurable fun z => if Falls w rel (j :: Rs) [] y z then (1 : ℝ≥0∞) else 0 :=
      Measurable.ite (measurable_falls w hrel (j :: Rs) [] measurable_const) measurable_const measurable_const
    have hf : (fun z => if Falls w rel (j :: Rs) [] y z then (1 : ℝ≥0∞) else 0) = fun z =>
        if rel (z j ^ (1 / w j)) y then (if Falls w rel Rs [] y z then 1 else 0) else 0 := by
      funext z
      exact (if_congr (show Falls w rel (j :: Rs) [] y z ↔ rel (z j ^ (1 / w j)) y ∧ Falls w rel Rs [] y z by
        simp only [Falls, key, List.mem_cons, forall_eq_or_imp]) rfl rfl).trans ite_both
    rw [List.toFinset_cons, lmarginal_insert _ hmeas hjf, hf]
    have hsplit := fun u => lmarginal_split hjf (fun t => rel (t ^ (1 / w j)) y)
      (fun _ z => if Falls w rel Rs [] y z then (1 : ℝ≥0∞) else 0) x u
    simp only [hsplit, lmarginal_below hrel hw hy0 hy1 Rs hnd']
    have hk := lintegral_key hrel (hw j) hy0 hy1 (V := 0) le_rfl
    simp only [Real.rpow_zero, ENNReal.ofReal_one, add_zero, div_self (hw j).ne', mul_one] at hk
    have e : ∀ u : ℝ, (if rel (u ^ (1 / w j)) y then ENNReal.ofReal (y ^ total w Rs) else 0) =
        ENNReal.ofReal (y ^ total w Rs) * (if rel (u ^ (1 / w j)) y then 1 else 0) := fun u => by split <;> simp
    simp only [e]
    rw [lintegral_const_mul, hk, ← ENNReal.ofReal_mul (Real.rpow_nonneg hy0 _)]
    · congr 1
      have : total w (j :: Rs) = total w Rs + w j := by simp [total, add_comm]
      rw [this, Real.rpow_add_of_nonneg hy0 (total_nonneg w hw _) (hw j).le]
    · exact Measurable.ite (hrel.meas (measurable_id.pow_const _) measurable_const) measurable_const measurable_const

open Classical in
theorem lmarginal_falls {rel : ℝ → ℝ → Prop} (hrel : Between rel) (hw : ∀ i, 0 < w i) (Rs : List (Fin n)) :
    ∀ (L : List (Fin n)) {y : ℝ}, 0 ≤ y → y ≤ 1 → (L ++ Rs).Nodup → ∀ x : Fin n → ℝ,
    (∫⋯∫⁻_(L ++ Rs).toFinset, (fun z => if Falls w rel Rs L y z then 1 else 0) ∂(fun _ => unit01)) x =
      ENNReal.ofReal (y ^ total w (L ++ Rs) * seqProb w (total w (L ++ Rs)) L)
  | [], y, hy0, hy1, hnd, x => by
    rw [seqProb, mul_one]
    exact lmarginal_below w hrel hw hy0 hy1 Rs hnd x
  | i :: L, y, hy0, hy1, hnd, x => by
    obtain ⟨hj, hnd'⟩ := List.nodup_cons.1 (show (i :: (L ++ Rs)).Nodup from hnd)
    have hjf : i ∉ (L ++ Rs).toFinset := by simpa using hj
    have hmeas : Measurable fun z => if Falls w rel Rs (i :: L) y z then (1 : ℝ≥0∞) else 0 :=
      Measurable.ite (measurable_falls w hrel Rs (i :: L) measurable_const) measurable_const measurable_const
    have hf : (fun z => if Falls w rel Rs (i :: L) y z then (1 : ℝ≥0∞) else 0) = fun z =>
        if rel (z i ^ (1 / w i)) y then (if Falls w rel Rs L (z i ^ (1 / w i)) z then 1 else 0) else 0 := by
      funext z
      exact (if_congr (show Falls w rel Rs (i :: L) y z ↔ rel (z i ^ (1 / w i)) y ∧ Falls w rel Rs L (z i ^ (1 / w i)) z
        from Iff.rfl) rfl rfl).trans ite_both
    have hins : (i :: L ++ Rs).toFinset = insert i (L ++ Rs).toFinset := by
      rw [List.cons_append, List.toFinset_cons]
    rw [hins, lmarginal_insert _ hmeas hjf, hf]
    have hsplit := fun u => lmarginal_split hjf (fun t => rel (t ^ (1 / w i)) y)
      (fun t z => if Falls w rel Rs L (t ^ (1 / w i)) z then (1 : ℝ≥0∞) else 0) x u
    simp only [hsplit]
    have hV := total_nonneg w hw (L ++ Rs)
    have hc := seqProb_nonneg w hw L Rs
    have hin : ∀ᵐ u ∂unit01, (if rel (u ^ (1 / w i)) y then
          (∫⋯∫⁻_(L ++ Rs).toFinset, (fun z => if Falls w rel Rs L (u ^ (1 / w i)) z then (1 : ℝ≥0∞) else 0) ∂(fun _ => unit01))
            (Function.update x i u) else 0) =
        ENNReal.ofReal (seqProb w (total w (L ++ Rs)) L) *
          (if rel (u ^ (1 / w i)) y then ENNReal.ofReal ((u ^ (1 / w i)) ^ total w (L ++ Rs)) else 0) := by
      rw [unit01, ae_restrict_iff' measurableSet_Ico]
      refine .of_forall fun u hu => ?_
      split
      · rw [← unit01, lmarginal_falls hrel hw Rs L (Real.rpow_nonneg hu.1 _)
          (Real.rpow_le_one hu.1 hu.2.le (one_div_nonneg.2 (hw i).le)) hnd', mul_comm, ENNReal.ofReal_mul hc]
      · simp
    rw [lintegral_congr_ae hin, lintegral_const_mul, lintegral_key hrel (hw i) hy0 hy1 hV, ← ENNReal.ofReal_mul hc]
    · congr 1
      have e1 : total w (i :: L ++ Rs) = w i + total w (L ++ Rs) := by simp [total]
      rw [seqProb, e1, add_sub_cancel_left]
      ring
    · exact Measurable.ite (hrel.meas (measurable_id.pow_const _) measurable_const)
        (((measurable_id.pow_const _).pow_const _).ennreal_ofReal) measurable_const

/-- The probability that the keys fall along `L`. -/
theorem falls_prob {rel : ℝ → ℝ → Prop} (hrel : Between rel) (hw : ∀ i, 0 < w i) {L Rs : List (Fin n)}
    (hnd : (L ++ Rs).Nodup) (hall : ∀ i, i ∈ L ++ Rs) :
    (Measure.pi fun _ : Fin n => unit01) {x | Falls w rel Rs L 1 x} = ENNReal.ofReal (seqProb w (∑ i, w i) L) := by
  classical
  have h := lmarginal_falls w hrel hw Rs L zero_le_one le_rfl hnd 0
  have hu : (L ++ Rs).toFinset = Finset.univ := by
    ext i; simpa using hall i
  rw [hu, lmarginal_univ] at h
  have hm := measurable_falls w hrel Rs L (y := fun _ => 1) measurable_const
  have hi : (fun z => if Falls w rel Rs L 1 z then (1 : ℝ≥0∞) else 0) = {x | Falls w rel Rs L 1 x}.indicator 1 := by
    funext z
    simp [Set.indicator]
  rw [hi, lintegral_indicator_one hm, Real.one_rpow, one_mul] at h
  refine h.trans ?_
  congr 2
  unfold total
  rw [← hu, List.sum_toFinset _ hnd]

end keys

/-! ## The heap -/

section heap
variable {n : Nat} (w : Fin n → ℝ)

theorem falls_below {rel : ℝ → ℝ → Prop} (hrel : Between rel) {Rs : List (Fin n)} {x : Fin n → ℝ} (htr : ∀ a b c, rel a b → rel b c → rel a c) :
    ∀ (L : List (Fin n)) {y : ℝ}, Falls w rel Rs L y x → ∀ j ∈ L ++ Rs, rel (key w x j) y
  | [], y, h, j, hj => h j (by simpa using hj)
  | i :: L, y, h, j, hj => by
    rcases List.mem_cons.1 (show j ∈ i :: (L ++ Rs) from hj) with rfl | hj
    · exact h.1
    · exact htr _ _ _ (falls_below hrel htr L h.2 j hj) h.1

/-- If the keys fall strictly along `L`, a list sorted by them begins with `L`. -/
theorem take_of_falls {Rs : List (Fin n)} {x : Fin n → ℝ} : ∀ (L o : List (Fin n)) {y : ℝ}, o.Perm (L ++ Rs) → (L ++ Rs).Nodup →
    o.Pairwise (fun i j => key w x j ≤ key w x i) → Falls w (· < ·) Rs L y x → o.take L.length = L
  | [], o, y, _, _, _, _ => by simp
  | i :: L, [], y, hp, _, _, _ => by simpa using hp.length_eq
  | i :: L, a :: o, y, hp, hnd, hs, hf => by
    have hbelow := falls_below w between_lt (fun _ _ _ => lt_trans) L hf.2
    have ha : a = i := by
      by_contra hne
      have hi : i ∈ o := by
        rcases List.mem_cons.1 (hp.mem_iff.2 (by simp : i ∈ i :: L ++ Rs)) with h | h
        · exact absurd h.symm hne
        · exact h
      have h1 := (List.pairwise_cons.1 hs).1 i hi
      have h2 : a ∈ L ++ Rs := by
        rcases List.mem_cons.1 (show a ∈ i :: (L ++ Rs) from hp.mem_iff.1 (by simp)) with h | h
        · exact absurd h hne
        · exact h
      have h3 := hbelow a h2
      linarith
    subst ha
    have hp' : o.Perm (L ++ Rs) := (List.perm_cons a).1 hp
    rw [List.length_cons, List.take_succ_cons,
      take_of_falls L o hp' (List.nodup_cons.1 (show (a :: (L ++ Rs)).Nodup from hnd)).2 (List.pairwise_cons.1 hs).2 hf.2]

/-- If a sorted list begins with `L`, the keys fall along `L`. -/
theorem falls_of_take {Rs : List (Fin n)} {x : Fin n → ℝ} : ∀ (L o : List (Fin n)) {y : ℝ}, (∀ j ∈ L ++ Rs, key w x j ≤ y) →
    (∀ j ∈ Rs, j ∈ o) → (L ++ o).Pairwise (fun i j => key w x j ≤ key w x i) → Falls w (· ≤ ·) Rs L y x
  | [], o, y, hy, _, _ => fun j hj => hy j (by simpa using hj)
  | i :: L, o, y, hy, hR, hs => by
    have h1 := (List.pairwise_cons.1 (show (i :: (L ++ o)).Pairwise _ from hs))
    refine ⟨hy i (by simp), falls_of_take L o (fun j hj => h1.1 j ?_) hR h1.2⟩
    rcases List.mem_append.1 hj with h | h
    · simp [h]
    · simp [hR j h]

end heap

section sample
variable {G : Type} {R : Rng G ℝ} {n : Nat}

theorem units_mem : ∀ (n : Nat) (g : G) (i : Fin n), 0 ≤ (unitsOf R n g).1 i ∧ (unitsOf R n g).1 i < 1
  | 0, g, i => i.elim0
  | n + 1, g, i => by
    refine Fin.cases ?_ (fun j => ?_) i
    · exact R.unit_spec g
    · exact units_mem n (R.unit g).2 j

theorem weightedKeys_run : ∀ (n : Nat) (w : Fin n → ℝ), (∀ i, 0 < w i) → ∀ g : G,
    weightedKeys R (List.ofFn fun i => Ext.fin (w i)) g =
      .ok (List.ofFn fun i => key w (unitsOf R n g).1 i, (unitsOf R n g).2)
  | 0, w, _, g => by
    rw [List.ofFn_zero, weightedKeys, M.pure_run, List.ofFn_zero]
    rfl
  | n + 1, w, hw, g => by
    have ih := weightedKeys_run n (fun i => w i.succ) (fun i => hw i.succ) (R.unit g).2
    rw [List.ofFn_succ, weightedKeys, if_neg (by
      show ¬ (w 0 < 0)
      exact not_lt.2 (hw 0).le)]
    have h1 : R.genUnit g = .ok ((R.unit g).1, (R.unit g).2) := rfl
    rw [M.bind_of_ok h1, M.bind_of_ok ih, M.pure_run, List.ofFn_succ]
    have : keyOf (R.unit g).1 (.fin (w 0)) = key w (unitsOf R (n + 1) g).1 0 := by
      show (if w 0 = 0 then (0 : ℝ) else (R.unit g).1 ^ (1 / w 0)) = _
      rw [if_neg (hw 0).ne']
      rfl
    rw [this]
    rfl

theorem sampleWeighted_run {H : HeapOrder} {w : Fin n → ℝ} (hw : ∀ i, 0 < w i) {k : Nat} (hk : k ≤ n) (g : G) : ∃ g',
    sampleWeighted R H (List.ofFn fun i => Ext.fin (w i)) k g =
      .ok ((H.order (List.ofFn fun i => key w (unitsOf R n g).1 i)).take k, g') := by
  unfold sampleWeighted
  by_cases h0 : k = 0
  · rw [if_pos h0, h0]
    exact ⟨g, by rw [M.pure_run, List.take_zero]⟩
  · rw [if_neg h0, if_neg (by simp; omega), M.bind_of_ok (weightedKeys_run n w hw g)]
    exact ⟨_, rfl⟩

variable [MeasurableSpace G] {μ : Measure G}

/-- **C138, the law of the weighted sample.** With an ideal source of randomness the sequence of positions returned by the weighted
sampling for positive finite weights is distributed like successive draws without replacement, each with probability
proportional to the weight among the positions left. -/
theorem C138_weighted_sample (hR : Ideal R μ) (H : HeapOrder) {w : Fin n → ℝ} (hw : ∀ i, 0 < w i) {L : List (Fin n)} (hL : L.Nodup) :
    chance μ (sampleWeighted R H (List.ofFn fun i => Ext.fin (w i)) L.length) (fun l => l = L.map Fin.val) =
      ENNReal.ofReal (seqProb w (∑ i, w i) L) := by
  have := hR.isProbability
  set Rs : List (Fin n) := (List.finRange n).filter (· ∉ L) with hRs
  have hnd : (L ++ Rs).Nodup := by
    rw [List.nodup_append]
    refine ⟨hL, (List.nodup_finRange n).filter _, fun a ha b hb hab => ?_⟩
    have := (List.mem_filter.1 hb).2
    simp at this
    exact this (hab ▸ ha)
  have hall : ∀ i, i ∈ L ++ Rs := by
    intro i
    by_cases h : i ∈ L
    · simp [h]
    · exact List.mem_append_right _ (List.mem_filter.2 ⟨List.mem_finRange i, by simpa using h⟩)
  have hperm : (L ++ Rs).Perm (List.finRange n) :=
    (List.perm_ext_iff_of_nodup hnd (List.nodup_finRange n)).2 fun i => ⟨fun _ => List.mem_finRange i, fun _ => hall i⟩
  have hk : L.length ≤ n := by
    have := hperm.length_eq
    rw [List.length_append, List.length_finRange] at this
    omega
  -- the heap order as a list of positions
  have horder : ∀ x : Fin n → ℝ, ∃ o : List (Fin n), H.order (List.ofFn fun i => key w x i) = o.map Fin.val ∧ o.Perm (L ++ Rs) ∧
      o.Pairwise (fun i j => key w x j ≤ key w x i) := by
    intro x
    have hp := H.perm (List.ofFn fun i => key w x i)
    have hs := H.sorted (List.ofFn fun i => key w x i)
    rw [List.length_ofFn] at hp
    set q := H.order (List.ofFn fun i => key w x i)
    have hlt : ∀ a ∈ q, a < n := fun a ha => List.mem_range.1 (hp.mem_iff.1 ha)
    refine ⟨q.attach.map fun a => ⟨a.1, hlt a.1 a.2⟩, ?_, ?_, ?_⟩
    · rw [List.map_map]
      show q = q.attach.map (fun a => a.1)
      simp
    · have hnq : q.Nodup := hp.nodup_iff.2 List.nodup_range
      refine (List.perm_ext_iff_of_nodup ?_ hnd).2 fun i => ⟨fun _ => hall i, fun _ => ?_⟩
      · refine List.Nodup.of_map Fin.val ?_
        rw [List.map_map]
        have : q.attach.map (Fin.val ∘ fun a => (⟨a.1, hlt a.1 a.2⟩ : Fin n)) = q := by
          show q.attach.map (fun a => a.1) = q
          simp
        rw [this]
        exact hnq
      · have : i.val ∈ q := hp.mem_iff.2 (List.mem_range.2 i.2)
        exact List.mem_map.2 ⟨⟨i.val, this⟩, List.mem_attach _ _, rfl⟩
    · rw [List.pairwise_map]
      have hs' : q.attach.Pairwise fun a b => (List.ofFn fun i => key w x i).getD b.1 0 ≤ (List.ofFn fun i => key w x i).getD a.1 0 := by
        rw [← List.pairwise_map (f := Subtype.val) (R := fun i j => (List.ofFn fun i => key w x i).getD j 0 ≤ (List.ofFn fun i => key w x i).getD i 0)]
        simpa using hs
      refine hs'.imp fun {a b} h => ?_
      have e : ∀ (c : Nat) (hc : c < n), (List.ofFn fun i => key w x i).getD c 0 = key w x ⟨c, hc⟩ := by
        intro c hc
        rw [List.getD_eq_getElem?_getD, List.getElem?_ofFn, dif_pos hc]
        rfl
      rw [e b.1 (hlt b.1 b.2), e a.1 (hlt a.1 a.2)] at h
      exact h
  have hmp := units_measurePreserving hR n
  have hval : ∀ rel : ℝ → ℝ → Prop, Between rel → μ (unitsOf R n ⁻¹' ({x | Falls w rel Rs L 1 x} ×ˢ Set.univ)) =
      ENNReal.ofReal (seqProb w (∑ i, w i) L) := by
    intro rel hrel
    have hm := measurable_falls w hrel Rs L (y := fun _ => 1) measurable_const
    rw [hmp.measure_preimage (hm.prod .univ).nullMeasurableSet, Measure.prod_prod, measure_univ, mul_one,
      falls_prob w hrel hw hnd hall]
  refine le_antisymm ?_ ?_
  · rw [← hval _ between_le]
    refine measure_mono ?_
    rintro g ⟨l, g', h1, rfl⟩
    obtain ⟨g2, h2⟩ := sampleWeighted_run (R := R) (H := H) hw hk g
    rw [h2] at h1
    obtain ⟨o, o1, o2, o3⟩ := horder (unitsOf R n g).1
    have e : (H.order (List.ofFn fun i => key w (unitsOf R n g).1 i)).take L.length = L.map Fin.val := by
      exact (Prod.ext_iff.1 (Except.ok.inj h1)).1
    rw [o1, ← List.map_take] at e
    have e := List.map_injective_iff.2 Fin.val_injective e
    refine ⟨?_, trivial⟩
    have hoo : o = L ++ o.drop L.length := by
      conv_lhs => rw [← List.take_append_drop L.length o, e]
    refine falls_of_take w L (o.drop L.length) (fun j _ => ?_) (fun j hj => ?_) (hoo ▸ o3)
    · obtain ⟨u0, u1⟩ := units_mem (R := R) n g j
      exact Real.rpow_le_one u0 u1.le (one_div_nonneg.2 (hw j).le)
    · have : j ∈ L ++ o.drop L.length := hoo ▸ o2.mem_iff.2 (by simp [hj])
      rcases List.mem_append.1 this with h | h
      · have := (List.mem_filter.1 hj).2
        simp at this
        exact absurd h this
      · exact h
  · rw [← hval _ between_lt]
    refine measure_mono ?_
    rintro g ⟨hg, -⟩
    obtain ⟨g2, h2⟩ := sampleWeighted_run (R := R) (H := H) hw hk g
    obtain ⟨o, o1, o2, o3⟩ := horder (unitsOf R n g).1
    refine ⟨_, g2, h2, ?_⟩
    rw [o1, ← List.map_take, take_of_falls w L o o2 hnd o3 hg]

end sample


/-! ## Temperature and weights -/

theorem boltzmannK_eq {maxGen : Nat} (h : 0 < maxGen) (gen : Nat) :
    boltzmannK maxGen gen = .fin (1 + 100 * gen / maxGen) := by
  have : (maxGen : ℝ) ≠ 0 := by exact_mod_cast h.ne'
  show Ext.add (.fin 1) (if (maxGen : ℝ) = 0 then _ else .fin ((100 * (gen : ℝ)) / maxGen)) = _
  rw [if_neg this]
  rfl

/-- **C138, temperature.** In generation `gen` the temperature is `temp_0 (1 - alpha)^(1 + 100 gen / max_gen_count)`. -/
theorem C138_temperature (alpha temp0 : ℝ) {maxGen : Nat} (h : 0 < maxGen) (gen : Nat) :
    boltzmannTemp alpha temp0 maxGen gen = .fin (temp0 * (1 - alpha) ^ (1 + 100 * (gen : ℝ) / maxGen)) := by
  unfold boltzmannTemp
  rw [boltzmannK_eq h]
  unfold powf01
  by_cases h1 : 1 - alpha = 1
  · rw [if_pos h1, h1, Real.one_rpow]
    rfl
  · rw [if_neg h1]
    rfl

/-- **C138, cooling.** For `0 < alpha < 1` the temperature is positive, starts at `temp_0 (1 - alpha)` (not at `temp_0`), falls strictly,
also beyond `max_gen_count`, and tends to 0. For `alpha = 0` it stays `temp_0`, for `alpha = 1` it is always 0. -/
theorem C138_cooling {temp0 : ℝ} (ht : 0 < temp0) {maxGen : Nat} (h : 0 < maxGen) :
    (∀ alpha, 0 < alpha → alpha < 1 → ∃ t : Nat → ℝ, (∀ gen, boltzmannTemp alpha temp0 maxGen gen = .fin (t gen) ∧ 0 < t gen) ∧
      t 0 = temp0 * (1 - alpha) ∧ StrictAnti t ∧ Filter.Tendsto t Filter.atTop (nhds 0)) ∧
    (∀ gen, boltzmannTemp 0 temp0 maxGen gen = .fin temp0) ∧ ∀ gen, boltzmannTemp 1 temp0 maxGen gen = .fin 0 := by
  have hm : (0 : ℝ) < maxGen := by exact_mod_cast h
  refine ⟨fun alpha h0 h1 => ⟨fun gen => temp0 * (1 - alpha) ^ (1 + 100 * (gen : ℝ) / maxGen), fun gen => ?_, ?_, ?_, ?_⟩, fun gen => ?_,
    fun gen => ?_⟩
  · exact ⟨C138_temperature alpha temp0 h gen, mul_pos ht (Real.rpow_pos_of_pos (by linarith) _)⟩
  · simp
  · intro a b hab
    refine mul_lt_mul_of_pos_left (Real.rpow_lt_rpow_of_exponent_gt (by linarith) (by linarith) ?_) ht
    have : (a : ℝ) < b := by exact_mod_cast hab
    have : 100 * (a : ℝ) / maxGen < 100 * b / maxGen := by gcongr
    linarith
  · have h2 : Filter.Tendsto (fun x : ℝ => (1 - alpha) ^ x) Filter.atTop (nhds 0) :=
      tendsto_rpow_atTop_of_base_lt_one _ (by linarith) (by linarith)
    have h3 : Filter.Tendsto (fun gen : Nat => 1 + 100 * (gen : ℝ) / maxGen) Filter.atTop Filter.atTop := by
      refine Filter.tendsto_atTop_add_const_left _ _ (Filter.Tendsto.atTop_div_const hm ?_)
      exact Filter.Tendsto.const_mul_atTop (by norm_num) tendsto_natCast_atTop_atTop
    have := (h2.comp h3).const_mul temp0
    rwa [mul_zero] at this
  · rw [C138_temperature 0 temp0 h gen, sub_zero, Real.one_rpow, mul_one]
  · rw [C138_temperature 1 temp0 h gen, sub_self, Real.zero_rpow (by positivity), mul_zero]

theorem weight_fin {t : ℝ} (ht : t ≠ 0) (f : ℝ) : boltzmannWeight (.fin t) (.fin f) = .fin (Real.exp (-f / t)) := by
  show Ext.exp (if t = 0 then _ else .fin (-f / t)) = _
  rw [if_neg ht]
  rfl

theorem weight_bad (t f : Ext ℝ) (ht : t ≠ .pinf) (ht' : t ≠ .ninf) : badWeight (boltzmannWeight t f) ↔
    f = .nan ∨ t = .nan ∨ (t = .fin 0 ∧ f = .fin 0) := by
  have hsg : ∀ x : ℝ, Ext.signed x = .ninf ∨ Ext.signed x = .pinf := fun x => by
    unfold Ext.signed; split <;> simp
  cases t with
  | pinf => exact absurd rfl ht
  | ninf => exact absurd rfl ht'
  | nan => cases f <;> simp [boltzmannWeight, Ext.neg, Ext.div, Ext.exp, badWeight]
  | fin t =>
    cases f with
    | nan => simp [boltzmannWeight, Ext.neg, Ext.div, Ext.exp, badWeight]
    | pinf =>
      rcases hsg t with h | h <;> simp [boltzmannWeight, Ext.neg, Ext.div, Ext.exp, badWeight, h]
    | ninf =>
      rcases hsg t with h | h <;> simp [boltzmannWeight, Ext.neg, Ext.div, Ext.exp, badWeight, h]
    | fin f =>
      by_cases h : t = 0
      · by_cases hf : f = 0
        · simp [boltzmannWeight, Ext.neg, Ext.div, Ext.exp, badWeight, h, hf]
        · rcases hsg (-f) with h2 | h2 <;> simp [boltzmannWeight, Ext.neg, Ext.div, Ext.exp, badWeight, h, hf, h2]
      · rw [weight_fin h]
        have := Real.exp_pos (-f / t)
        simp [badWeight, h]
        linarith

/-! ## Panics -/

section panics
variable {G I : Type} {R : Rng G ℝ} {H : HeapOrder}

theorem weightedKeys_cases : ∀ (ws : List (Ext ℝ)),
    ((∀ x ∈ ws, ¬ badWeight x) → Returns (weightedKeys R ws) fun ks => ks.length = ws.length) ∧
    ((∃ x ∈ ws, badWeight x) → ∀ g, weightedKeys R ws g = .error .libError)
  | [] => ⟨fun _ => Returns.pure rfl, fun ⟨x, h, _⟩ => by simp at h⟩
  | x :: ws => by
    obtain ⟨h1, h2⟩ := weightedKeys_cases ws
    constructor
    · intro h g
      obtain ⟨ks, g', e1, e2⟩ := h1 (fun y hy => h y (by simp [hy])) (R.unit g).2
      refine ⟨keyOf (R.unit g).1 x :: ks, g', ?_, by simp [e2]⟩
      rw [weightedKeys, if_neg (h x (by simp))]
      have hu : R.genUnit g = .ok ((R.unit g).1, (R.unit g).2) := rfl
      rw [M.bind_of_ok hu, M.bind_of_ok e1]
      rfl
    · rintro ⟨y, hy, hb⟩ g
      rw [weightedKeys]
      by_cases hx : badWeight x
      · rw [if_pos hx]
        rfl
      · rw [if_neg hx]
        have hu : R.genUnit g = .ok ((R.unit g).1, (R.unit g).2) := rfl
        rw [M.bind_of_ok hu]
        have hmem : y ∈ ws := by
          rcases List.mem_cons.1 hy with rfl | h
          · exact absurd hb hx
          · exact h
        exact M.bind_of_error (h2 ⟨y, hmem, hb⟩ _)

theorem sampleWeighted_cases (ws : List (Ext ℝ)) (k : Nat) :
    (k = 0 ∨ (k ≤ ws.length ∧ ∀ x ∈ ws, ¬ badWeight x) → Returns (sampleWeighted R H ws k)
      fun l => l.length = k ∧ l.Nodup ∧ ∀ i ∈ l, i < ws.length) ∧
    (¬ (k = 0 ∨ (k ≤ ws.length ∧ ∀ x ∈ ws, ¬ badWeight x)) → ∀ g, sampleWeighted R H ws k g = .error .libError) := by
  unfold sampleWeighted
  constructor
  · intro h
    by_cases h0 : k = 0
    · rw [if_pos h0]
      exact Returns.pure ⟨by simp [h0], by simp, by simp⟩
    · obtain ⟨h1, h2⟩ := h.resolve_left h0
      rw [if_neg h0, if_neg (by omega)]
      refine ((weightedKeys_cases ws).1 h2).bind fun ks hks => Returns.pure ?_
      have hp := H.perm ks
      rw [hks] at hp
      refine ⟨?_, (List.take_sublist _ _).nodup (hp.nodup_iff.2 List.nodup_range), fun i hi =>
        List.mem_range.1 (hp.mem_iff.1 (List.mem_of_mem_take hi))⟩
      rw [List.length_take, hp.length_eq, List.length_range]
      omega
  · intro h g
    rw [not_or] at h
    rw [if_neg h.1]
    by_cases hl : ws.length < k
    · rw [if_pos hl]; rfl
    · rw [if_neg hl]
      have : ∃ x ∈ ws, badWeight x := by
        by_contra hc
        push Not at hc
        exact h.2 ⟨not_lt.1 hl, hc⟩
      exact M.bind_of_error ((weightedKeys_cases ws).2 this g)

theorem forEach_idx_returns {pop : List I} : ∀ {is : List Nat}, (∀ i ∈ is, i < pop.length) → ∀ g : G,
    ∃ l, M.forEach (idx pop) is g = .ok (l, g) ∧ l.map some = is.map (pop[·]?)
  | [], _, g => ⟨[], rfl, rfl⟩
  | i :: is, h, g => by
    obtain ⟨l, h1, h2⟩ := forEach_idx_returns (is := is) (fun j hj => h j (by simp [hj])) g
    have hi := h i (by simp)
    refine ⟨pop[i] :: l, ?_, by simp [h2, hi]⟩
    rw [M.forEach]
    have e : (idx pop i : M G I) g = .ok (pop[i], g) := by
      unfold idx
      rw [List.getElem?_eq_getElem hi]
      rfl
    rw [M.bind_of_ok e, M.bind_of_ok h1]
    rfl

/-- The hypotheses of the constructor (C28_boltzmann_new). -/
structure BoltzmannOk (alpha temp0 : ℝ) : Prop where
  alpha0 : 0 ≤ alpha
  alpha1 : alpha ≤ 1
  temp5 : 5 ≤ temp0
  temp100 : temp0 ≤ 100

theorem temp_nan {alpha temp0 : ℝ} (h : BoltzmannOk alpha temp0) (maxGen gen : Nat) :
    (boltzmannTemp alpha temp0 maxGen gen = .nan ↔ maxGen = 0 ∧ gen = 0 ∧ alpha ≠ 0) ∧
    (boltzmannTemp alpha temp0 maxGen gen = .fin 0 ↔ (0 < maxGen ∧ alpha = 1) ∨ (maxGen = 0 ∧ 0 < gen ∧ alpha ≠ 0)) ∧
    boltzmannTemp alpha temp0 maxGen gen ≠ .pinf ∧ boltzmannTemp alpha temp0 maxGen gen ≠ .ninf := by
  obtain ⟨a0, a1, t5, -⟩ := h
  have hb : (1 - alpha = 1) ↔ alpha = 0 := by constructor <;> intro h <;> linarith
  rcases Nat.eq_zero_or_pos maxGen with hm | hm
  · subst hm
    rcases Nat.eq_zero_or_pos gen with hg | hg
    · subst hg
      have hk : boltzmannK 0 0 = .nan := by simp [boltzmannK, Ext.mul, Ext.div, Ext.add]
      unfold boltzmannTemp powf01
      rw [hk]
      by_cases h : alpha = 0
      · rw [if_pos (hb.2 h)]
        simp [Ext.mul, h]
        linarith
      · rw [if_neg (fun e => h (hb.1 e))]
        simp [Ext.mul, h]
    · have hg' : (0 : ℝ) < gen := by exact_mod_cast hg
      have hk : boltzmannK 0 gen = .pinf := by
        have : ¬ (100 * (gen : ℝ) < 0) := by linarith
        have h2 : (gen : ℝ) ≠ 0 := hg'.ne'
        simp [boltzmannK, Ext.mul, Ext.div, Ext.signed, this, hg.ne', Ext.add]
      unfold boltzmannTemp powf01
      rw [hk]
      by_cases h : alpha = 0
      · rw [if_pos (hb.2 h)]
        simp [Ext.mul, h]
        linarith
      · rw [if_neg (fun e => h (hb.1 e))]
        simp [Ext.mul, h, hg, hg.ne']
  · rw [C138_temperature alpha temp0 hm gen]
    refine ⟨by simp [hm.ne'], ?_, by simp, by simp⟩
    have hpos : (0 : ℝ) < 1 + 100 * (gen : ℝ) / maxGen := by positivity
    constructor
    · intro h
      left
      refine ⟨hm, ?_⟩
      have h : temp0 * (1 - alpha) ^ (1 + 100 * (gen : ℝ) / maxGen) = 0 := by injection h
      rcases mul_eq_zero.1 h with h | h
      · linarith
      · have := (Real.rpow_eq_zero (by linarith) hpos.ne').1 h
        linarith
    · rintro (⟨-, h⟩ | ⟨h, -⟩)
      · rw [h, sub_self, Real.zero_rpow hpos.ne', mul_zero]
      · omega

/-- **C138, when it panics.** `Boltzmann` (with parameters its constructor accepts) panics exactly if it is to select someone and there
are too few individuals, or some fitness is NaN, or the temperature is 0 and some fitness is 0, or the temperature is NaN
and there is anyone at all; the temperature is NaN exactly for `max_gen_count = 0` in generation 0, and 0 exactly for `alpha = 1` or for
`max_gen_count = 0` in later generations (`alpha = 0` excepted). Otherwise it returns the requested number of individuals, from
pairwise distinct positions. -/
theorem C138_panics {alpha temp0 : ℝ} (h : BoltzmannOk alpha temp0) (maxGen count : Nat) (fitness : I → Ext ℝ) (m : Metrics)
    (pop : List I) :
    ((count ≠ 0 ∧ (pop.length < count ∨ (∃ x ∈ pop, fitness x = .nan) ∨
        (maxGen = 0 ∧ m.generation = 0 ∧ alpha ≠ 0 ∧ pop ≠ []) ∨
        ((0 < maxGen ∧ alpha = 1 ∨ maxGen = 0 ∧ 0 < m.generation ∧ alpha ≠ 0) ∧ ∃ x ∈ pop, fitness x = .fin 0))) →
      ∀ g, ∃ e, boltzmannApply R H alpha temp0 maxGen count fitness m pop g = .error e) ∧
    (¬ (count ≠ 0 ∧ (pop.length < count ∨ (∃ x ∈ pop, fitness x = .nan) ∨
        (maxGen = 0 ∧ m.generation = 0 ∧ alpha ≠ 0 ∧ pop ≠ []) ∨
        ((0 < maxGen ∧ alpha = 1 ∨ maxGen = 0 ∧ 0 < m.generation ∧ alpha ≠ 0) ∧ ∃ x ∈ pop, fitness x = .fin 0))) →
      ∀ g, ∃ sel g', boltzmannApply R H alpha temp0 maxGen count fitness m pop g = .ok (sel, g') ∧ sel.length = count ∧
        ∃ is : List Nat, is.Nodup ∧ sel.map some = is.map (pop[·]?)) := by
  obtain ⟨n1, n2, n3, n4⟩ := temp_nan h maxGen m.generation
  set t := boltzmannTemp alpha temp0 maxGen m.generation with ht
  have hbad : (∀ y ∈ pop.map fun x => boltzmannWeight t (fitness x), ¬ badWeight y) ↔
      ¬ ((∃ x ∈ pop, fitness x = .nan) ∨ (maxGen = 0 ∧ m.generation = 0 ∧ alpha ≠ 0 ∧ pop ≠ []) ∨
        ((0 < maxGen ∧ alpha = 1 ∨ maxGen = 0 ∧ 0 < m.generation ∧ alpha ≠ 0) ∧ ∃ x ∈ pop, fitness x = .fin 0)) := by
    simp only [List.mem_map, forall_exists_index, and_imp, forall_apply_eq_imp_iff₂, weight_bad t _ n3 n4]
    constructor
    · rintro hx (⟨x, h1, h2⟩ | ⟨h1, h2, h3, h4⟩ | ⟨h1, x, h2, h3⟩)
      · exact hx x h1 (.inl h2)
      · obtain ⟨x, xs, rfl⟩ := List.exists_cons_of_ne_nil h4
        exact hx x (by simp) (.inr (.inl (n1.2 ⟨h1, h2, h3⟩)))
      · exact hx x h2 (.inr (.inr ⟨n2.2 h1, h3⟩))
    · rintro hx x h1 (h2 | h2 | ⟨h2, h3⟩)
      · exact hx (.inl ⟨x, h1, h2⟩)
      · obtain ⟨q1, q2, q3⟩ := n1.1 h2
        exact hx (.inr (.inl ⟨q1, q2, q3, by rintro rfl; simp at h1⟩))
      · exact hx (.inr (.inr ⟨n2.1 h2, x, h1, h3⟩))
  obtain ⟨s1, s2⟩ := sampleWeighted_cases (R := R) (H := H) (pop.map fun x => boltzmannWeight t (fitness x)) count
  have hcond : (count = 0 ∨ (count ≤ (pop.map fun x => boltzmannWeight t (fitness x)).length ∧
      ∀ y ∈ pop.map fun x => boltzmannWeight t (fitness x), ¬ badWeight y)) ↔
      ¬ (count ≠ 0 ∧ (pop.length < count ∨ (∃ x ∈ pop, fitness x = .nan) ∨
        (maxGen = 0 ∧ m.generation = 0 ∧ alpha ≠ 0 ∧ pop ≠ []) ∨
        ((0 < maxGen ∧ alpha = 1 ∨ maxGen = 0 ∧ 0 < m.generation ∧ alpha ≠ 0) ∧ ∃ x ∈ pop, fitness x = .fin 0))) := by
    rw [hbad, List.length_map]
    by_cases hc : count = 0
    · simp [hc]
    · by_cases hl : pop.length < count
      · simp [hc, hl]
      · have : count ≤ pop.length := by omega
        simp only [hc, this, true_and, false_or, ne_eq, not_false_eq_true, hl]
  unfold boltzmannApply
  rw [← ht]
  constructor
  · intro hp g
    refine ⟨_, M.bind_of_error (s2 (fun hq => hcond.1 hq hp) g)⟩
  · intro hp g
    obtain ⟨is, g1, e1, e2, e3, e4⟩ := s1 (hcond.2 hp) g
    rw [List.length_map] at e4
    obtain ⟨l, e5, e6⟩ := forEach_idx_returns (pop := pop) e4 g1
    refine ⟨l, g1, by rw [M.bind_of_ok e1, e5], ?_, is, e3, e6⟩
    have := congrArg List.length e6
    simpa [e2] using this

end panics


/-! ## What is selected, and how likely -/

section select
variable {G I : Type} {R : Rng G ℝ} {H : HeapOrder}

theorem map_ofFn (pop : List I) {α : Type} (f : I → α) : pop.map f = List.ofFn fun i : Fin pop.length => f pop[i] := by
  apply List.ext_getElem
  · simp
  · intro i h1 h2
    simp

/-- **C138, selecting as many as there are.** If `Boltzmann` is to select as many individuals as the population has (as in
examples/ga.rs), it returns the whole population in some order, whatever the fitness values and the temperature. -/
theorem C138_whole_population {alpha temp0 : ℝ} {maxGen : Nat} {fitness : I → Ext ℝ} {m : Metrics} {pop : List I} :
    IfReturns (boltzmannApply R H alpha temp0 maxGen pop.length fitness m pop) fun sel => sel.Perm pop := by
  intro g sel g' h
  unfold boltzmannApply at h
  obtain ⟨is, g1, h1, h2⟩ := M.bind_ok_iff.1 h
  set ws := pop.map fun x => boltzmannWeight (boltzmannTemp alpha temp0 maxGen m.generation) (fitness x)
  have hlen : ws.length = pop.length := List.length_map _
  obtain ⟨s1, s2⟩ := sampleWeighted_cases (R := R) (H := H) ws pop.length
  by_cases hc : pop.length = 0 ∨ (pop.length ≤ ws.length ∧ ∀ x ∈ ws, ¬ badWeight x)
  · obtain ⟨is', g2, e1, e2, e3, e4⟩ := s1 hc g
    rw [h1] at e1
    cases e1
    rw [hlen] at e4
    obtain ⟨l, e5, e6⟩ := forEach_idx_returns (pop := pop) e4 g1
    rw [h2] at e5
    cases e5
    have hperm : is.Perm (List.range pop.length) := by
      refine (List.subperm_of_subset e3 fun i hi => List.mem_range.2 (e4 i hi)).perm_of_length_le ?_
      rw [List.length_range, e2]
    have h3 : (sel.map some).Perm (pop.map some) := by
      rw [e6]
      refine (hperm.map _).trans (List.Perm.of_eq ?_)
      apply List.ext_getElem
      · simp
      · intro i q1 q2
        simp only [List.length_map, List.length_range] at q1
        simp
    have := h3.filterMap id
    simpa [List.filterMap_map] using this
  · rw [s2 hc g] at h1
    cases h1

/-- Specification: the Boltzmann weights of the individuals at temperature `t`. -/
noncomputable def boltz (t : ℝ) (f : Nat → ℝ) (n : Nat) (i : Fin n) : ℝ := Real.exp (-f i / t)

variable [MeasurableSpace G] {μ : Measure G}

/-- **C138, the law of Boltzmann selection.** For finite fitness values and a positive temperature `t` the individuals at the positions
`L` are selected, in this order, with the probability of drawing them one after another without replacement with weights
`exp (-fitness / t)`. -/
theorem C138_law (hR : Ideal R μ) {alpha temp0 t : ℝ} {maxGen : Nat} {fitness : I → Ext ℝ} {m : Metrics}
    (ht : boltzmannTemp alpha temp0 maxGen m.generation = .fin t) (ht0 : 0 < t) {pop : List I} (hnd : pop.Nodup) {f : Nat → ℝ}
    (hf : ∀ (i : Nat) (hi : i < pop.length), fitness pop[i] = .fin (f i)) {L : List (Fin pop.length)} (hL : L.Nodup) :
    chance μ (boltzmannApply R H alpha temp0 maxGen L.length fitness m pop) (fun sel => sel = L.map fun i => pop[i]) =
      ENNReal.ofReal (seqProb (boltz t f pop.length) (∑ i, boltz t f pop.length i) L) := by
  have hws : (pop.map fun x => boltzmannWeight (boltzmannTemp alpha temp0 maxGen m.generation) (fitness x)) =
      List.ofFn fun i => Ext.fin (boltz t f pop.length i) := by
    rw [map_ofFn, ht]
    congr 1
    funext i
    have := hf i i.2
    show boltzmannWeight (.fin t) (fitness pop[i.val]) = _
    rw [this, weight_fin ht0.ne']
    rfl
  rw [← C138_weighted_sample hR H (w := boltz t f pop.length) (fun i => Real.exp_pos _) hL]
  unfold boltzmannApply chance
  rw [hws]
  congr 1
  ext g
  simp only [Set.mem_ofPred_eq]
  have hk : L.length ≤ pop.length := by
    have := (List.subperm_of_subset hL (fun i _ => List.mem_finRange i) : L.Subperm (List.finRange _)).length_le
    simpa using this
  obtain ⟨s1, -⟩ := sampleWeighted_cases (R := R) (H := H) (List.ofFn fun i => Ext.fin (boltz t f pop.length i)) L.length
  obtain ⟨is, g1, e1, e2, e3, e4⟩ := s1 (.inr ⟨by simpa using hk, fun x hx => by
    obtain ⟨i, rfl⟩ := (List.mem_ofFn' _ _).1 hx
    exact not_lt.2 (Real.exp_pos _).le⟩) g
  rw [List.length_ofFn] at e4
  obtain ⟨l, e5, e6⟩ := forEach_idx_returns (pop := pop) e4 g1
  constructor
  · rintro ⟨a, g', h1, rfl⟩
    rw [M.bind_of_ok e1, e5] at h1
    refine ⟨is, g1, e1, ?_⟩
    have hl : l = L.map fun i => pop[i] := (Prod.ext_iff.1 (Except.ok.inj h1)).1
    rw [hl] at e6
    apply List.ext_getElem
    · simpa using e2
    · intro j q1 q2
      have q3 : j < L.length := by simpa using q2
      have h6 := congrArg (·[j]?) e6
      simp only [List.getElem?_map, List.getElem?_eq_getElem q1, List.getElem?_eq_getElem q3, Option.map_some] at h6
      have hij : is[j] < pop.length := e4 _ (List.getElem_mem _)
      have h6 : pop[(L[j]).val]? = pop[is[j]]? := by
        rw [List.getElem?_eq_getElem (L[j]).2]
        exact Option.some.inj h6
      have := (List.getElem?_inj (L[j]).2 hnd).1 h6
      simp [this]
  · rintro ⟨a, g', h1, rfl⟩
    rw [e1] at h1
    obtain ⟨rfl, -⟩ := Prod.ext_iff.1 (Except.ok.inj h1)
    refine ⟨l, g1, by rw [M.bind_of_ok e1, e5], ?_⟩
    have : l.map some = (L.map fun i => pop[i]).map some := by
      rw [e6]
      simp
    exact List.map_injective_iff.2 (Option.some_injective _) this

theorem seqProb_one {n : Nat} (w : Fin n → ℝ) (i : Fin n) (T : ℝ) : seqProb w T [i] = w i / T := by simp [seqProb]

/-- **C138, it favours small fitness.** When one individual is selected, position `i` is selected with probability
`exp (-fitness i / t) / Σ exp (-fitness j / t)`; so the smaller fitness is strictly more likely, by the factor `exp` of the difference over
the temperature, which is the direction of the solver (unlike the operators of C08). -/
theorem C138_small_fitness (hR : Ideal R μ) {alpha temp0 t : ℝ} {maxGen : Nat} {fitness : I → Ext ℝ} {m : Metrics}
    (ht : boltzmannTemp alpha temp0 maxGen m.generation = .fin t) (ht0 : 0 < t) {pop : List I} (hnd : pop.Nodup) {f : Nat → ℝ}
    (hf : ∀ (i : Nat) (hi : i < pop.length), fitness pop[i] = .fin (f i)) (i j : Fin pop.length) :
    chance μ (boltzmannApply R H alpha temp0 maxGen 1 fitness m pop) (fun sel => sel = [pop[i]]) =
      ENNReal.ofReal (Real.exp (-f i / t) / ∑ k : Fin pop.length, Real.exp (-f k / t)) ∧
    (f i < f j → chance μ (boltzmannApply R H alpha temp0 maxGen 1 fitness m pop) (fun sel => sel = [pop[j]]) <
      chance μ (boltzmannApply R H alpha temp0 maxGen 1 fitness m pop) (fun sel => sel = [pop[i]])) ∧
    chance μ (boltzmannApply R H alpha temp0 maxGen 1 fitness m pop) (fun sel => sel = [pop[i]]) =
      ENNReal.ofReal (Real.exp ((f j - f i) / t)) *
        chance μ (boltzmannApply R H alpha temp0 maxGen 1 fitness m pop) (fun sel => sel = [pop[j]]) := by
  have key : ∀ k : Fin pop.length, chance μ (boltzmannApply R H alpha temp0 maxGen 1 fitness m pop) (fun sel => sel = [pop[k]]) =
      ENNReal.ofReal (Real.exp (-f k / t) / ∑ k : Fin pop.length, Real.exp (-f k / t)) := by
    intro k
    have := C138_law (H := H) hR ht ht0 hnd hf (L := [k]) (by simp)
    rw [seqProb_one] at this
    exact this
  have hS : 0 < ∑ k : Fin pop.length, Real.exp (-f k / t) :=
    Finset.sum_pos (fun _ _ => Real.exp_pos _) ⟨i, Finset.mem_univ i⟩
  refine ⟨key i, fun hlt => ?_, ?_⟩
  · rw [key i, key j]
    refine (ENNReal.ofReal_lt_ofReal_iff (div_pos (Real.exp_pos _) hS)).2 (div_lt_div_of_pos_right ?_ hS)
    refine Real.exp_lt_exp.2 (div_lt_div_of_pos_right (by linarith) ht0)
  · rw [key i, key j, ← ENNReal.ofReal_mul (Real.exp_pos _).le]
    congr 1
    rw [← mul_div_assoc, ← Real.exp_add]
    congr 2
    field_simp
    ring

/-- **C138, in the long run the best is taken.** With `0 < alpha < 1`, the probability of selecting the one individual of smallest fitness
tends to 1 as the generations go on. -/
theorem C138_takes_the_best (hR : Ideal R μ) {alpha temp0 : ℝ} (h0 : 0 < alpha) (h1 : alpha < 1) (ht : 0 < temp0) {maxGen : Nat}
    (hm : 0 < maxGen) {fitness : I → Ext ℝ} {pop : List I} (hnd : pop.Nodup) {f : Nat → ℝ}
    (hf : ∀ (i : Nat) (hi : i < pop.length), fitness pop[i] = .fin (f i)) (i : Fin pop.length) (hi : ∀ j : Fin pop.length, j ≠ i → f i < f j)
    (metrics : Nat → Metrics) (hmet : ∀ gen, (metrics gen).generation = gen) :
    Filter.Tendsto (fun gen => chance μ (boltzmannApply R H alpha temp0 maxGen 1 fitness (metrics gen) pop) (fun sel => sel = [pop[i]]))
      Filter.atTop (nhds 1) := by
  obtain ⟨t, t1, -, -, t4⟩ := (C138_cooling ht hm).1 alpha h0 h1
  have hval : ∀ gen, chance μ (boltzmannApply R H alpha temp0 maxGen 1 fitness (metrics gen) pop) (fun sel => sel = [pop[i]]) =
      ENNReal.ofReal (1 / ∑ k : Fin pop.length, Real.exp ((f i - f k) / t gen)) := by
    intro gen
    rw [(C138_small_fitness hR (by rw [hmet]; exact (t1 gen).1) (t1 gen).2 hnd hf i i).1]
    congr 1
    have hS : ∑ k : Fin pop.length, Real.exp (-f k / t gen) =
        Real.exp (-f i / t gen) * ∑ k : Fin pop.length, Real.exp ((f i - f k) / t gen) := by
      rw [Finset.mul_sum]
      refine Finset.sum_congr rfl fun k _ => ?_
      rw [← Real.exp_add]
      congr 1
      ring
    rw [hS, ← div_div, div_self (Real.exp_pos _).ne']
  have hsum : Filter.Tendsto (fun gen => ∑ k : Fin pop.length, Real.exp ((f i - f k) / t gen)) Filter.atTop (nhds 1) := by
    have : ∀ k ∈ (Finset.univ : Finset (Fin pop.length)), Filter.Tendsto (fun gen => Real.exp ((f i - f k) / t gen)) Filter.atTop
        (nhds (if k = i then 1 else 0)) := by
      intro k _
      by_cases hk : k = i
      · subst hk
        simp
      · rw [if_neg hk]
        refine Real.tendsto_exp_atBot.comp ?_
        have hpos : Filter.Tendsto t Filter.atTop (nhdsWithin 0 (Set.Ioi 0)) :=
          tendsto_nhdsWithin_iff.2 ⟨t4, .of_forall fun gen => (t1 gen).2⟩
        have hinv : Filter.Tendsto (fun gen => (t gen)⁻¹) Filter.atTop Filter.atTop := tendsto_inv_nhdsGT_zero.comp hpos
        have hneg : f i - f k < 0 := by linarith [hi k hk]
        exact hinv.const_mul_atTop_of_neg hneg
    have h2 := tendsto_finsetSum Finset.univ this
    simpa using h2
  have h3 : Filter.Tendsto (fun gen => 1 / ∑ k : Fin pop.length, Real.exp ((f i - f k) / t gen)) Filter.atTop (nhds (1 / 1)) :=
    tendsto_const_nhds.div hsum one_ne_zero
  have h4 := ENNReal.tendsto_ofReal h3
  simp only [div_one, ENNReal.ofReal_one] at h4
  exact h4.congr fun gen => (hval gen).symm

end select

/-! ## Link to the model with given weights -/

section link
variable {G I : Type}

/-- A generator whose weighted sampling is the one of rand 0.8.5. -/
noncomputable def withWeighted (R : FRng G ℝ) (H : HeapOrder) : FRng G ℝ :=
  { R with
    weighted := fun g ws k => match sampleWeighted R.toRng H (ws.map .fin) k g with
      | .ok (l, g') => (some l, g')
      | .error _ => (none, g)
    weighted_spec := by
      intro g ws k l h
      obtain ⟨s1, s2⟩ := sampleWeighted_cases (R := R.toRng) (H := H) (ws.map .fin) k
      by_cases hc : k = 0 ∨ (k ≤ (ws.map Ext.fin).length ∧ ∀ x ∈ ws.map Ext.fin, ¬ badWeight x)
      · obtain ⟨l', g', e1, e2, e3, e4⟩ := s1 hc g
        rw [e1] at h
        cases h
        rw [List.length_map] at e4
        exact ⟨e2, e3, e4⟩
      · rw [s2 hc g] at h
        cases h }

/-- **C138, refinement.** For finite fitness values and a temperature other than 0 the operator is the one of `Ga/Selection.lean` (with
which C28 and C31 deal) for a generator that samples as rand 0.8.5 does. -/
theorem C138_refines (R : FRng G ℝ) (H : HeapOrder) {alpha temp0 t : ℝ} {maxGen count : Nat} {m : Metrics}
    (ht : boltzmannTemp alpha temp0 maxGen m.generation = .fin t) (ht0 : t ≠ 0) (fit : I → ℝ) (pop : List I) :
    boltzmannApply R.toRng H alpha temp0 maxGen count (fun x => .fin (fit x)) m pop =
      selBoltzmann (withWeighted R H) (fun x => Real.exp (-fit x / t)) count pop := by
  have hw : (pop.map fun x => boltzmannWeight (boltzmannTemp alpha temp0 maxGen m.generation) (.fin (fit x))) =
      (pop.map fun x => Real.exp (-fit x / t)).map .fin := by
    rw [List.map_map]
    refine List.map_congr_left fun x _ => ?_
    rw [ht, weight_fin ht0]
    rfl
  have h1 : sampleWeighted R.toRng H (pop.map fun x => boltzmannWeight (boltzmannTemp alpha temp0 maxGen m.generation) (.fin (fit x))) count =
      (withWeighted R H).genWeighted (pop.map fun x => Real.exp (-fit x / t)) count := by
    funext g
    rw [hw]
    unfold FRng.genWeighted
    show _ = match (match sampleWeighted R.toRng H ((pop.map fun x => Real.exp (-fit x / t)).map .fin) count g with
      | .ok (l, g') => (some l, g')
      | .error _ => (none, g)) with
      | (some l, g') => (Except.ok (l, g') : Except Panic (List Nat × G))
      | (none, _) => Except.error Panic.libError
    obtain ⟨s1, s2⟩ := sampleWeighted_cases (R := R.toRng) (H := H) ((pop.map fun x => Real.exp (-fit x / t)).map .fin) count
    by_cases hc : count = 0 ∨ (count ≤ ((pop.map fun x => Real.exp (-fit x / t)).map Ext.fin).length ∧
        ∀ x ∈ (pop.map fun x => Real.exp (-fit x / t)).map Ext.fin, ¬ badWeight x)
    · obtain ⟨l', g', e1, -⟩ := s1 hc g
      rw [e1]
    · rw [s2 hc g]
  unfold boltzmannApply selBoltzmann
  rw [h1]

end link

/-! ## Concrete cases -/

section cases

/-- A heap order: sort the indices by their keys. -/
noncomputable def sortOrder : HeapOrder where
  order ks := (List.range ks.length).mergeSort fun i j => decide (ks.getD j 0 ≤ ks.getD i 0)
  perm ks := List.mergeSort_perm _ _
  sorted ks := by
    have := List.pairwise_mergeSort (le := fun i j => decide (ks.getD j 0 ≤ ks.getD i 0))
      (fun a b c => by simpa using fun h1 h2 => le_trans h2 h1) (fun a b => by simpa using le_total _ _) (List.range ks.length)
    simpa using this

/-- Of two individuals with fitness 0 and 4 and `alpha = 0.5`, `temp_0 = 8`, the one with fitness 0 is selected in generation 0 with
probability `e / (e + 1)`. -/
example : chance tapeLaw (boltzmannApply tapeRng sortOrder (1 / 2) 8 500 1 (fun b : Bool => .fin (if b then 4 else 0))
    ⟨0, 2, none⟩ [true, false]) (fun sel => sel = [false]) =
    ENNReal.ofReal (Real.exp 1 / (Real.exp 1 + 1)) := by
  have ht : boltzmannTemp (1 / 2) 8 500 0 = .fin 4 := by
    rw [C138_temperature _ _ (by norm_num)]
    norm_num
  have := (C138_small_fitness (H := sortOrder) tapeRng_ideal (fitness := fun b : Bool => .fin (if b then 4 else 0))
    (m := ⟨0, 2, none⟩) (maxGen := 500) ht (by norm_num) (pop := [true, false]) (by simp)
    (f := fun i => if i = 0 then 4 else 0) (by
      intro i hi
      have : i = 0 ∨ i = 1 := by simp at hi; omega
      rcases this with rfl | rfl <;> simp) ⟨1, by simp⟩ ⟨0, by simp⟩).1
  refine this.trans ?_
  congr 1
  have h2 : (∑ k : Fin [true, false].length, Real.exp (-(if (k : Nat) = 0 then (4 : ℝ) else 0) / 4)) = Real.exp (-1) + 1 := by
    show (∑ k : Fin 2, Real.exp (-(if (k : Nat) = 0 then (4 : ℝ) else 0) / 4)) = _
    rw [Fin.sum_univ_two]
    norm_num
  rw [h2]
  have h3 : Real.exp 1 * Real.exp (-1) = 1 := by rw [← Real.exp_add]; norm_num
  have := Real.exp_pos 1
  have := Real.exp_pos (-1)
  simp only [one_ne_zero, if_false, neg_zero, zero_div, Real.exp_zero]
  rw [div_eq_div_iff (by positivity) (by positivity)]
  nlinarith

/-- With `alpha = 1` an individual of fitness 0 makes the operator panic. -/
example : ∀ g, ∃ e, boltzmannApply tapeRng sortOrder 1 8 500 1 (fun b : Bool => .fin (if b then 4 else 0))
    ⟨0, 2, none⟩ [true, false] g = .error e :=
  (C138_panics (R := tapeRng) (H := sortOrder) (alpha := 1) (temp0 := 8)
    ⟨by norm_num, by norm_num, by norm_num, by norm_num⟩ 500 1
    (fun b : Bool => .fin (if b then 4 else 0)) ⟨0, 2, none⟩ [true, false]).1
    ⟨by simp, .inr (.inr (.inr ⟨.inl ⟨by norm_num, rfl⟩, false, by simp, by simp⟩))⟩

/-- With the values of examples/ga.rs (`alpha = 0.05`, `temp_0 = 80`, `max_gen_count = 500`) it returns. -/
example : ∀ g, ∃ sel g', boltzmannApply tapeRng sortOrder 0.05 80 500 2 (fun b : Bool => .fin (if b then 4 else 0))
    ⟨7, 2, none⟩ [true, false] g = .ok (sel, g') ∧ sel.Perm [true, false] := by
  intro g
  obtain ⟨sel, g', h, -⟩ := (C138_panics (R := tapeRng) (H := sortOrder) (alpha := 0.05) (temp0 := 80)
    ⟨by norm_num, by norm_num, by norm_num, by norm_num⟩ 500 2
    (fun b : Bool => .fin (if b then 4 else 0)) ⟨7, 2, none⟩ [true, false]).2 (by norm_num; exact ⟨nofun, nofun⟩) g
  exact ⟨sel, g', h, C138_whole_population (pop := [true, false]) g sel g' h⟩

end cases

section instances
example := C138_weighted_sample (n := 3) tapeRng_ideal sortOrder (w := fun i => (i : ℝ) + 1) (fun i => by positivity)
  (L := [2, 0]) (by decide)
example := (C138_cooling (temp0 := 80) (by norm_num) (maxGen := 500) (by norm_num)).1 0.05 (by norm_num) (by norm_num)
theorem exTemp : boltzmannTemp (1 / 2) 8 500 0 = .fin 4 := by
  rw [C138_temperature _ _ (by norm_num)]
  norm_num
def exEnergy (b : Bool) : Ext ℝ := .fin (if b then 4 else 0)
noncomputable def exEnergyAt (i : Nat) : ℝ := if i = 0 then 4 else 0
theorem exFit (i : Nat) (hi : i < [true, false].length) : exEnergy [true, false][i] = .fin (exEnergyAt i) := by
  have : i = 0 ∨ i = 1 := by simp at hi; omega
  rcases this with rfl | rfl <;> simp [exEnergy, exEnergyAt]
example := C138_law (H := sortOrder) tapeRng_ideal (m := ⟨0, 2, none⟩) exTemp (by norm_num) (fitness := exEnergy) (pop := [true, false]) (by simp)
  (f := exEnergyAt) exFit (L := [⟨1, by simp⟩, ⟨0, by simp⟩]) (by decide)
example := C138_takes_the_best (H := sortOrder) tapeRng_ideal (alpha := 1 / 2) (temp0 := 8) (by norm_num) (by norm_num)
  (by norm_num) (maxGen := 500) (by norm_num) (fitness := exEnergy) (pop := [true, false]) (by simp)
  (f := exEnergyAt) exFit ⟨1, by simp⟩
  (fun j hj => by
    have h1 : (j : Nat) ≠ 1 := fun h => hj (Fin.ext h)
    have h2 : (j : Nat) < 2 := j.2
    have : (j : Nat) = 0 := by omega
    simp [this, exEnergyAt])
  (fun gen => ⟨gen, 2, none⟩) (fun _ => rfl)
example (R : FRng Tape ℝ) := C138_refines R sortOrder (count := 1) (m := ⟨0, 2, none⟩) exTemp (by norm_num)
  (fun b : Bool => if b then 4 else 0) [true, false]
end instances

end Ecrs
