import Verif.Props.GaExamples

/-!
# Property C140: real-valued GAs do not converge
-/

set_option linter.unusedSectionVars false
set_option linter.unusedVariables false

namespace Ecrs.Ga
open Ecrs MeasureTheory
open scoped ENNReal

/-! ## The initial draws -/

section draws
variable {G : Type} [MeasurableSpace G] {R : Rng G ℝ} {μ : Measure G}

/-- The states of the generator from which the next unit draws avoid the given sets, one after another. -/
def Avoids (R : Rng G ℝ) : List (Set ℝ) → Set G
  | [] => Set.univ
  | A :: As => {g | (R.unit g).1 ∈ Aᶜ ∧ (R.unit g).2 ∈ Avoids R As}

theorem avoids_law (hR : Ideal R μ) : ∀ {As : List (Set ℝ)}, (∀ A ∈ As, MeasurableSet A) →
    MeasurableSet (Avoids R As) ∧ μ (Avoids R As) = (As.map fun A => volume (Set.Ico 0 1 \ A)).prod
  | [], _ => ⟨MeasurableSet.univ, by simpa [Avoids] using hR.total⟩
  | A :: As, h => by
    obtain ⟨h1, h2⟩ := avoids_law hR (As := As) fun B hB => h B (by simp [hB])
    obtain ⟨h3, h4⟩ := hR.unit Aᶜ (Avoids R As) (h A (by simp)).compl h1
    refine ⟨h3, ?_⟩
    show μ {g | (R.unit g).1 ∈ Aᶜ ∧ (R.unit g).2 ∈ Avoids R As} = _
    rw [h4, h2, List.map_cons, List.prod_cons]
    congr 2
    ext x
    simp only [Set.mem_inter_iff, Set.mem_compl_iff, Set.mem_sdiff]
    tauto

theorem avoids_append {Bs : List (Set ℝ)} : ∀ {As : List (Set ℝ)} {g : G}, g ∈ Avoids R (As ++ Bs) ↔
    g ∈ Avoids R As ∧ (As.foldl (fun g _ => (R.unit g).2) g) ∈ Avoids R Bs := by
  intro As
  induction As with
  | nil => intro g; simp [Avoids]
  | cons A As ih =>
    intro g
    simp only [List.cons_append, Avoids, Set.mem_ofPred_eq, List.foldl_cons, ih]
    tauto

/-- The unit draws that put a coordinate into `A`. -/
def hitting (A : Set ℝ) (c : ℝ × ℝ) : Set ℝ := {u | (c.2 - c.1) * u + c.1 ∈ A}

theorem point_avoids {A : Set ℝ} : ∀ {cs : List (ℝ × ℝ)} {g : G}, g ∈ Avoids R (cs.map (hitting A)) →
    ∃ pt, M.forEach (pointCoord R) cs g = .ok (pt, (cs.map (hitting A)).foldl (fun g _ => (R.unit g).2) g) ∧ ∀ x ∈ pt, x ∉ A
  | [], g, _ => ⟨[], rfl, by simp⟩
  | c :: cs, g, h => by
    obtain ⟨h1, h2⟩ := h
    obtain ⟨pt, h3, h4⟩ := point_avoids h2
    refine ⟨((c.2 - c.1) * (R.unit g).1 + c.1) :: pt, ?_, ?_⟩
    · unfold M.forEach
      have e : pointCoord R c g = .ok ((c.2 - c.1) * (R.unit g).1 + c.1, (R.unit g).2) := rfl
      rw [M.bind_of_ok e, M.bind_of_ok h3]
      rfl
    · intro x hx
      rcases List.mem_cons.1 hx with rfl | hx
      · exact h1
      · exact h4 x hx

theorem points_avoid {A : Set ℝ} {cs : List (ℝ × ℝ)} : ∀ {n : Nat} {g : G}, g ∈ Avoids R (List.replicate n (cs.map (hitting A))).flatten →
    ∃ pts g', M.replicate n (M.forEach (pointCoord R) cs) g = .ok (pts, g') ∧ ∀ pt ∈ pts, ∀ x ∈ pt, x ∉ A
  | 0, g, _ => ⟨[], g, rfl, by simp⟩
  | n + 1, g, h => by
    rw [List.replicate_succ, List.flatten_cons] at h
    obtain ⟨h1, h2⟩ := avoids_append.1 h
    obtain ⟨pt, h3, h4⟩ := point_avoids h1
    obtain ⟨pts, g', h5, h6⟩ := points_avoid h2
    refine ⟨pt :: pts, g', ?_, ?_⟩
    · unfold M.replicate
      rw [M.bind_of_ok h3, M.bind_of_ok h5]
      rfl
    · intro q hq
      rcases List.mem_cons.1 hq with rfl | hq
      · exact h4
      · exact h6 q hq

end draws

/-! ## Runs that only recombine -/

section recombine
variable {G I C F : Type} [LinearOrder F] {T : IndTrait I C F} {X : ChromOps I ℝ}

/-- The operators after the generator create no gene values. -/
structure Recombines (T : IndTrait I C F) (X : ChromOps I ℝ) (dim : Nat) (ops : Ops G I F) : Prop where
  set : ∀ i x, X.ch (T.setFitness i x) = X.ch i
  fit : ∀ i, IfReturns (ops.fitnessFn i) fun r => X.ch r.1 = X.ch i
  sel : ∀ m pop, IfReturns (ops.select m pop) fun pool => ∀ i ∈ pool, i ∈ pop
  cross : ∀ m pool, (∀ i ∈ pool, (X.ch i).length = dim) → IfReturns (ops.cross m pool) fun out =>
    ∀ i ∈ out, (X.ch i).length = dim ∧ ∀ x ∈ X.ch i, ∃ j ∈ pool, x ∈ X.ch j
  mutate : ∀ m i, IfReturns (ops.mutate m i) fun j => (X.ch j).Perm (X.ch i)
  replace : ∀ m pop children, IfReturns (ops.replace m pop children) fun out => ∀ i ∈ out, i ∈ pop ∨ i ∈ children

/-- The individual has no gene in `A`. -/
def NoGene (X : ChromOps I ℝ) (A : Set ℝ) (i : I) : Prop := ∀ x ∈ X.ch i, x ∉ A

/-- If the initial population has no gene in `A`, nothing the run shows has. -/
theorem Recombines.run {ops : Ops G I F} {dim : Nat} (h : Recombines T X dim ops) {A : Set ℝ} {p : GAParams} {m0 : Metrics} {pop0 : List I}
    {g g1 : G} (hgen : ops.generate p.populationSize g = .ok (pop0, g1)) (h0 : ∀ i ∈ pop0, (X.ch i).length = dim ∧ NoGene X A i)
    {best : I} {tr : List (Ev I)} {g' : G} (hr : Ga.run T ops p m0 g = .ok ((best, tr), g')) :
    NoGene X A best ∧ ∀ e ∈ tr, EvAll (NoGene X A) e := by
  rw [← run_generate_const T ops m0 hgen] at hr
  have hc : Closed T { ops with generate := fun _ _ => .ok (pop0, g1) } (fun i => (X.ch i).length = dim ∧ NoGene X A i) :=
    { set := fun i x hi => by
        unfold NoGene at hi ⊢
        rw [h.set]
        exact hi
      gen := fun _ v a v' hv => by
        cases hv
        exact h0
      fit := fun i hi => (h.fit i).mono fun r hr => by
        unfold NoGene at hi ⊢
        rw [hr]
        exact hi
      sel := fun m pop hp => (h.sel m pop).mono fun pool hq i hi => hp i (hq i hi)
      cross := fun m pool hp => (h.cross m pool fun i hi => (hp i hi).1).mono fun out ho i hi =>
        ⟨(ho i hi).1, fun x hx => by
          obtain ⟨j, hj, hxj⟩ := (ho i hi).2 x hx
          exact (hp j hj).2 x hxj⟩
      mutate := fun m i hi => (h.mutate m i).mono fun j hj => ⟨by rw [hj.length_eq, hi.1], fun x hx => hi.2 x (hj.mem_iff.1 hx)⟩
      replace := fun m pop children hp hq => (h.replace m pop children).mono fun out ho i hi => (ho i hi).elim (hp i) (hq i) }
  obtain ⟨r1, r2⟩ := hc.run p hr
  refine ⟨r1.2, fun e he => ?_⟩
  have := r2 e he
  cases e <;> simp only [EvAll] at this ⊢
  · exact fun i hi => (this i hi).2
  · exact this.2
  · exact fun i hi => (this i hi).2
  · exact this.2
  · exact ⟨fun i hi => (this.1 i hi).2, this.2.2⟩
  · exact fun i hi => (this i hi).2
  · exact ⟨fun i hi => (this.1 i hi).2, fun i hi => (this.2 i hi).2⟩

/-- Locus-wise crossover creates no gene values. -/
theorem locus_cross {R : Rng G ℝ} {half : ℝ} {fuel dim : Nat} {cr : Crossover ℝ} (hcr : cr.isLocus = true) (hd : 0 < dim) {pool : List I}
    (hp : ∀ i ∈ pool, (X.ch i).length = dim) : IfReturns (cr.apply R X half fuel pool) fun out =>
      ∀ i ∈ out, (X.ch i).length = dim ∧ ∀ x ∈ X.ch i, ∃ j ∈ pool, x ∈ X.ch j := by
  refine (locusCross_ifReturns R X hcr hd hp).mono fun out ho => ?_
  refine pairsRel_all (P := fun i => (X.ch i).length = dim ∧ ∀ x ∈ X.ch i, ∃ j ∈ pool, x ∈ X.ch j) ho
    (fun i hi => ⟨hp i hi, fun x hx => ⟨i, hi, hx⟩⟩) ?_
  rintro a b c d ⟨la, ha⟩ ⟨lb, hb⟩ ⟨lc, ld, hg⟩
  refine ⟨⟨by rw [lc, la], fun x hx => ?_⟩, ⟨by rw [ld, la], fun x hx => ?_⟩⟩
  · obtain ⟨k, hk⟩ := List.mem_iff_getElem?.1 hx
    rcases hg k with ⟨e, -⟩ | ⟨e, -⟩
    · exact ha x (List.mem_of_getElem? (by rw [← e]; exact hk))
    · exact hb x (List.mem_of_getElem? (by rw [← e]; exact hk))
  · obtain ⟨k, hk⟩ := List.mem_iff_getElem?.1 hx
    rcases hg k with ⟨-, e⟩ | ⟨-, e⟩
    · exact hb x (List.mem_of_getElem? (by rw [← e]; exact hk))
    · exact ha x (List.mem_of_getElem? (by rw [← e]; exact hk))

/-- GAs on real vectors made of shipped operators. -/
theorem realOps_recombines (R : FRng G ℝ) (hset : ∀ i x, X.ch (T.setFitness i x) = X.ch i) (S : Slots G G) (f : C → Fl F) (fit : I → ℝ)
    (half : ℝ) (fuel count : Nat) {dim : Nat} (hd : 0 < dim) (rp : RandomPoints ℝ) (sel : Selection ℝ I) {cr : Crossover ℝ}
    (hcr : cr.isLocus = true) (mu : Mutation ℝ) (re : Replacement) (debug : Bool) (elapsed : M G Nat) :
    Recombines T X dim (realOps R T X S f fit half fuel count rp sel cr mu re debug elapsed) where
  set := hset
  fit i := IfReturns.pure rfl
  sel m pop := S.sel.run_ifReturns (C28_members R T fit fuel count sel m pop)
  cross m pool hp := S.cross.run_ifReturns (locus_cross hcr hd hp)
  mutate m i := S.mutate.run_ifReturns (C25_reordering_mutations R.toRng X mu i)
  replace m pop children := replacement_members T re debug pop children

end recombine

section presets
variable {G : Type}

/-- The real-valued preset. -/
theorem rvcOps_recombines {F : Type} [LinearOrder F] (R : Rng G ℝ) (S : Slots G G) (worst : Fl F) (f : List ℝ → Fl F) {dim : Nat} (hd : 0 < dim) (n : Nat)
    (elapsed : M G Nat) : Recombines (Individual.trait (List ℝ) F) (Individual.chromOps ℝ worst) dim (rvcOps R S worst f dim n elapsed) where
  set _ _ := rfl
  fit i := IfReturns.pure rfl
  sel m pop := S.sel.run_ifReturns <| by
    refine (IfReturns.replicate (Q := fun x => x ∈ pop) ?_ n).mono fun sel hs => hs.2
    refine IfReturns.bind IfReturns.trivial fun is _ => ?_
    refine IfReturns.bind forEach_idx_ifReturns fun cs hcs => ?_
    exact ofExcept_findMax_mem.mono fun x hx => hcs.mem x hx
  cross m pool hp := S.cross.run_ifReturns (locus_cross (cr := .singlePoint) (half := 0) (fuel := 0) rfl hd hp)
  mutate m i := S.mutate.run_ifReturns (C25_reordering_mutations R (Individual.chromOps ℝ worst) (.interchange (1 / 20)) i)
  replace m pop children := IfReturns.pure fun i hi => .inr hi

/-- GAs with Boltzmann selection (examples/ga.rs). -/
theorem boltzmannOps_recombines (R : Rng G ℝ) (S : Slots G G) (worst : Fl ℝ) (elapsed : M G Nat) (H : HeapOrder) (alpha temp0 : ℝ)
    (maxGen count : Nat) (f : List ℝ → TF.R) (rp : RandomPoints ℝ) {cr : Crossover ℝ} (hcr : cr.isLocus = true) (mu : Mutation ℝ)
    (re : Replacement) (debug : Bool) {dim : Nat} (hd : 0 < dim) :
    Recombines (Individual.trait (List ℝ) ℝ) (Individual.chromOps ℝ worst) dim
      (boltzmannOps R S worst elapsed H alpha temp0 maxGen count f rp cr mu re debug) where
  set _ _ := rfl
  fit i := (trapFitness_value f i).mono fun r hr => by rw [hr.2]
  sel m pop := S.sel.run_ifReturns (boltzmannApply_members R H _ _ _ _ _ m pop)
  cross m pool hp := S.cross.run_ifReturns (locus_cross hcr hd hp)
  mutate m i := S.mutate.run_ifReturns (C25_reordering_mutations R (Individual.chromOps ℝ worst) mu i)
  replace m pop children := replacement_members _ re debug pop children

end presets

/-! ## The bounds -/

/-- Specification: the share of the range `[c.1, c.2)` outside `A`. -/
noncomputable def shareOutside (A : Set ℝ) (c : ℝ × ℝ) : ℝ≥0∞ := volume (Set.Ico c.1 c.2 \ A) / ENNReal.ofReal (c.2 - c.1)

theorem volume_hitting (A : Set ℝ) {c : ℝ × ℝ} (hc : c.1 < c.2) : volume (Set.Ico 0 1 \ hitting A c) = shareOutside A c := by
  have hpos : 0 < c.2 - c.1 := by linarith
  have e : Set.Ico 0 1 \ hitting A c = (fun u => (c.2 - c.1) * u) ⁻¹' ((fun x => x + c.1) ⁻¹' (Set.Ico c.1 c.2 \ A)) := by
    ext u
    simp only [hitting, Set.mem_sdiff, Set.mem_Ico, Set.mem_preimage, Set.mem_ofPred_eq]
    have h1 : 0 ≤ u ↔ c.1 ≤ (c.2 - c.1) * u + c.1 := by
      rw [le_add_iff_nonneg_left]
      exact (mul_nonneg_iff_of_pos_left hpos).symm
    have h2 : u < 1 ↔ (c.2 - c.1) * u + c.1 < c.2 := by
      rw [← lt_sub_iff_add_lt]
      constructor
      · intro h
        nlinarith
      · intro h
        by_contra h'
        nlinarith
    rw [h1, h2]
  rw [e, Real.volume_preimage_mul_left hpos.ne', measure_preimage_add_right]
  unfold shareOutside
  rw [abs_of_pos (inv_pos.2 hpos), ENNReal.ofReal_inv_of_pos hpos, mul_comm, ENNReal.div_eq_inv_mul, mul_comm]

theorem measurable_hitting {A : Set ℝ} (hA : MeasurableSet A) (c : ℝ × ℝ) : MeasurableSet (hitting A c) := by
  have : Measurable fun u : ℝ => (c.2 - c.1) * u + c.1 := by fun_prop
  exact this hA

section bounds
variable {G I C F : Type} [LinearOrder F] {T : IndTrait I C F} {X : ChromOps I ℝ} [MeasurableSpace G] {R : Rng G ℝ} {μ : Measure G}

/-- There is a measurable set of states of the right measure from which nothing shown has a gene in `A`. -/
theorem avoiding (hR : Ideal R μ) {ops : Ops G I F} {cs : List (ℝ × ℝ)} (hrec : Recombines T X cs.length ops)
    (hgen : ∀ n, ops.generate n = RandomPoints.generate R X ⟨cs.length, cs⟩ n) (hcs : ∀ c ∈ cs, c.1 < c.2) {A : Set ℝ} (hA : MeasurableSet A)
    {p : GAParams} (m0 : Metrics) : ∃ E : Set G, MeasurableSet E ∧ μ E = (cs.map (shareOutside A)).prod ^ p.populationSize ∧
      ∀ g ∈ E, ∀ best tr g', run T ops p m0 g = .ok ((best, tr), g') → NoGene X A best ∧ ∀ e ∈ tr, EvAll (NoGene X A) e := by
  have hm : ∀ B ∈ (List.replicate p.populationSize (cs.map (hitting A))).flatten, MeasurableSet B := by
    intro B hB
    obtain ⟨l, hl, hB⟩ := List.mem_flatten.1 hB
    rw [List.eq_of_mem_replicate hl] at hB
    obtain ⟨c, -, rfl⟩ := List.mem_map.1 hB
    exact measurable_hitting hA c
  obtain ⟨h1, h2⟩ := avoids_law hR hm
  refine ⟨_, h1, ?_, ?_⟩
  · rw [h2, List.map_flatten, List.map_replicate, List.prod_flatten, List.map_replicate, List.prod_replicate, List.map_map]
    congr 2
    exact List.map_congr_left fun c hc => volume_hitting A (hcs c hc)
  · intro g hg best tr g' hr
    obtain ⟨pts, g1, h3, h4⟩ := points_avoid hg
    have h5 : ops.generate p.populationSize g = .ok (pts.map X.ofCh, g1) := by
      rw [hgen]
      unfold RandomPoints.generate
      rw [hR.onClone_eq]
      unfold generateWithConstraints
      have e : (M.assert (cs.length == cs.length) : M G Unit) g = .ok ((), g) := by simp [M.assert]
      have h6 : (M.assert (cs.length == cs.length) >>= fun _ =>
          M.replicate p.populationSize (M.forEach (pointCoord R) cs)) g = .ok (pts, g1) := by
        rw [M.bind_of_ok e]
        exact h3
      rw [M.bind_of_ok h6]
      rfl
    have hlen : ∀ pt ∈ pts, pt.length = cs.length := by
      have := IfReturns.replicate (Q := fun pt => pt.length = cs.length)
        (IfReturns.forEach (f := pointCoord R) cs (R := fun _ _ => True) (fun _ _ => IfReturns.trivial) |>.mono fun pt h => h.length_eq.symm)
        p.populationSize g pts g1 h3
      exact this.2
    refine hrec.run h5 ?_ hr
    intro i hi
    obtain ⟨pt, hpt, rfl⟩ := List.mem_map.1 hi
    unfold NoGene
    rw [X.ch_ofCh]
    exact ⟨hlen pt hpt, h4 pt hpt⟩

/-- The chance of a result with a gene in `A`. -/
theorem stuck_bound (hR : Ideal R μ) {ops : Ops G I F} {cs : List (ℝ × ℝ)} (hrec : Recombines T X cs.length ops)
    (hgen : ∀ n, ops.generate n = RandomPoints.generate R X ⟨cs.length, cs⟩ n) (hcs : ∀ c ∈ cs, c.1 < c.2) {A : Set ℝ} (hA : MeasurableSet A)
    (p : GAParams) (m0 : Metrics) :
    (cs.map (shareOutside A)).prod ^ p.populationSize ≤ μ {g | ∀ best tr g', run T ops p m0 g = .ok ((best, tr), g') →
      (∀ x ∈ X.ch best, x ∉ A) ∧ ∀ e ∈ tr, EvAll (fun i => ∀ x ∈ X.ch i, x ∉ A) e} ∧
    chance μ (run T ops p m0) (fun r => ∃ x ∈ X.ch r.1, x ∈ A) ≤ 1 - (cs.map (shareOutside A)).prod ^ p.populationSize := by
  have := hR.isProbability
  obtain ⟨E, h1, h2, h3⟩ := avoiding hR hrec hgen hcs hA m0 (p := p)
  refine ⟨h2 ▸ measure_mono h3, ?_⟩
  rw [← h2, ← prob_compl_eq_one_sub h1]
  refine measure_mono ?_
  rintro g ⟨⟨best, tr⟩, g', hr, x, hx, hxA⟩ hg
  exact (h3 g hg best tr g' hr).1 x hx hxA

end bounds

theorem shareOutside_interval {c : ℝ × ℝ} (hc : c.1 < c.2) (t : ℝ) {ε : ℝ} (hε : 0 ≤ ε) :
    ENNReal.ofReal (1 - 2 * ε / (c.2 - c.1)) ≤ shareOutside (Set.Icc (t - ε) (t + ε)) c := by
  have hpos : 0 < c.2 - c.1 := by linarith
  unfold shareOutside
  have h1 : volume (Set.Ico c.1 c.2) - volume (Set.Icc (t - ε) (t + ε)) ≤ volume (Set.Ico c.1 c.2 \ Set.Icc (t - ε) (t + ε)) :=
    le_measure_sdiff
  have h2 : t + ε - (t - ε) = 2 * ε := by ring
  rw [Real.volume_Ico, Real.volume_Icc, h2, ← ENNReal.ofReal_sub _ (by linarith)] at h1
  have h3 : ENNReal.ofReal (1 - 2 * ε / (c.2 - c.1)) = ENNReal.ofReal (c.2 - c.1 - 2 * ε) / ENNReal.ofReal (c.2 - c.1) := by
    rw [← ENNReal.ofReal_div_of_pos hpos]
    congr 1
    field_simp
  rw [h3]
  exact ENNReal.div_le_div_right h1 _

theorem shareOutside_countable {c : ℝ × ℝ} (hc : c.1 < c.2) {A : Set ℝ} (hA : A.Countable) : shareOutside A c = 1 := by
  unfold shareOutside
  rw [measure_sdiff_null (hA.measure_zero volume), Real.volume_Ico]
  refine ENNReal.div_self ?_ ENNReal.ofReal_ne_top
  rw [Ne, ENNReal.ofReal_eq_zero]
  linarith

theorem prod_shareOutside_interval {b : ℝ × ℝ} (hb : b.1 < b.2) (t : ℝ) {ε : ℝ} (hε : 0 ≤ ε) (h2 : 2 * ε ≤ b.2 - b.1) (dim n : Nat) :
    ENNReal.ofReal ((1 - 2 * ε / (b.2 - b.1)) ^ (dim * n)) ≤
      ((List.replicate dim b).map (shareOutside (Set.Icc (t - ε) (t + ε)))).prod ^ n := by
  have hpos : 0 < b.2 - b.1 := by linarith
  have h0 : 0 ≤ 1 - 2 * ε / (b.2 - b.1) := by
    rw [sub_nonneg, div_le_one hpos]
    exact h2
  rw [List.map_replicate, List.prod_replicate, ← pow_mul, ENNReal.ofReal_pow h0]
  exact pow_le_pow_left' (shareOutside_interval hb t hε) _

section claims
variable {G : Type} [MeasurableSpace G] {μ : Measure G}

/-- **C140, every GA on real vectors.** Selection, replacement, mutation and locus-wise crossover of the library all leave the multiset of
values a gene can have as the initial population drew it. So for every measurable set `A` of real numbers, with the probability that `n *
dim` independent uniform draws miss `A` (or more), no individual of the run, in any generation, has a gene in `A` — however many
generations the run has, whatever the fitness function is. -/
theorem C140_gene_values {I C F : Type} [LinearOrder F] {T : IndTrait I C F} {X : ChromOps I ℝ} {R : FRng G ℝ} (hR : Ideal R.toRng μ)
    (hset : ∀ i x, X.ch (T.setFitness i x) = X.ch i) (f : C → Fl F) (fit : I → ℝ) (half : ℝ) (fuel count : Nat) {cs : List (ℝ × ℝ)}
    (hd : 0 < cs.length) (hcs : ∀ c ∈ cs, c.1 < c.2) (sel : Selection ℝ I) {cr : Crossover ℝ} (hcr : cr.isLocus = true) (mu : Mutation ℝ)
    (re : Replacement) (debug : Bool) (elapsed : M G Nat) {A : Set ℝ} (hA : MeasurableSet A) (p : GAParams) (m0 : Metrics) :
    let solve := run T (realOps R T X (oneGenerator G) f fit half fuel count ⟨cs.length, cs⟩ sel cr mu re debug elapsed) p m0
    (cs.map (shareOutside A)).prod ^ p.populationSize ≤ μ {g | ∀ best tr g', solve g = .ok ((best, tr), g') →
      (∀ x ∈ X.ch best, x ∉ A) ∧ ∀ e ∈ tr, EvAll (fun i => ∀ x ∈ X.ch i, x ∉ A) e} ∧
    chance μ solve (fun r => ∃ x ∈ X.ch r.1, x ∈ A) ≤ 1 - (cs.map (shareOutside A)).prod ^ p.populationSize :=
  stuck_bound hR (realOps_recombines R hset (oneGenerator G) f fit half fuel count hd ⟨cs.length, cs⟩ sel hcr mu re debug elapsed) (fun n => wholeSlot_run _) hcs hA p m0

/-- The solver `Realvalued` builds, with one generator. -/
noncomputable abbrev rvcSolve (R : Rng G ℝ) (worst : Fl ℝ) (f : List ℝ → Fl ℝ) (dim : Nat) (elapsed : M G Nat) (p : GAParams) (m0 : Metrics) :=
  run (Individual.trait (List ℝ) ℝ) (rvcOps R (oneGenerator G) worst f dim p.populationSize elapsed) p m0

theorem rvc_bound {R : Rng G ℝ} (hR : Ideal R μ) (worst : Fl ℝ) (f : List ℝ → Fl ℝ) {dim : Nat} (hd : 0 < dim) (elapsed : M G Nat)
    {A : Set ℝ} (hA : MeasurableSet A) (p : GAParams) (m0 : Metrics) :
    chance μ (rvcSolve R worst f dim elapsed p m0) (fun r => ∃ x ∈ r.1.chromosome, x ∈ A) ≤
      1 - ((List.replicate dim ((0 : ℝ), (1 : ℝ))).map (shareOutside A)).prod ^ p.populationSize := by
  refine (stuck_bound hR (cs := List.replicate dim (0, 1)) (T := Individual.trait (List ℝ) ℝ) (X := Individual.chromOps ℝ worst) ?_ ?_ ?_ hA p m0).2
  · rw [List.length_replicate]
    exact rvcOps_recombines R _ worst f hd _ elapsed
  · intro n
    rw [List.length_replicate]
    exact wholeSlot_run _
  · intro c hc
    rw [List.eq_of_mem_replicate hc]
    norm_num

/-- **C140, the real-valued preset comes no nearer.** For every fitness function, every number of generations and every number `t`, the
probability that the result of the real-valued preset has a gene within `ε` of `t` is at most `1 - (1 - 2 ε) ^ (dim * population)`: it
does not tend to 1 as the run gets longer. -/
theorem C140_no_convergence {R : Rng G ℝ} (hR : Ideal R μ) (worst : Fl ℝ) (f : List ℝ → Fl ℝ) {dim : Nat} (hd : 0 < dim) (elapsed : M G Nat)
    (t : ℝ) {ε : ℝ} (h0 : 0 ≤ ε) (h1 : ε ≤ 1 / 2) (p : GAParams) (m0 : Metrics) :
    chance μ (rvcSolve R worst f dim elapsed p m0) (fun r => ∃ x ∈ r.1.chromosome, |x - t| ≤ ε) ≤
      1 - ENNReal.ofReal ((1 - 2 * ε) ^ (dim * p.populationSize)) := by
  have := rvc_bound hR worst f hd elapsed (A := Set.Icc (t - ε) (t + ε)) measurableSet_Icc p m0
  refine le_trans (chance_mono ?_) (this.trans (tsub_le_tsub_left ?_ 1))
  · rintro r ⟨x, hx, h⟩
    rw [abs_le] at h
    exact ⟨x, hx, by constructor <;> linarith⟩
  · have := prod_shareOutside_interval (b := (0, 1)) (by norm_num) t h0 (by norm_num; linarith) dim p.populationSize
    simpa using this

/-- **C140, never exact.** The result of the real-valued preset has a gene from a given countable set (the coordinates of the optimum, the
rational numbers, …) with probability 0. -/
theorem C140_never_exact {R : Rng G ℝ} (hR : Ideal R μ) (worst : Fl ℝ) (f : List ℝ → Fl ℝ) {dim : Nat} (hd : 0 < dim) (elapsed : M G Nat)
    {A : Set ℝ} (hA : A.Countable) (p : GAParams) (m0 : Metrics) :
    chance μ (rvcSolve R worst f dim elapsed p m0) (fun r => ∃ x ∈ r.1.chromosome, x ∈ A) = 0 := by
  have := rvc_bound hR worst f hd elapsed hA.measurableSet p m0
  rw [List.map_replicate, shareOutside_countable (by norm_num) hA] at this
  simpa using this

/-- The squared distance from the centre of the cube. -/
noncomputable def fromCentre (c : List ℝ) : ℝ := (c.map fun x => (x - 1 / 2) ^ 2).sum

theorem gene_near_centre {c : List ℝ} {δ x : ℝ} (hx : x ∈ c) (h : fromCentre c < δ ^ 2) (hδ : 0 ≤ δ) : |x - 1 / 2| ≤ δ := by
  have h1 : (x - 1 / 2) ^ 2 ≤ fromCentre c := by
    unfold fromCentre
    exact List.single_le_sum (by simp only [List.mem_map]; rintro y ⟨z, -, rfl⟩; positivity) _ (List.mem_map.2 ⟨x, hx, rfl⟩)
  exact abs_le_of_sq_le_sq (by linarith) hδ

/-- **C140, an instance.** The real-valued preset minimising the squared distance from the centre of the cube, over any number of
generations, returns a vector within `ε` of the centre with probability at most `1 - (1 - 2 ε) ^ (dim * population)`. -/
theorem C140_sphere {R : Rng G ℝ} (hR : Ideal R μ) (worst : Fl ℝ) {dim : Nat} (hd : 0 < dim) {elapsed : M G Nat}
    (hel : Returns elapsed fun _ => True)
    {ε : ℝ} (h0 : 0 ≤ ε) (h1 : ε ≤ 1 / 2) (p : GAParams) (hp : 0 < p.populationSize) (he : p.populationSize % 2 = 0) (m0 : Metrics) :
    chance μ (rvcSolve R worst (fun c => .num (fromCentre c)) dim elapsed p m0) (fun r => fromCentre r.1.chromosome < ε ^ 2) ≤
      1 - ENNReal.ofReal ((1 - 2 * ε) ^ (dim * p.populationSize)) := by
  refine le_trans ?_ (C140_no_convergence hR worst (fun c => .num (fromCentre c)) hd elapsed (1 / 2) h0 h1 p m0)
  have := (rvcOps_total R (oneGenerator G) worst (f := fun c => Fl.num (fromCentre c)) (fun _ => trivial) hd hp he hel).all (by omega) rfl m0
  refine chance_mono_returned (V := fun r => InUnitCube dim r.1.chromosome) (this.ifReturns.mono fun r h => h.1) ?_
  rintro r ⟨hl, -⟩ hr
  obtain ⟨x, hx⟩ : ∃ x, x ∈ r.1.chromosome := by
    cases h : r.1.chromosome with
    | nil => rw [h] at hl; simp at hl; omega
    | cons x _ => exact ⟨x, by simp⟩
  exact ⟨x, hx, gene_near_centre hx hr h0⟩

/-- **C140, examples/ga.rs.** Whatever number `t` one hopes for, the example finds a vector with a coordinate within `ε` of `t` with
probability at most `1 - (1 - 2 ε / 10.24) ^ 300`, so (with `ε = 0`) one with a coordinate equal to `t` with probability 0. -/
theorem C140_ga {R : Rng G ℝ} (hR : Ideal R μ) (worst : Fl ℝ) (elapsed : M G Nat) (H : HeapOrder) (debug : Bool) (t : ℝ) {ε : ℝ} (h0 : 0 ≤ ε)
    (h1 : ε ≤ 5.12) :
    chance μ (gaMain R (oneGenerator G) worst elapsed H debug) (fun r => ∃ x ∈ r.1.chromosome, |x - t| ≤ ε) ≤
      1 - ENNReal.ofReal ((1 - 2 * ε / 10.24) ^ 300) := by
  have e : gaMain R (oneGenerator G) worst elapsed H debug = run (Individual.trait (List ℝ) ℝ)
      (boltzmannOps R (oneGenerator G) worst elapsed H 0.05 80 500 100 (fun c => (TF.rastrigin c).map fun v => 1000 * Real.exp (-v))
        ⟨3, List.replicate 3 (-5.12, 5.12)⟩ .singlePoint .identity .weakParent debug) ⟨100, 50000, durationMax⟩
      (initialMetrics ⟨100, 50000, durationMax⟩) := by
    funext g
    unfold gaMain
    rw [show (oneGenerator G).gen = wholeSlot G from rfl, show (oneGenerator G).sel = wholeSlot G from rfl, wholeSlot_run, wholeSlot_run]
    have e1 : RandomPoints.withConstraints 3 [((-5.12 : ℝ), (5.12 : ℝ)), (-5.12, 5.12), (-5.12, 5.12)] g =
        .ok (⟨3, List.replicate 3 (-5.12, 5.12)⟩, g) := rfl
    have e2 : boltzmannNew (5 : ℝ) 100 0.05 80 g = .ok ((0.05, 80), g) := by
      unfold boltzmannNew
      have h1 : (decide ((0 : ℝ) ≤ 0.05) && decide ((0.05 : ℝ) ≤ 1)) = true := by norm_num
      have h2 : (decide ((5 : ℝ) ≤ 80) && decide ((80 : ℝ) ≤ 100)) = true := by norm_num
      rw [h1, h2]
      rfl
    rw [M.bind_of_ok e1, M.bind_of_ok e2]
    rfl
  rw [e]
  have := (stuck_bound hR (cs := List.replicate 3 ((-5.12 : ℝ), (5.12 : ℝ))) (boltzmannOps_recombines R (oneGenerator G) worst elapsed H 0.05 80 500 100 (fun c => (TF.rastrigin c).map fun v => 1000 * Real.exp (-v))
    ⟨3, List.replicate 3 (-5.12, 5.12)⟩ (cr := .singlePoint) rfl .identity .weakParent debug (by decide : 0 < 3)) (fun n => wholeSlot_run _)
    (by intro c hc; rw [List.eq_of_mem_replicate hc]; norm_num) (measurableSet_Icc (a := t - ε) (b := t + ε)) ⟨100, 50000, durationMax⟩
      (initialMetrics ⟨100, 50000, durationMax⟩)).2
  refine le_trans (chance_mono ?_) (this.trans (tsub_le_tsub_left ?_ 1))
  · rintro r ⟨x, hx, h⟩
    rw [abs_le] at h
    exact ⟨x, hx, by constructor <;> linarith⟩
  · have := prod_shareOutside_interval (b := (-5.12, 5.12)) (by norm_num) t h0 (by norm_num; linarith) 3 100
    norm_num at this ⊢
    exact this

end claims

/-! ## Examples -/

/-- 100 000 generations of 10 individuals with 2 genes: within 0.001 of the optimum with probability below 5 per cent. -/
example : chance tapeLaw (rvcSolve tapeRng (.num 0) (fun c => .num (fromCentre c)) 2 (pure 0) ⟨10, 100000, durationMax⟩ ⟨0, 10, none⟩)
    (fun r => fromCentre r.1.chromosome < 0.001 ^ 2) ≤ 1 - ENNReal.ofReal 0.95 := by
  refine le_trans (C140_sphere tapeRng_ideal _ (by decide) (Returns.pure trivial) (by norm_num) (by norm_num) _ (by decide) (by decide) _) ?_
  exact tsub_le_tsub_left (ENNReal.ofReal_le_ofReal (by norm_num)) 1

/-- No run of the preset returns a vector with a rational coordinate, almost surely. -/
example : chance tapeLaw (rvcSolve tapeRng (.num 0) (fun c => .num (fromCentre c)) 2 (pure 0) ⟨10, 100000, durationMax⟩ ⟨0, 10, none⟩)
    (fun r => ∃ x ∈ r.1.chromosome, x ∈ Set.range ((↑) : ℚ → ℝ)) = 0 :=
  C140_never_exact tapeRng_ideal _ _ (by decide) _ (Set.countable_range _) _ _

/-- examples/ga.rs has a coordinate within 0.0001 of a given number with probability below 1 per cent. -/
example : chance tapeLaw (gaMain tapeRng (oneGenerator _) (.num 0) (pure 0) sortOrder true) (fun r => ∃ x ∈ r.1.chromosome, |x - 4.5229| ≤ 0.0001) ≤
    1 - ENNReal.ofReal 0.99 := by
  refine le_trans (C140_ga tapeRng_ideal _ _ _ _ 4.5229 (by norm_num) (by norm_num)) ?_
  have := one_add_mul_le_pow (a := -(1 / 51200 : ℝ)) (by norm_num) 300
  refine tsub_le_tsub_left (ENNReal.ofReal_le_ofReal ?_) 1
  norm_num at this ⊢
  exact le_trans (by norm_num) this

/-- A GA with roulette selection, two-point crossover and inversion in the box `[0, 2) × [1, 4)`, with 4 individuals: with probability at
least `((1/2) * (2/3)) ^ 4` nothing in the whole run has a gene in `[1, 2]`. -/
example : (((1 / 2 : ENNReal) * (2 / 3)) ^ 4) ≤ tapeLaw {g | ∀ best tr g',
    run (Individual.trait (List ℝ) ℝ) (realOps tapeFRng (Individual.trait (List ℝ) ℝ) (Individual.chromOps ℝ (.num 0)) (oneGenerator _)
      (fun c => .num (fromCentre c)) (fun i => fromCentre i.chromosome) (1 / 2) 0 4 ⟨2, [(0, 2), (1, 4)]⟩ .roulette .twoPoint (.inversion 1)
      .bothParents true (pure 0)) ⟨4, 1000, durationMax⟩ ⟨0, 4, none⟩ g = .ok ((best, tr), g') →
    (∀ x ∈ best.chromosome, x ∉ Set.Icc (1 : ℝ) 2) ∧ ∀ e ∈ tr, EvAll (fun i => ∀ x ∈ i.chromosome, x ∉ Set.Icc (1 : ℝ) 2) e} := by
  refine le_trans (le_of_eq ?_) (C140_gene_values (R := tapeFRng) tapeRng_ideal (T := Individual.trait (List ℝ) ℝ)
    (X := Individual.chromOps ℝ (.num 0)) (fun _ _ => rfl) (fun c => .num (fromCentre c)) (fun i => fromCentre i.chromosome) (1 / 2) 0 4
    (cs := [(0, 2), (1, 4)]) (by decide) (by intro c hc; fin_cases hc <;> norm_num) .roulette (cr := .twoPoint) rfl (.inversion 1)
    .bothParents true (pure 0) (measurableSet_Icc (a := 1) (b := 2)) ⟨4, 1000, durationMax⟩ ⟨0, 4, none⟩).1
  have h1 : Set.Ico (0 : ℝ) 2 \ Set.Icc 1 2 = Set.Ico 0 1 := by
    ext x
    simp only [Set.mem_sdiff, Set.mem_Ico, Set.mem_Icc]
    constructor
    · rintro ⟨⟨a, b⟩, c⟩
      exact ⟨a, by by_contra h; exact c ⟨by linarith, b.le⟩⟩
    · rintro ⟨a, b⟩
      exact ⟨⟨a, by linarith⟩, fun h => by linarith [h.1]⟩
  have h2 : Set.Ico (1 : ℝ) 4 \ Set.Icc 1 2 = Set.Ioo 2 4 := by
    ext x
    simp only [Set.mem_sdiff, Set.mem_Ico, Set.mem_Icc, Set.mem_Ioo]
    constructor
    · rintro ⟨⟨a, b⟩, c⟩
      exact ⟨by by_contra h; exact c ⟨a, by linarith⟩, b⟩
    · rintro ⟨a, b⟩
      exact ⟨⟨by linarith, b⟩, fun h => by linarith [h.2]⟩
  simp only [List.map_cons, List.map_nil, List.prod_cons, List.prod_nil, shareOutside, h1, h2, Real.volume_Ico, Real.volume_Ioo]
  norm_num

example := C140_no_convergence tapeRng_ideal (.num 0) (fun c => .num (fromCentre c)) (dim := 2) (by decide) (pure 0) (1 / 2)
  (ε := 1 / 100) (by norm_num) (by norm_num) ⟨10, 100000, durationMax⟩ ⟨0, 10, none⟩

end Ecrs.Ga
