import Verif.Ga.Staged
import Verif.ProbRun
import Verif.Ga.Population

/-!
# Runs into which every generation brings points drawn afresh

The chance that all the new points of all generations miss a box of points: it does not depend on what the run does in between,
as long as that only moves the state of the generator and preserves its law.  A proof device, not part of the model.
-/

set_option linter.unusedSectionVars false
set_option linter.unusedVariables false

namespace Ecrs.Ga
open Ecrs MeasureTheory
open scoped ENNReal

/-! ## Programs that move the state in a fixed way -/

section moves
variable {G α β : Type}

/-- Whenever the program returns, it leaves the state `φ g`. -/
def Moves (φ : G → G) (m : M G α) : Prop := ∀ g a g', m g = .ok (a, g') → g' = φ g

theorem Moves.pure (a : α) : Moves id (Pure.pure a : M G α) := by
  intro g b g' h
  rw [M.pure_run] at h
  cases h; rfl

theorem Moves.ofExcept (x : Except Panic α) : Moves id (M.ofExcept x : M G α) := by
  intro g a g' h
  exact (M.ofExcept_ok_iff.1 h).2

theorem Moves.assert (c : Bool) (p : Panic) : Moves id (M.assert c p : M G Unit) := by
  intro g a g' h
  exact (Prod.mk.inj (M.assert_ok_iff.1 h).2).2

theorem Moves.bind {m : M G α} {f : α → M G β} {φ ψ : G → G} {P : α → Prop} (hm : Moves φ m) (hP : IfReturns m P)
    (hf : ∀ a, P a → Moves ψ (f a)) : Moves (ψ ∘ φ) (m >>= f) := by
  intro g b g' h
  obtain ⟨a, g1, h1, h2⟩ := M.bind_ok_iff.1 h
  rw [hf a (hP _ _ _ h1) _ _ _ h2, hm _ _ _ h1]
  rfl

theorem Moves.replicate {m : M G α} {φ : G → G} (hm : Moves φ m) : ∀ n, Moves φ^[n] (M.replicate n m)
  | 0 => Moves.pure _
  | n + 1 => by
    intro g b g' h
    unfold M.replicate at h
    obtain ⟨a, g1, h1, h2⟩ := M.bind_ok_iff.1 h
    obtain ⟨as, g2, h3, h4⟩ := M.bind_ok_iff.1 h2
    rw [M.pure_run] at h4
    cases h4
    rw [Moves.replicate hm n _ _ _ h3, hm _ _ _ h1]
    rfl

theorem Moves.forEach_id {f : α → M G β} : ∀ (xs : List α), (∀ x ∈ xs, Moves id (f x)) → Moves id (M.forEach f xs)
  | [], _ => Moves.pure _
  | x :: xs, hf => by
    intro g b g' h
    unfold M.forEach at h
    obtain ⟨a, g1, h1, h2⟩ := M.bind_ok_iff.1 h
    obtain ⟨as, g2, h3, h4⟩ := M.bind_ok_iff.1 h2
    rw [M.pure_run] at h4
    cases h4
    rw [Moves.forEach_id xs (fun y hy => hf y (by simp [hy])) _ _ _ h3, hf x (by simp) _ _ _ h1]
    rfl

/-- A program with a law that always returns moves the state in a fixed way, which preserves the law of the state. -/
theorem Moves.of_law [MeasurableSpace G] {μ : Measure G} [IsProbabilityMeasure μ] {m : M G α} (h : HasLaw μ m) (hr : Returns m fun _ => True) :
    ∃ φ, MeasurePreserving φ μ μ ∧ Moves φ m := by
  choose a g' hg _ using hr
  obtain ⟨p, h⟩ := h
  obtain ⟨S, hS, hmem⟩ := h.few
  have hpre : ∀ E, g' ⁻¹' E = ⋃ x ∈ S, hits m x E := by
    intro E
    ext g
    simp only [Set.mem_preimage, Set.mem_iUnion, hits, Set.mem_ofPred_eq]
    constructor
    · intro hE
      exact ⟨a g, hmem _ _ _ (hg g), g' g, hg g, hE⟩
    · rintro ⟨x, -, g1, h1, h2⟩
      rw [hg g] at h1
      cases h1; exact h2
  have hdisj : ∀ E, S.PairwiseDisjoint fun x => hits m x E := by
    intro E x _ y _ hxy
    refine Set.disjoint_left.2 fun g h1 h2 => hxy ?_
    obtain ⟨g1, h1, -⟩ := h1
    obtain ⟨g2, h2, -⟩ := h2
    rw [h1] at h2
    cases h2; rfl
  have hmeas : ∀ E, MeasurableSet E → MeasurableSet (g' ⁻¹' E) := fun E hE => by
    rw [hpre]; exact MeasurableSet.biUnion hS fun x _ => h.meas x E hE
  have hsum : ∀ E, MeasurableSet E → μ (g' ⁻¹' E) = (∑' x : S, p x) * μ E := by
    intro E hE
    rw [hpre, measure_biUnion hS (hdisj E) fun x _ => h.meas x E hE, ← ENNReal.tsum_mul_right]
    exact tsum_congr fun x => h.prob x E hE
  have h1 : (∑' x : S, p x) = 1 := by
    have := hsum Set.univ MeasurableSet.univ
    rw [Set.preimage_univ, measure_univ, mul_one] at this
    exact this.symm
  refine ⟨g', ⟨fun E hE => hmeas E hE, ?_⟩, fun g b g1 h2 => ?_⟩
  · ext E hE
    rw [Measure.map_apply (fun E hE => hmeas E hE) hE, hsum E hE, h1, one_mul]
  · rw [hg g] at h2
    cases h2; rfl

end moves

/-! ## Drawing points -/

section points
variable {G : Type} (R : Rng G ℝ)

/-- The state after a draw from the unit interval. -/
def stepUnit (g : G) : G := (R.unit g).2

/-- The next draws lie in the given sets, one after the other, and the state after them in `E`. -/
def HitSet : List (Set ℝ) → Set G → Set G
  | [], E => E
  | A :: As, E => {g | (R.unit g).1 ∈ A ∧ stepUnit R g ∈ HitSet As E}

/-- The next point is not in the box, and the state after it in `E`. -/
def MissOne (As : List (Set ℝ)) (E : Set G) : Set G := (stepUnit R)^[As.length] ⁻¹' E \ HitSet R As E

/-- The volume of the part of the box inside the unit cube. -/
noncomputable def boxVol (As : List (Set ℝ)) : ℝ≥0∞ := (As.map fun A => volume (A ∩ Set.Ico 0 1)).prod

variable {R}

theorem hitSet_sub : ∀ (As : List (Set ℝ)) (E : Set G), HitSet R As E ⊆ (stepUnit R)^[As.length] ⁻¹' E
  | [], E => fun g h => h
  | A :: As, E => fun g h => hitSet_sub As E h.2

theorem moves_unit : Moves (stepUnit R) R.genUnit := by
  intro g a g' h
  unfold Rng.genUnit at h
  rw [M.lift_run] at h
  exact ((Prod.mk.inj (Except.ok.inj h)).2).symm

variable [MeasurableSpace G] {μ : Measure G}

theorem stepUnit_preserving (hR : Ideal R μ) : MeasurePreserving (stepUnit R) μ μ := by
  have h := fun E (hE : MeasurableSet E) => hR.unit Set.univ E MeasurableSet.univ hE
  have e : ∀ E, {g | (R.unit g).1 ∈ Set.univ ∧ (R.unit g).2 ∈ E} = stepUnit R ⁻¹' E := by
    intro E; ext g; simp [stepUnit]
  have hm : Measurable (stepUnit R) := fun E hE => by rw [← e]; exact (h E hE).1
  refine ⟨hm, ?_⟩
  ext E hE
  rw [Measure.map_apply hm hE, ← e, (h E hE).2, Set.univ_inter, Real.volume_Ico]
  simp

theorem hitSet_measure (hR : Ideal R μ) : ∀ (As : List (Set ℝ)) (E : Set G), (∀ A ∈ As, MeasurableSet A) → MeasurableSet E →
    MeasurableSet (HitSet R As E) ∧ μ (HitSet R As E) = boxVol As * μ E
  | [], E, _, hE => ⟨hE, by simp [HitSet, boxVol]⟩
  | A :: As, E, hA, hE => by
    have h1 := hitSet_measure hR As E (fun B hB => hA B (by simp [hB])) hE
    have h2 := hR.unit A _ (hA A (by simp)) h1.1
    refine ⟨h2.1, h2.2.trans ?_⟩
    rw [h1.2]
    unfold boxVol
    rw [List.map_cons, List.prod_cons, mul_assoc]

theorem missOne_measure (hR : Ideal R μ) {As : List (Set ℝ)} (hA : ∀ A ∈ As, MeasurableSet A) {E : Set G} (hE : MeasurableSet E) :
    MeasurableSet (MissOne R As E) ∧ μ (MissOne R As E) = (1 - boxVol As) * μ E := by
  have := hR.isProbability
  have h1 := hitSet_measure hR As E hA hE
  have h2 := (stepUnit_preserving hR).iterate As.length
  refine ⟨(h2.measurable hE).diff h1.1, ?_⟩
  unfold MissOne
  rw [measure_sdiff (hitSet_sub As E) h1.1.nullMeasurableSet (measure_ne_top μ _), h2.measure_preimage hE.nullMeasurableSet, h1.2,
    ENNReal.sub_mul (fun _ _ => measure_ne_top μ E), one_mul]

theorem miss_measure (hR : Ideal R μ) {As : List (Set ℝ)} (hA : ∀ A ∈ As, MeasurableSet A) {E : Set G} (hE : MeasurableSet E) :
    ∀ k, MeasurableSet ((MissOne R As)^[k] E) ∧ μ ((MissOne R As)^[k] E) = (1 - boxVol As) ^ k * μ E
  | 0 => ⟨hE, by simp⟩
  | k + 1 => by
    have h1 := miss_measure hR hA hE k
    rw [Function.iterate_succ_apply']
    have h2 := missOne_measure hR hA h1.1
    refine ⟨h2.1, ?_⟩
    rw [h2.2, h1.2, pow_succ', mul_assoc]

/-- A point drawn by `PointGenerator` from the unit cube. -/
theorem point_hits : ∀ (As : List (Set ℝ)) (E : Set G) (g : G) (ch : List ℝ) (g' : G),
    M.forEach (pointCoord R) (List.replicate As.length (0, 1)) g = .ok (ch, g') →
    g' = (stepUnit R)^[As.length] g ∧ (g ∈ HitSet R As E → List.Forall₂ (fun x A => x ∈ A) ch As)
  | [], E, g, ch, g', h => by
    change (pure [] : M G (List ℝ)) g = _ at h
    rw [M.pure_run] at h
    cases h
    exact ⟨rfl, fun _ => .nil⟩
  | A :: As, E, g, ch, g', h => by
    rw [List.length_cons, List.replicate_succ] at h
    unfold M.forEach at h
    obtain ⟨a, g1, h1, h2⟩ := M.bind_ok_iff.1 h
    obtain ⟨as, g2, h3, h4⟩ := M.bind_ok_iff.1 h2
    rw [M.pure_run] at h4
    cases h4
    unfold pointCoord at h1
    obtain ⟨u, g3, h5, h6⟩ := M.bind_ok_iff.1 h1
    rw [M.pure_run] at h6
    unfold Rng.genUnit at h5
    rw [M.lift_run] at h5
    have h5' := Except.ok.inj h5
    have h6' := Prod.mk.inj (Except.ok.inj h6)
    have hu : a = (R.unit g).1 := by rw [← h6'.1, h5']; simp
    have hg : g1 = stepUnit R g := by rw [← h6'.2]; unfold stepUnit; rw [h5']
    obtain ⟨h7, h8⟩ := point_hits As E g1 as _ h3
    refine ⟨by rw [h7, hg]; rfl, fun hh => .cons ?_ (h8 ?_)⟩
    · rw [hu]; exact hh.1
    · rw [hg]; exact hh.2

theorem points_miss (As : List (Set ℝ)) : ∀ (k : Nat) (E : Set G) (g : G) (pts : List (List ℝ)) (g' : G),
    M.replicate k (M.forEach (pointCoord R) (List.replicate As.length (0, 1))) g = .ok (pts, g') → g' ∈ E →
    (∀ ch ∈ pts, ¬ List.Forall₂ (fun x A => x ∈ A) ch As) → g ∈ (MissOne R As)^[k] E
  | 0, E, g, pts, g', h, hE, _ => by
    unfold M.replicate at h
    rw [M.pure_run] at h
    cases h
    exact hE
  | k + 1, E, g, pts, g', h, hE, hno => by
    unfold M.replicate at h
    obtain ⟨ch, g1, h1, h2⟩ := M.bind_ok_iff.1 h
    obtain ⟨rest, g2, h3, h4⟩ := M.bind_ok_iff.1 h2
    rw [M.pure_run] at h4
    cases h4
    have ih := points_miss As k E g1 rest _ h3 hE fun c hc => hno c (by simp [hc])
    rw [Function.iterate_succ_apply']
    obtain ⟨h5, h6⟩ := point_hits As ((MissOne R As)^[k] E) g ch g1 h1
    exact ⟨by rw [Set.mem_preimage, ← h5]; exact ih, fun hh => hno ch (by simp) (h6 hh)⟩

end points

/-! ## Whole runs -/

section runs
variable {G I C K : Type} [LinearOrder K] {T : IndTrait I C K} {ops : Ops G I K} {p : GAParams} {P Q Hit : I → Prop} {n k c : Nat} {v : Fl K}

/-- What the operators do to the state of the generator. -/
structure NewBlood (T : IndTrait I C K) (ops : Ops G I K) (P Q Hit : I → Prop) (n k c : Nat) (v : Fl K) (sel cr tick : G → G)
    (Miss : Set G → Set G) : Prop where
  elapsed : Moves tick ops.elapsed
  eval : ∀ i, P i → Moves id (evalOne T ops i)
  sel : ∀ m pop, pop.length = n → (∀ i ∈ pop, Q i) → Moves sel (ops.select m pop)
  cross : ∀ m pool, pool.length = k → (∀ i ∈ pool, Q i) → Moves cr (ops.cross m pool)
  mutate : ∀ m i, P i → Moves id (ops.mutate m i)
  replace : ∀ m pop children, pop.length = n → children.length = c → (∀ i ∈ pop, Q i) → (∀ i ∈ children, P i) →
    ∀ (E : Set G) w out w', ops.replace m pop children w = .ok (out, w') → w' ∈ E → (∀ i ∈ out, ¬ Hit i) → w ∈ Miss E
  hit : ∀ i, P i → Hit i → IfReturns (evalOne T ops i) fun j => Fl.Le (T.fitness j) v

/-- The states from which all new points of the next generations miss. -/
def AllMiss (sel cr tick : G → G) (Miss : Set G → Set G) : Nat → Set G
  | 0 => Set.univ
  | j + 1 => (cr ∘ sel ∘ tick) ⁻¹' Miss (tick ⁻¹' AllMiss sel cr tick Miss j)

theorem allMiss_measure [MeasurableSpace G] {μ : Measure G} [IsProbabilityMeasure μ] {sel cr tick : G → G} {Miss : Set G → Set G} {δ : ℝ≥0∞}
    (hs : MeasurePreserving sel μ μ) (hc : MeasurePreserving cr μ μ) (ht : MeasurePreserving tick μ μ)
    (hm : ∀ E, MeasurableSet E → MeasurableSet (Miss E) ∧ μ (Miss E) ≤ δ * μ E) : ∀ j,
    MeasurableSet (AllMiss sel cr tick Miss j) ∧ μ (AllMiss sel cr tick Miss j) ≤ δ ^ j
  | 0 => ⟨MeasurableSet.univ, by simp [AllMiss]⟩
  | j + 1 => by
    have h1 := allMiss_measure hs hc ht hm j
    have h2 := ht.measurable h1.1
    have h3 := hm _ h2
    have h4 := hc.comp (hs.comp ht)
    refine ⟨h4.measurable h3.1, ?_⟩
    show μ ((cr ∘ sel ∘ tick) ⁻¹' _) ≤ _
    rw [h4.measure_preimage h3.1.nullMeasurableSet]
    refine h3.2.trans ?_
    rw [ht.measure_preimage h1.1.nullMeasurableSet, pow_succ']
    exact mul_le_mul_right h1.2 _

theorem loop_keeps : ∀ (j g : Nat) (s s' : St I) (w w' : G), loop T ops p j g s w = .ok (s', w') →
    Fl.Le (T.fitness s.best) v → Fl.Le (T.fitness s'.best) v
  | 0, g, s, s', w, w', h, hv => by
    unfold Ga.loop at h
    rw [M.pure_run] at h
    cases h; exact hv
  | j + 1, g, s, s', w, w', h, hv => by
    unfold Ga.loop at h
    obtain ⟨⟨s1, stop⟩, w1, h1, h2⟩ := M.bind_ok_iff.1 h
    obtain ⟨d, wa, m, pop, wb, pool, wc, crossed, wd, mutated, we, children, wf, replaced, wg, m', wh, b, d', wi, -, -, -, -,
      -, -, -, -, -, -, -, hb, hd, hbest, -, hstop, -⟩ := iteration_ok T ops p h1
    have h3 : Fl.Le (T.fitness s1.best) v := by
      rw [hbest]; split
      · next hlt => exact (Fl.Lt.le (Fl.lt_iff.1 hlt)).trans hv
      · exact hv
    simp only at h2
    split at h2
    · rw [M.pure_run] at h2
      cases h2; exact h3
    · exact loop_keeps j _ _ _ _ _ h2 h3

theorem loop_misses {sel cr tick : G → G} {Miss : Set G → Set G} (hs : Staged T ops P Q n k c)
    (hb : NewBlood T ops P Q Hit n k c v sel cr tick Miss) (hel : Returns ops.elapsed fun t => t < p.maxDuration) :
    ∀ (j g : Nat) (s s' : St I) (w w' : G), s.pop.length = n → (∀ i ∈ s.pop, Q i) → Q s.best →
      loop T ops p j g s w = .ok (s', w') → ¬ Fl.Le (T.fitness s'.best) v → w ∈ AllMiss sel cr tick Miss j
  | 0, _, _, _, _, _, _, _, _, _, _ => trivial
  | j + 1, g, s, s', w, w', hl, hq, hbq, h, hv => by
    unfold Ga.loop at h
    obtain ⟨⟨s1, stop⟩, w1, h1, h2⟩ := M.bind_ok_iff.1 h
    unfold Ga.iteration at h1
    simp only [M.bind_ok_iff, M.pure_ok_iff, M.assert_ok_iff, M.ofExcept_ok_iff] at h1
    obtain ⟨d, wa, e1, pop, wb, e2, pool, wc, e3, crossed, wd, e4, mutated, we, e5, children, wf, e6, replaced, wg, e7, _, w8, ⟨e0, e0'⟩,
      pop', wh, e8, b, w10, ⟨e9, e9'⟩, d', wi, e10, e11⟩ := h1
    generalize hm : ({ s.metrics with generation := g, totalDur := some d } : Metrics) = m at e3 e4 e5 e7 e11
    simp only [Prod.mk.injEq] at e11 e0'
    obtain ⟨⟨rfl, e12⟩, rfl⟩ := e11
    obtain ⟨-, rfl⟩ := e0'
    subst e9'
    have f2 := (hs.evalPop fun i hi => hs.weaken i (hq i hi)).ifReturns _ _ _ e2
    have hpl : pop.length = n := f2.1.trans hl
    have f3 := (hs.sel m pop hpl f2.2).ifReturns _ _ _ e3
    have f4 := (hs.cross m pool f3.1 f3.2).ifReturns _ _ _ e4
    have f5 : mutated.length = c ∧ ∀ i ∈ mutated, P i := by
      have := (Returns.forEach (R := fun _ y => P y) crossed fun i hi => hs.mutate m i (f4.2 i hi)).ifReturns _ _ _ e5
      exact ⟨this.length_eq.symm.trans f4.1, forall₂_right this fun _ _ h => h⟩
    have f6 : (children.length = c ∧ ∀ i ∈ children, P i) ∧ wf = we := by
      unfold Ga.evalChildren at e6
      split at e6
      · have h3 := (hs.evalPop f5.2).ifReturns _ _ _ e6
        exact ⟨⟨h3.1.trans f5.1, fun i hi => hs.weaken i (h3.2 i hi)⟩, Moves.forEach_id _ (fun i hi => hb.eval i (f5.2 i hi)) _ _ _ e6⟩
      · rw [M.pure_run] at e6
        cases e6; exact ⟨f5, rfl⟩
    have f7 := (hs.replace m pop children hpl f6.1.1 f2.2 f6.1.2).ifReturns _ _ _ e7
    have f8 := (hs.evalPop f7.2).ifReturns _ _ _ e8
    have hl1 : pop'.length = n := f8.1.trans f7.1
    have hstop : stop = false := by
      have := hel.ifReturns _ _ _ e10
      rw [e12]; simpa using this
    have hbb : Q b := f8.2 b (findBest_mem T e9)
    have hb1 : Q (if Fl.lt (T.fitness b) (T.fitness s.best) then b else s.best) := by split <;> assumption
    subst hstop
    simp only [Bool.false_eq_true, if_false] at h2
    have g1 := hb.elapsed _ _ _ e1
    have g2 := Moves.forEach_id _ (fun i hi => hb.eval i (hs.weaken i (hq i hi))) _ _ _ e2
    have g3 := hb.sel m pop hpl f2.2 _ _ _ e3
    have g4 := hb.cross m pool f3.1 f3.2 _ _ _ e4
    have g5 := Moves.forEach_id _ (fun i hi => hb.mutate m i (f4.2 i hi)) _ _ _ e5
    have g8 := Moves.forEach_id _ (fun i hi => hb.eval i (f7.2 i hi)) _ _ _ e8
    have g10 := hb.elapsed _ _ _ e10
    have ih := loop_misses hs hb hel j (g + 1) _ s' _ w' hl1 f8.2 hb1 h2 hv
    have hno : ∀ i ∈ replaced, ¬ Hit i := by
      intro i hi hhit
      refine hv (loop_keeps j _ _ _ _ _ h2 ?_)
      have h8 := (IfReturns.forEach (f := evalOne T ops) (R := fun x y => Hit x → Fl.Le (T.fitness y) v) replaced fun x hx => ?_) _ _ _ e8
      · obtain ⟨r, hr, rfl⟩ := List.getElem_of_mem hi
        have hlen := h8.length_eq
        have hz : Fl.Le (T.fitness (pop'[r]'(by omega))) v := (List.forall₂_iff_get.1 h8).2 r hr (by omega) hhit
        have hzm : pop'[r]'(by omega) ∈ pop' := List.getElem_mem _
        have hbv : Fl.Le (T.fitness b) v := ((Fl.not_lt (hs.num _ (f8.2 _ hzm)) (hs.num _ hbb)).1 (findBest_not_lt T e9 _ hzm)).trans hz
        show Fl.Le (T.fitness (if _ then b else s.best)) v
        split
        · exact hbv
        · next hnl => exact ((Fl.not_lt (hs.num _ hbb) (hs.num _ hbq)).1 (by simpa [Fl.lt_iff] using hnl)).trans hbv
      · by_cases hh : Hit x
        · exact (hb.hit x (f7.2 x hx) hh).mono fun y hy _ => hy
        · exact IfReturns.trivial.mono fun y _ h => absurd h hh
    have hmiss := hb.replace m pop children hpl f6.1.1 f2.2 f6.1.2 (tick ⁻¹' AllMiss sel cr tick Miss j) _ _ _ e7
      (by rw [Set.mem_preimage, ← show w10 = w8 from g8, ← g10]; exact ih) hno
    show cr (sel (tick w)) ∈ Miss _
    rw [← g1, ← show wb = wa from g2, ← g3, ← g4, ← show we = wd from g5, ← f6.2]
    exact hmiss

/-- The chance that the run returns an individual worse than `v`. -/
theorem run_misses [MeasurableSpace G] {μ : Measure G} [IsProbabilityMeasure μ] {sel cr tick : G → G} {Miss : Set G → Set G} {δ : ℝ≥0∞}
    (hs : Staged T ops P Q n k c) (hb : NewBlood T ops P Q Hit n k c v sel cr tick Miss)
    (hel : Returns ops.elapsed fun t => t < p.maxDuration) (hn : 0 < n) (hp : p.populationSize = n)
    (m1 : MeasurePreserving sel μ μ) (m2 : MeasurePreserving cr μ μ) (m3 : MeasurePreserving tick μ μ)
    (hm : ∀ E, MeasurableSet E → MeasurableSet (Miss E) ∧ μ (Miss E) ≤ δ * μ E) {gen : G → G} (m4 : MeasurePreserving gen μ μ)
    (hgen : Moves gen (ops.generate n)) (m0 : Metrics) :
    chance μ (run T ops p m0) (fun r => ¬ Fl.Le (T.fitness r.1) v) ≤ δ ^ p.generationLimit := by
  have h1 := allMiss_measure m1 m2 m3 hm p.generationLimit
  have h2 := m3.comp m4
  refine le_trans (measure_mono ?_) ((h2.measure_preimage h1.1.nullMeasurableSet).trans_le h1.2)
  rintro w ⟨r, w', h, hv⟩
  unfold Ga.run at h
  obtain ⟨s, wa, h3, h4⟩ := M.bind_ok_iff.1 h
  obtain ⟨s', wb, h5, h6⟩ := M.bind_ok_iff.1 h4
  obtain ⟨d, wc, h7, h8⟩ := M.bind_ok_iff.1 h6
  rw [M.pure_run] at h8
  cases h8
  unfold Ga.prologue at h3
  rw [hp] at h3
  simp only [M.bind_ok_iff, M.pure_ok_iff, M.ofExcept_ok_iff] at h3
  obtain ⟨pop0, w1, i1, pop, w2, i2, b, w3, ⟨i3, i3'⟩, d', w4, i4, i5⟩ := h3
  simp only [Prod.mk.injEq] at i5
  obtain ⟨rfl, rfl⟩ := i5
  subst i3'
  have f1 := hs.gen.ifReturns _ _ _ i1
  have f2 := (hs.evalPop f1.2).ifReturns _ _ _ i2
  have := loop_misses hs hb hel _ _ _ _ _ _ (f2.1.trans f1.1) f2.2 (f2.2 b (findBest_mem T i3)) h5 hv
  show tick (gen w) ∈ AllMiss sel cr tick Miss p.generationLimit
  rw [← hgen _ _ _ i1, ← show w3 = w1 from Moves.forEach_id _ (fun i hi => hb.eval i (f1.2 i hi)) _ _ _ i2, ← hb.elapsed _ _ _ i4]
  exact this

end runs
end Ecrs.Ga
