import Verif.ProbRun
import Verif.Ga.Closed

/-!
# The probability that a run of the genetic solver fails to reach a given fitness

Everything before a mutation may do what it likes; what counts is the probability with which one mutation produces a
chromosome that is good enough.
-/

set_option linter.unusedSectionVars false

namespace Ecrs
open MeasureTheory
open scoped ENNReal

section
variable {G α β : Type} [MeasurableSpace G] {μ : Measure G}

/-- An upper bound: `Q` can only happen through `P`, and from there with probability at most `ε`. -/
theorem HasLaw.chance_bind_le [IsProbabilityMeasure μ] {m : M G α} (h : HasLaw μ m) {f : α → M G β}
    {A P : α → Prop} (hA : IfReturns m A) (hf : ∀ a, A a → HasLaw μ (f a)) {Q : β → Prop} {ε : ℝ≥0∞}
    (hε : ∀ a, A a → P a → chance μ (f a) Q ≤ ε) (h0 : ∀ a, A a → ¬ P a → chance μ (f a) Q = 0) :
    chance μ (m >>= f) Q ≤ chance μ m P * ε := by
  classical
  obtain ⟨p, hp⟩ := h
  rw [hp.chance_bind_reach (fun a ⟨g, g', e⟩ => hf a (hA g a g' e)), hp.chance, ← ENNReal.tsum_mul_right]
  refine ENNReal.tsum_le_tsum fun a => ?_
  by_cases hr : ∃ g g', m g = .ok (a, g')
  · obtain ⟨g, g', e⟩ := hr
    have ha := hA g a g' e
    split
    · next hPa => exact mul_le_mul_right (hε a ha hPa) _
    · next hPa => rw [h0 a ha hPa]; simp
  · have h0 : hits m a Set.univ = ∅ := by
      by_contra hne
      obtain ⟨g, g', h1, _⟩ := Set.nonempty_iff_ne_empty.2 hne
      exact hr ⟨g, g', h1⟩
    have := hp.prob a Set.univ .univ
    rw [h0, measure_empty, measure_univ, mul_one] at this
    rw [← this]
    simp

/-- An upper bound that holds whatever the first step does. -/
theorem HasLaw.chance_bind_le_sup [IsProbabilityMeasure μ] {m : M G α} (h : HasLaw μ m) {f : α → M G β}
    {A : α → Prop} (hA : IfReturns m A) (hf : ∀ a, A a → HasLaw μ (f a)) {Q : β → Prop} {ε : ℝ≥0∞}
    (hε : ∀ a, A a → chance μ (f a) Q ≤ ε) : chance μ (m >>= f) Q ≤ ε := by
  refine (h.chance_bind_le (P := fun _ => True) hA hf (fun a ha _ => hε a ha) fun _ _ h => absurd trivial h).trans ?_
  exact (mul_le_mul_left chance_le_one _).trans (one_mul ε).le

/-- `Q` can only happen through `P`. -/
theorem chance_bind_le_of_returns {m : M G α} {f : α → M G β} {A P : α → Prop} {Q : β → Prop} (hA : IfReturns m A)
    (hf : ∀ a, A a → ¬ P a → IfReturns (f a) fun b => ¬ Q b) : chance μ (m >>= f) Q ≤ chance μ m P := by
  refine measure_mono ?_
  rintro g ⟨b, g', h1, h2⟩
  obtain ⟨a, g1, h3, h4⟩ := M.bind_ok_iff.1 h1
  refine ⟨a, g1, h3, ?_⟩
  by_contra hP
  exact hf a (hA _ _ _ h3) hP _ _ _ h4 h2

/-- What cannot happen has probability zero. -/
theorem chance_zero {m : M G α} {Q : α → Prop} (h : IfReturns m fun a => ¬ Q a) : chance μ m Q = 0 := by
  unfold chance
  have : {g | ∃ a g', m g = .ok (a, g') ∧ Q a} = ∅ := by
    ext g
    simp only [Set.mem_ofPred_eq, Set.mem_empty_iff_false, iff_false]
    rintro ⟨a, g', h1, h2⟩
    exact h _ _ _ h1 h2
  rw [this, measure_empty]

/-- If every element is missed with probability at most `δ`, all are with probability at most `δ ^ length`. -/
theorem chance_forEach_none [IsProbabilityMeasure μ] {f : α → M G β} (hl : ∀ a, HasLaw μ (f a)) {A : α → Prop}
    {Q : β → Prop} {δ : ℝ≥0∞} (hδ : ∀ a, A a → chance μ (f a) (fun b => ¬ Q b) ≤ δ) : ∀ xs : List α, (∀ x ∈ xs, A x) →
    chance μ (M.forEach f xs) (fun ys => ∀ y ∈ ys, ¬ Q y) ≤ δ ^ xs.length
  | [], _ => by simpa using chance_le_one
  | x :: xs, hx => by
    have ih := chance_forEach_none hl hδ xs fun y hy => hx y (by simp [hy])
    have : chance μ (M.forEach f (x :: xs)) (fun ys => ∀ y ∈ ys, ¬ Q y) ≤
        chance μ (f x) (fun b => ¬ Q b) * δ ^ xs.length := by
      unfold M.forEach
      refine (hl x).chance_bind_le (A := fun _ => True) IfReturns.trivial
        (fun y _ => (HasLaw.forEach hl xs).bind fun ys => .pure _) (fun y _ hy => ?_) (fun y _ hy => ?_)
      · refine (chance_bind_le_of_returns (A := fun _ => True) IfReturns.trivial ?_).trans ih
        intro ys _ hys w r w' e
        rw [M.pure_run] at e
        cases e
        intro hall
        exact hys fun z hz => hall z (by simp [hz])
      · refine chance_zero (IfReturns.bind (P := fun _ => True) IfReturns.trivial fun ys _ => ?_)
        exact IfReturns.pure fun hall => hy (hall y (by simp))
    refine this.trans ?_
    rw [List.length_cons, pow_succ']
    exact mul_le_mul_left (hδ x (hx x (by simp))) _

end
end Ecrs

namespace Ecrs.Ga
open Ecrs MeasureTheory
open scoped ENNReal

section
variable {W I C K : Type} [LinearOrder K] [MeasurableSpace W] {μ : Measure W} {T : IndTrait I C K} {ops : Ops W I K}
  {P : I → Prop} {p : GAParams} {n : Nat}

/-- Every operator has a law: what it returns is random, independently of the randomness left for the rest. -/
structure LawOps (μ : Measure W) (ops : Ops W I K) : Prop where
  gen : ∀ k, HasLaw μ (ops.generate k)
  fit : ∀ i, HasLaw μ (ops.fitnessFn i)
  sel : ∀ m pop, HasLaw μ (ops.select m pop)
  cross : ∀ m pool, HasLaw μ (ops.cross m pool)
  mutate : ∀ m i, HasLaw μ (ops.mutate m i)
  replace : ∀ m pop children, HasLaw μ (ops.replace m pop children)
  elapsed : HasLaw μ ops.elapsed

namespace LawOps

theorem evalPop [IsProbabilityMeasure μ] (h : LawOps μ ops) (pop : List I) : HasLaw μ (evalPop T ops pop) := by
  refine HasLaw.forEach (fun i => ?_) pop
  unfold Ga.evalOne
  exact .ite ((h.fit i).bind fun r => .pure _) (.pure _)

theorem evalChildren [IsProbabilityMeasure μ] (h : LawOps μ ops) (pop : List I) : HasLaw μ (evalChildren T ops pop) := by
  unfold Ga.evalChildren; exact .ite (h.evalPop pop) (.pure _)

theorem iteration [IsProbabilityMeasure μ] (h : LawOps μ ops) (g : Nat) (s : St I) : HasLaw μ (iteration T ops p g s) := by
  unfold Ga.iteration
  refine h.elapsed.bind fun d => (h.evalPop _).bind fun pop => (h.sel _ _).bind fun pool => (h.cross _ _).bind fun cr =>
    (HasLaw.forEach (h.mutate _) _).bind fun mu => (h.evalChildren _).bind fun ch => (h.replace _ _ _).bind fun re =>
    (HasLaw.assert _ _).bind fun _ => (h.evalPop _).bind fun pop' => (HasLaw.ofExcept _).bind fun b =>
    h.elapsed.bind fun d' => .pure _

theorem loop [IsProbabilityMeasure μ] (h : LawOps μ ops) : ∀ (k g : Nat) (s : St I), HasLaw μ (loop T ops p k g s)
  | 0, _, s => .pure s
  | k + 1, g, s => by
    unfold Ga.loop
    refine (h.iteration g s).bind fun r => ?_
    obtain ⟨s', stop⟩ := r
    exact .ite (.pure _) (h.loop k (g + 1) s')

theorem run [IsProbabilityMeasure μ] (h : LawOps μ ops) (m0 : Metrics) : HasLaw μ (run T ops p m0) := by
  unfold Ga.run Ga.prologue
  refine HasLaw.bind ?_ fun s => (h.loop _ _ _).bind fun s' => h.elapsed.bind fun d => .pure _
  exact (h.gen _).bind fun pop0 => (h.evalPop _).bind fun pop => (HasLaw.ofExcept _).bind fun b =>
    h.elapsed.bind fun d => .pure _

end LawOps

/-- The state of a run between two generations: a complete evaluated population and a best individual with a number as
fitness. -/
def Sound (T : IndTrait I C K) (P : I → Prop) (n : Nat) (s : St I) : Prop :=
  Good T P n s.pop ∧ (T.fitness s.best).IsNum

theorem findBest_isNum {pop : List I} {b : I} (hg : Good T P n pop) (h : findBest T pop = .ok b) : (T.fitness b).IsNum :=
  hg.2.2 b (findBest_mem T h)

variable {Hit : I → Prop} {v : Fl K} {ε : ℝ≥0∞}

/-- A generation keeps the state sound, does not forget a best individual that is good enough, and lets one that is in
the new population through. -/
theorem TotalOps.sound (ht : TotalOps T ops P n) (hn : 0 < n) (hp : p.populationSize = n)
    (hel : Returns ops.elapsed fun t => t < p.maxDuration) {g : Nat} {s : St I} (hs : Sound T P n s) :
    IfReturns (Ga.iteration T ops p g s) fun r => Sound T P n r.1 ∧ r.2 = false ∧
      (Fl.Le (T.fitness s.best) v → Fl.Le (T.fitness r.1.best) v) := by
  intro w r w' h
  obtain ⟨s', stop⟩ := r
  have hg := (ht.iteration p hn hp (g := g) hs.1).ifReturns _ _ _ h
  obtain ⟨d, wa, m, pop, wb, pool, wc, crossed, wd, mutated, we, children, wf, replaced, wg, m', wh, b, d', wi, -, -, -, -,
    -, -, -, -, -, -, -, hb, hd, hbest, -, hstop, -⟩ := iteration_ok T ops p h
  have hbn := findBest_isNum hg hb
  refine ⟨⟨hg, ?_⟩, ?_, ?_⟩
  · show (T.fitness s'.best).IsNum
    rw [hbest]; split
    · exact hbn
    · exact hs.2
  · show stop = false
    have := hel.ifReturns _ _ _ hd
    rw [hstop]; simpa using this
  · intro hle
    show Fl.Le (T.fitness s'.best) v
    rw [hbest]; split
    · next hlt => exact (Fl.Lt.le (Fl.lt_iff.1 hlt)).trans hle
    · exact hle

/-- If one mutation produces a good individual with probability at least `ε` (that is, misses with probability at most
`δ`), a whole generation misses with probability at most `δ ^ n`. -/
theorem generation_failure_le [IsProbabilityMeasure μ] (hl : LawOps μ ops) (ht : TotalOps T ops P n)
    (hre : ∀ m pop children, ops.replace m pop children = pure children)
    (hreq : ops.requiresChildrenFitness = false) (hfit : ∀ i, P i → Hit i → Returns (ops.fitnessFn i) fun r => Fl.Le r.2 v)
    {δ : ℝ≥0∞} (hδ : ∀ m i, P i → chance μ (ops.mutate m i) (fun j => ¬ Hit j) ≤ δ)
    {g : Nat} {s : St I} (hs : Sound T P n s) :
    chance μ (iteration T ops p g s) (fun r => ¬ Fl.Le (T.fitness r.1.best) v) ≤ δ ^ n := by
  have hrest : ∀ (m : Metrics) (pop mutated : List I), HasLaw μ (do
      let children ← evalChildren T ops mutated
      let replaced ← ops.replace m pop children
      let m' : Metrics := { m with populationSize := replaced.length }
      M.assert (replaced.length == p.populationSize)
      let pop' ← Ga.evalPop T ops replaced
      let b ← M.ofExcept (findBest T pop')
      let improved := Fl.lt (T.fitness b) (T.fitness s.best)
      let best' := if improved then b else s.best
      let d' ← ops.elapsed
      let trace := s.trace ++ [.onIterationStart m, .selectCall pop, .replaceCall pop children,
          .onNewGeneration m' pop', .onBestFit m' b] ++
          (if improved then [.onNewBest m' b] else []) ++ [.onIterationEnd m', .clockCheck d']
      pure (({ pop := pop', best := best', metrics := m', trace := trace } : St I), decide (p.maxDuration ≤ d'))) := by
    intro m pop mu
    exact (hl.evalChildren _).bind fun ch => (hl.replace _ _ _).bind fun re =>
      (HasLaw.assert _ _).bind fun _ => (hl.evalPop _).bind fun pop' => (HasLaw.ofExcept _).bind fun b =>
      hl.elapsed.bind fun d' => .pure _
  unfold Ga.iteration
  refine hl.elapsed.chance_bind_le_sup (A := fun _ => True) IfReturns.trivial (fun d _ => ?_) fun d _ => ?_
  · exact (hl.evalPop _).bind fun pop => (hl.sel _ _).bind fun pool => (hl.cross _ _).bind fun cr =>
      (HasLaw.forEach (hl.mutate _) _).bind fun mu => hrest _ _ _
  refine (hl.evalPop _).chance_bind_le_sup (ht.evalPop hs.1.1 hs.1.2.1).ifReturns (fun pop _ => ?_) fun pop h1 => ?_
  · exact (hl.sel _ _).bind fun pool => (hl.cross _ _).bind fun cr =>
      (HasLaw.forEach (hl.mutate _) _).bind fun mu => hrest _ _ _
  refine (hl.sel _ _).chance_bind_le_sup (ht.sel _ pop h1.1 h1.2.1 h1.2.2).ifReturns (fun pool _ => ?_) fun pool h2 => ?_
  · exact (hl.cross _ _).bind fun cr => (HasLaw.forEach (hl.mutate _) _).bind fun mu => hrest _ _ _
  refine (hl.cross _ _).chance_bind_le_sup (ht.cross _ pool h2.1 h2.2).ifReturns (fun cr _ => ?_) fun cr h3 => ?_
  · exact (HasLaw.forEach (hl.mutate _) _).bind fun mu => hrest _ _ _
  refine (chance_bind_le_of_returns (A := fun out => out.length = n ∧ ∀ i ∈ out, P i)
    (P := fun ys => ∀ y ∈ ys, ¬ Hit y) ?_ ?_).trans ?_
  · exact ((Returns.forEach (R := fun _ y => P y) cr fun i hi => ht.mutate _ i (h3.2 i hi)).mono
      fun out h => ⟨by rw [← h.length_eq, h3.1], forall₂_right h fun _ _ h => h⟩).ifReturns
  · intro mutated h4 hhit
    simp only [not_forall, not_not] at hhit
    obtain ⟨y, hy, hY⟩ := hhit
    unfold Ga.evalChildren
    rw [hreq, if_neg (by simp), pure_bind, hre, pure_bind]
    refine IfReturns.bind (P := fun _ => True) IfReturns.trivial fun _ _ => ?_
    refine IfReturns.bind (P := fun out => Good T P n out ∧ ∃ z ∈ out, Fl.Le (T.fitness z) v) ?_ fun pop' h7 => ?_
    · intro w out w' e
      refine ⟨(ht.evalPop h4.1 h4.2).ifReturns _ _ _ e, ?_⟩
      have h8 := (Returns.forEach (f := evalOne T ops) (R := fun x z => Hit x → Fl.Le (T.fitness z) v) mutated
        fun i hi => ?_).ifReturns _ _ _ e
      · obtain ⟨k, hk, rfl⟩ := List.getElem_of_mem hy
        have hlen := h8.length_eq
        exact ⟨out[k]'(by omega), List.getElem_mem _, (List.forall₂_iff_get.1 h8).2 k hk (by omega) hY⟩
      · unfold evalOne
        rw [if_pos (ht.eval i)]
        by_cases hh : Hit i
        · exact Returns.bind (hfit i (h4.2 i hi) hh) fun r hr => Returns.pure fun _ => by rw [T.fitness_set]; exact hr
        · exact Returns.bind (ht.fit i (h4.2 i hi)) fun r hr => Returns.pure fun h => absurd h hh
    obtain ⟨hgood, z, hz, hzv⟩ := h7
    intro w r w' e
    simp only [M.bind_ok_iff, M.ofExcept_ok_iff] at e
    obtain ⟨b, _, ⟨hb, -⟩, d', _, -, e⟩ := e
    rw [M.pure_run] at e
    cases e
    rw [not_not]
    have hbn := findBest_isNum hgood hb
    have hbv : Fl.Le (T.fitness b) v := ((Fl.not_lt (hgood.2.2 z hz) hbn).1 (findBest_not_lt T hb z hz)).trans hzv
    show Fl.Le (T.fitness (if _ then b else s.best)) v
    split
    · exact hbv
    · next hnl =>
      exact ((Fl.not_lt hbn hs.2).1 (by simpa [Fl.lt_iff] using hnl)).trans hbv
  · rw [← h3.1]
    exact chance_forEach_none (hl.mutate _) (hδ _) cr h3.2

theorem loop_failure_le [IsProbabilityMeasure μ] (hl : LawOps μ ops) (ht : TotalOps T ops P n) (hn : 0 < n)
    (hp : p.populationSize = n) (hel : Returns ops.elapsed fun t => t < p.maxDuration)
    (hre : ∀ m pop children, ops.replace m pop children = pure children)
    (hreq : ops.requiresChildrenFitness = false) (hfit : ∀ i, P i → Hit i → Returns (ops.fitnessFn i) fun r => Fl.Le r.2 v)
    {δ : ℝ≥0∞} (hδ : ∀ m i, P i → chance μ (ops.mutate m i) (fun j => ¬ Hit j) ≤ δ) :
    ∀ (k g : Nat) (s : St I), Sound T P n s →
      chance μ (loop T ops p k g s) (fun r => ¬ Fl.Le (T.fitness r.best) v) ≤ δ ^ (n * k)
  | 0, g, s, hs => by simpa using chance_le_one
  | k + 1, g, s, hs => by
    have hkeep : ∀ (k g : Nat) (s : St I), Sound T P n s → Fl.Le (T.fitness s.best) v →
        IfReturns (loop T ops p k g s) fun r => ¬ ¬ Fl.Le (T.fitness r.best) v := by
      intro k
      induction k with
      | zero => intro g s _ h; exact IfReturns.pure (by rw [not_not]; exact h)
      | succ k ih =>
        intro g s hs h
        unfold Ga.loop
        refine IfReturns.bind (ht.sound (v := v) hn hp hel hs) fun r hr => ?_
        obtain ⟨s', stop⟩ := r
        obtain ⟨h1, h2, h3⟩ := hr
        simp only at h2
        subst h2
        exact ih _ _ h1 (h3 h)
    unfold Ga.loop
    have hb := (hl.iteration (T := T) (p := p) g s).chance_bind_le (ht.sound (v := v) (g := g) hn hp hel hs)
      (P := fun r => ¬ Fl.Le (T.fitness r.1.best) v) (Q := fun r : St I => ¬ Fl.Le (T.fitness r.best) v)
      (f := fun r => if r.2 then pure r.1 else loop T ops p k (g + 1) r.1) (ε := δ ^ (n * k))
      (fun r _ => .ite (.pure _) (hl.loop _ _ _)) ?_ ?_
    · refine hb.trans ?_
      rw [Nat.mul_succ, Nat.add_comm, pow_add]
      exact mul_le_mul_left (generation_failure_le hl ht hre hreq hfit hδ hs) _
    · rintro ⟨s', stop⟩ ⟨h1, h2, -⟩ _
      simp only at h2
      subst h2
      exact loop_failure_le hl ht hn hp hel hre hreq hfit hδ k (g + 1) s' h1
    · rintro ⟨s', stop⟩ ⟨h1, h2, -⟩ h3
      simp only at h2
      subst h2
      exact chance_zero (hkeep k (g + 1) s' h1 (not_not.1 h3))

/-- A run of `generationLimit` generations misses with probability at most `(1 - ε) ^ (n · generationLimit)`. -/
theorem run_failure_le [IsProbabilityMeasure μ] (hl : LawOps μ ops) (ht : TotalOps T ops P n) (hn : 0 < n)
    (hp : p.populationSize = n) (hel : Returns ops.elapsed fun t => t < p.maxDuration)
    (hre : ∀ m pop children, ops.replace m pop children = pure children)
    (hreq : ops.requiresChildrenFitness = false) (hfit : ∀ i, P i → Hit i → Returns (ops.fitnessFn i) fun r => Fl.Le r.2 v)
    (hε : ∀ m i, P i → ε ≤ chance μ (ops.mutate m i) Hit) (m0 : Metrics) :
    chance μ (run T ops p m0) (fun r => ¬ Fl.Le (T.fitness r.1) v) ≤ (1 - ε) ^ (n * p.generationLimit) := by
  have hδ : ∀ m i, P i → chance μ (ops.mutate m i) (fun j => ¬ Hit j) ≤ 1 - ε := by
    intro m i hi
    have := (hl.mutate m i).chance_not ((ht.mutate m i hi).mono fun _ _ => trivial) Hit
    have hne : chance μ (ops.mutate m i) Hit ≠ ∞ := (chance_le_one.trans_lt ENNReal.one_lt_top).ne
    have e : chance μ (ops.mutate m i) (fun j => ¬ Hit j) = 1 - chance μ (ops.mutate m i) Hit :=
      ENNReal.eq_sub_of_add_eq hne (by rw [add_comm]; exact this)
    rw [e]
    exact tsub_le_tsub_left (hε m i hi) 1
  unfold Ga.run
  have hpro : HasLaw μ (prologue T ops p m0) := by
    unfold Ga.prologue
    exact (hl.gen _).bind fun pop0 => (hl.evalPop _).bind fun pop => (HasLaw.ofExcept _).bind fun b =>
      hl.elapsed.bind fun d => .pure _
  have hsound : IfReturns (prologue T ops p m0) (Sound T P n) := by
    unfold Ga.prologue
    rw [hp]
    refine IfReturns.bind ht.gen.ifReturns fun pop0 h0 => ?_
    refine IfReturns.bind (ht.evalPop h0.1 h0.2).ifReturns fun pop h1 => ?_
    intro w r w' e
    simp only [M.bind_ok_iff, M.ofExcept_ok_iff] at e
    obtain ⟨b, _, ⟨hb, -⟩, d', _, -, e⟩ := e
    rw [M.pure_run] at e
    cases e
    exact ⟨h1, findBest_isNum h1 hb⟩
  refine hpro.chance_bind_le_sup hsound (fun s _ => (hl.loop _ _ _).bind fun s' => hl.elapsed.bind fun d => .pure _)
    fun s hs => ?_
  refine (chance_bind_le_of_returns (A := fun _ => True) (P := fun s' : St I => ¬ Fl.Le (T.fitness s'.best) v)
    IfReturns.trivial ?_).trans (loop_failure_le hl ht hn hp hel hre hreq hfit hδ _ _ _ hs)
  intro s' _ h w r w' e
  simp only [M.bind_ok_iff] at e
  obtain ⟨d', _, -, e⟩ := e
  rw [M.pure_run] at e
  cases e
  exact h

end
end Ecrs.Ga
