import Verif.Ga.NewBlood
import Verif.Props.JsspRun
import Verif.Props.JsspLogs
import Verif.Jssp.SameView
import Verif.ProbTape
import Verif.Props.JsspUnreachable

/-!
# Property **C173**: the job shop searches find the best schedule that chromosomes can describe

The job shop example searches by random keys: a chromosome is a list of numbers of the unit interval, the priorities and the delays of
the operations.  A value is *describable* if evaluating some chromosome gives it.  Every generation of the solver (with a positive
sample rate) and of the random search draws new chromosomes.  An ideal generator hits no chromosome exactly; but around every chromosome
lies a whole box of chromosomes to which the decoder gives the same schedule: even where two priorities are equal, or a delay lands
exactly on the finishing time of an operation.

* With more and more generations the probability that the solver returns a chromosome of the least describable value tends to one;
  so for the random search; and the probability of missing shrinks geometrically (`C173_solver_rate`, `C173_solver_converges`,
  `C173_random_search_rate`, `C173_random_search_converges`).
* This is the best that one can hope for, and not always the optimum of the instance: on the instances of C150 every run misses it
  (`C173_not_the_optimum`).

The hypotheses: the instance is well-formed (C100), the generator is ideal, the clock is independent of the generator and the time limit
does not strike.
-/

set_option linter.unusedSectionVars false
set_option linter.unusedVariables false

namespace Ecrs.Jssp
open Ecrs MeasureTheory
open Ecrs.Ga (Moves MissOne boxVol stepUnit)
open scoped ENNReal

section runs
variable {G : Type} [MeasurableSpace G] {μ : Measure G} {R : Rng G ℝ} {E : EvalOps ℝ} {jobs : Jobs} {nM worst : Nat} {ops : List Operation}

/-- Not evaluated yet, and the chromosome in the box. -/
def InBox (As : List (Set ℝ)) (i : Indiv ℝ) : Prop := i.ind.isFitnessValid = false ∧ List.Forall₂ (fun x A => x ∈ A) i.ind.chromosome As

theorem generate_miss {As : List (Set ℝ)} (hAs : As.length = 2 * (ops.length - 2)) {count : Nat} {S : Set G} {w w' : G} {out : List (Indiv ℝ)}
    (h : generate R ops nM worst count w = .ok (out, w')) (hw : w' ∈ S) (hno : ∀ i ∈ out, ¬ InBox As i) : w ∈ (MissOne R As)^[count] S := by
  unfold generate at h
  obtain ⟨pts, w1, h1, h2⟩ := M.bind_ok_iff.1 h
  rw [M.pure_run] at h2
  cases h2
  unfold Ga.generateWithSingleConstraint Ga.generateWithConstraints at h1
  obtain ⟨_, w2, h3, h4⟩ := M.bind_ok_iff.1 h1
  have h3' := (Prod.mk.inj (M.assert_ok_iff.1 h3).2).2
  subst h3'
  rw [← hAs] at h4
  refine Ga.points_miss As count S _ pts _ h4 hw fun ch hch hh => ?_
  exact hno _ (List.mem_map.2 ⟨ch, hch, rfl⟩) ⟨rfl, hh⟩

theorem generate_moves (count : Nat) : ∃ j, Moves (stepUnit R)^[j] (generate R ops nM worst count) := by
  refine ⟨2 * (ops.length - 2) * count, ?_⟩
  have h1 : Moves (stepUnit R)^[2 * (ops.length - 2)] (M.forEach (Ga.pointCoord R) (List.replicate (2 * (ops.length - 2)) (0, 1))) := by
    intro g a g' h
    have := (Ga.point_hits (R := R) (List.replicate (2 * (ops.length - 2)) Set.univ) Set.univ g a g' (by rw [List.length_replicate]; exact h)).1
    rw [List.length_replicate] at this
    exact this
  have h2 := h1.replicate count
  rw [← Function.iterate_mul] at h2
  intro g a g' h
  unfold generate at h
  obtain ⟨pts, w1, h1, h3⟩ := M.bind_ok_iff.1 h
  rw [M.pure_run] at h3
  cases h3
  unfold Ga.generateWithSingleConstraint Ga.generateWithConstraints at h1
  obtain ⟨_, w2, h3, h4⟩ := M.bind_ok_iff.1 h1
  have h3' := (Prod.mk.inj (M.assert_ok_iff.1 h3).2).2
  subst h3'
  exact h2 _ _ _ h4

theorem eval_moves {O : Ga.Ops G (Indiv ℝ) Nat} (hO : O.fitnessFn = fitnessFn E) (i : Indiv ℝ) : Moves id (Ga.evalOne (Indiv.trait ℝ) O i) := by
  intro g a g' h
  unfold Ga.evalOne at h
  rw [hO] at h
  split at h
  · obtain ⟨r, w1, h1, h2⟩ := M.bind_ok_iff.1 h
    have h2' := (Prod.mk.inj (M.pure_ok_iff.1 h2)).2
    rw [h2']
    unfold fitnessFn at h1
    split at h1
    · exact ((Prod.mk.inj (Except.ok.inj h1)).2).symm
    · cases h1
  · exact ((Prod.mk.inj (M.pure_ok_iff.1 h)).2)

theorem eval_hit (h : jobs.Proper nM) (hA : jobs.Alternates) (hD : jobs.Positive) (ho : load (jobs.file nM) = .ok (ops, nM))
    (hE : ∀ ch : List ℝ, UnitGenes ch → E.Sane ch) {As : List (Set ℝ)} {v : Nat}
    (hgood : ∀ ch : List ℝ, UnitGenes ch → List.Forall₂ (fun x A => x ∈ A) ch As →
      ∀ i' r, Evaluates E (freshIndividual ops nM worst ch) i' r → r ≤ v)
    {O : Ga.Ops G (Indiv ℝ) Nat} (hO : O.fitnessFn = fitnessFn E) {i : Indiv ℝ} (hi : Known E jobs ops nM worst i) (hh : InBox As i) :
    IfReturns (Ga.evalOne (Indiv.trait ℝ) O i) fun j => Fl.Le ((Indiv.trait ℝ).fitness j) (.num v) := by
  intro w j w' e
  unfold Ga.evalOne at e
  rw [if_pos (by simp [Indiv.trait, hh.1]), hO] at e
  obtain ⟨r, w1, h1, h2⟩ := M.bind_ok_iff.1 e
  have h2' := (Prod.mk.inj (M.pure_ok_iff.1 h2)).1
  subst h2'
  rw [(Indiv.trait ℝ).fitness_set]
  unfold fitnessFn at h1
  split at h1
  · next hex =>
    have h3 := (Prod.mk.inj (Except.ok.inj h1)).1
    subst h3
    have hf : Arises E ops nM worst jobs.total (freshIndividual ops nM worst i.ind.chromosome) := .fresh _ hi.len (hE _ hi.genes)
    obtain ⟨k', t, -, -, hk, -⟩ := C66_evaluated_feasible h hA hD ho hf
    have h4 := (C96_history_independent h hA hD ho hi.arises hf rfl hex.choose_spec hk).1
    show hex.choose.2 ≤ v
    rw [h4]
    exact hgood _ hi.genes hh.2 _ _ hk
  · cases h1

theorem crossSingle_moves (keep : ℝ) {len : Nat} {a b : Indiv ℝ} (ha : a.ind.chromosome.length = len) :
    Moves (stepUnit R)^[len] (crossSingle R keep a b) := by
  intro g r g' h
  unfold crossSingle at h
  rw [ha] at h
  obtain ⟨vals, w1, h1, h2⟩ := M.bind_ok_iff.1 h
  obtain ⟨s, w2, h3, h4⟩ := M.bind_ok_iff.1 h2
  have h4' := (Prod.mk.inj (M.pure_ok_iff.1 h4)).2
  have hm : ∀ (ms : List Bool) (i : Nat), Moves id (Ga.maskLoci a.ind.chromosome b.ind.chromosome i ms : M G _) := by
    intro ms
    induction ms with
    | nil => intro i; exact Moves.pure _
    | cons m ms ih =>
      intro i g r g' h
      unfold Ga.maskLoci at h
      obtain ⟨x, u1, e1, e2⟩ := M.bind_ok_iff.1 h
      obtain ⟨y, u2, e3, e4⟩ := M.bind_ok_iff.1 e2
      obtain ⟨z, u3, e5, e6⟩ := M.bind_ok_iff.1 e4
      have e6' := (Prod.mk.inj (M.pure_ok_iff.1 e6)).2
      rw [e6', ih _ _ _ _ e5]
      have hidx : ∀ (l : List ℝ) (k : Nat) (u : G) q, Ga.idx l k u = .ok q → q.2 = u := by
        intro l k u q hq
        by_cases hk : k < l.length
        · rw [Ga.idx_of_lt hk, M.pure_run] at hq
          cases hq; rfl
        · unfold Ga.idx at hq
          rw [List.getElem?_eq_none (by omega)] at hq
          cases hq
      rw [show u2 = u1 from hidx _ _ _ _ e3, show u1 = g from hidx _ _ _ _ e1]
  rw [h4', hm _ _ _ _ _ h3, Moves.replicate Ga.moves_unit _ _ _ _ h1]
  rfl

theorem chunks_moves {f : Indiv ℝ → Indiv ℝ → M G (Indiv ℝ × Indiv ℝ)} {φ : G → G} : ∀ (n : Nat) (l : List (Indiv ℝ)), l.length = n →
    (∀ a ∈ l, ∀ b ∈ l, Moves φ (f a b)) → Moves φ^[n / 2] (Ga.chunks2 f l)
  | 0, [], _, _ => Moves.pure _
  | 1, [_], _, _ => by intro g a g' h; cases h
  | n + 2, a :: b :: rest, hl, hf => by
    intro g r g' h
    unfold Ga.chunks2 at h
    obtain ⟨p, w1, h1, h2⟩ := M.bind_ok_iff.1 h
    obtain ⟨out, w2, h3, h4⟩ := M.bind_ok_iff.1 h2
    have h4' := (Prod.mk.inj (M.pure_ok_iff.1 h4)).2
    rw [h4', chunks_moves n rest (by simpa using hl) (fun x hx y hy => hf x (by simp [hx]) y (by simp [hy])) _ _ _ h3,
      hf a (by simp) b (by simp) _ _ _ h1, show (n + 2) / 2 = n / 2 + 1 by omega, Function.iterate_succ_apply]

theorem cross_moves (f : Indiv ℝ → Indiv ℝ → M G (Indiv ℝ × Indiv ℝ)) {φ : G → G} {n : Nat} {l : List (Indiv ℝ)} (hl : l.length = n)
    (hf : ∀ a ∈ l, ∀ b ∈ l, Moves φ (f a b)) : Moves φ^[n / 2] (Ga.applyPairs f l) := by
  intro g r g' h
  unfold Ga.applyPairs at h
  obtain ⟨_, w1, h1, h2⟩ := M.bind_ok_iff.1 h
  have h1' := (Prod.mk.inj (M.assert_ok_iff.1 h1).2).2
  subst h1'
  exact chunks_moves n l hl hf _ _ _ h2

theorem rank_moves (hR : Ideal R μ) {n : Nat} (hn : 0 < n) (count : Nat) : ∃ φ, MeasurePreserving φ μ μ ∧
    ∀ pop : List (Indiv ℝ), pop.length = n → Moves φ (Ga.selRank R (Indiv.trait ℝ) count pop) := by
  have := hR.isProbability
  obtain ⟨φ, h1, h2⟩ := Moves.of_law (hR.hasLaw_below 0 n) ((R.genRange_returns hn).mono fun _ _ => trivial)
  refine ⟨(φ ∘ φ)^[count], (h1.comp h1).iterate count, fun pop hl => Moves.replicate ?_ count⟩
  intro g r g' h
  unfold Ga.rankOne at h
  rw [hl] at h
  obtain ⟨i, w1, e1, e2⟩ := M.bind_ok_iff.1 h
  obtain ⟨p1, w2, e3, e4⟩ := M.bind_ok_iff.1 e2
  obtain ⟨j, w3, e5, e6⟩ := M.bind_ok_iff.1 e4
  obtain ⟨p2, w4, e7, e8⟩ := M.bind_ok_iff.1 e6
  have e8' := (Prod.mk.inj (M.pure_ok_iff.1 e8)).2
  have hidx : ∀ (l : List (Indiv ℝ)) (k : Nat) (u : G) q, Ga.idx l k u = .ok q → q.2 = u := by
    intro l k u q hq
    by_cases hk : k < l.length
    · rw [Ga.idx_of_lt hk, M.pure_run] at hq
      cases hq; rfl
    · unfold Ga.idx at hq
      rw [List.getElem?_eq_none (by omega)] at hq
      cases hq
  rw [e8', show w4 = w3 from hidx _ _ _ _ e7, h2 _ _ _ e5, show w2 = w1 from hidx _ _ _ _ e3, h2 _ _ _ e1]
  rfl

/-- The chance that the solver returns something worse than the best value in a box of chromosomes. -/
theorem solver_rate (hR : Ideal R μ) (h : jobs.Proper nM) (hA : jobs.Alternates) (hD : jobs.Positive)
    (ho : load (jobs.file nM) = .ok (ops, nM)) (hE : ∀ ch : List ℝ, UnitGenes ch → E.Sane ch) (keep : ℝ)
    {elite sample : Nat → Nat} {elapsed : M G Nat} {p : Ga.GAParams} (hlaw : HasLaw μ elapsed) (hel : Returns elapsed fun t => t < p.maxDuration)
    (hn : 0 < p.populationSize) (heven : p.populationSize % 2 = 0) (h1 : elite p.populationSize + sample p.populationSize ≤ p.populationSize)
    (h2 : 0 < elite p.populationSize + sample p.populationSize)
    {As : List (Set ℝ)} (hAs : As.length = 2 * jobs.total) (hAm : ∀ A ∈ As, MeasurableSet A) {v : Nat}
    (hgood : ∀ ch : List ℝ, UnitGenes ch → List.Forall₂ (fun x A => x ∈ A) ch As →
      ∀ i' r, Evaluates E (freshIndividual ops nM worst ch) i' r → r ≤ v) (m0 : Ga.Metrics) :
    chance μ (Ga.run (Indiv.trait ℝ) (solverOps R E keep ops nM worst p.populationSize elite sample elapsed) p m0)
      (fun r => ¬ Fl.Le r.1.fit (.num v)) ≤ ((1 - boxVol As) ^ sample p.populationSize) ^ p.generationLimit := by
  have := hR.isProbability
  have hops : ops.length = jobs.total + 2 := by
    obtain ⟨ops', h3, h4, -⟩ := C100_loading h
    rw [ho] at h3
    cases h3; exact h4
  obtain ⟨tick, t1, t2⟩ := Moves.of_law hlaw (hel.mono fun _ _ => trivial)
  obtain ⟨sel, s1, s2⟩ := rank_moves hR hn p.populationSize
  obtain ⟨jg, hg⟩ := generate_moves (R := R) (ops := ops) (nM := nM) (worst := worst) p.populationSize
  have hst := solver_staged (R := R) (E := E) (worst := worst) h hA hD ho hE keep (elite := elite) (sample := sample) (hel.mono fun _ _ => trivial) hn heven h1 h2
  have hsu := Ga.stepUnit_preserving hR
  refine Ga.run_misses (Hit := InBox As) (v := .num v) (sel := sel) (cr := ((stepUnit R)^[2 * jobs.total])^[p.populationSize / 2]) (tick := tick)
    (Miss := (MissOne R As)^[sample p.populationSize]) hst ⟨t2, fun i _ => eval_moves rfl i, fun m pop hl _ => s2 pop hl, ?_, fun m i _ => Moves.pure i, ?_,
      fun i hi hh => eval_hit h hA hD ho hE hgood rfl hi hh⟩ hel hn rfl s1 ((hsu.iterate _).iterate _) t1 ?_ (hsu.iterate jg) hg m0
  · intro m pool hl hq
    exact cross_moves _ hl fun a ha b hb => crossSingle_moves keep (hq a ha).len
  · intro m pop children hl hc hq hch S w out w' e hw hno
    change replace _ _ _ _ pop children w = .ok (out, w') at e
    unfold replace at e
    obtain ⟨_, w1, e1, e2⟩ := M.bind_ok_iff.1 e
    obtain ⟨_, w2, e3, e4⟩ := M.bind_ok_iff.1 e2
    have e1' := (Prod.mk.inj (M.assert_ok_iff.1 e1).2).2
    have e3' := (Prod.mk.inj (M.assert_ok_iff.1 e3).2).2
    subst e1' e3'
    generalize hs : (if 0 < elite pop.length then pop.mergeSort (fun a b => decide ((fun i : Indiv ℝ => i.ind.fitness) a ≤ (fun i : Indiv ℝ => i.ind.fitness) b)) else pop) = sorted at e4
    have hperm : sorted.Perm pop := by
      rw [← hs]; split
      · exact List.mergeSort_perm _ _
      · exact List.Perm.refl _
    have hlen : sorted.length = pop.length := hperm.length_eq
    rw [← hl] at h1 h2
    obtain ⟨ch', hf⟩ := swapFold (G := G) (elite pop.length) (pop.length - elite pop.length - sample pop.length) 0 sorted children (by omega) (by omega)
    simp only [Nat.add_zero, List.drop_zero] at hf
    rw [hf, pure_bind] at e4
    unfold spliceSamples at e4
    rw [← hl]
    by_cases hz : 0 < sample pop.length
    · rw [if_pos hz] at e4
      obtain ⟨new, w3, e5, e6⟩ := M.bind_ok_iff.1 e4
      rw [M.pure_run] at e6
      cases e6
      exact generate_miss (by rw [hAs, hops]; omega) e5 hw fun i hi => hno i (by simp [hi])
    · rw [if_neg hz, M.pure_run] at e4
      cases e4
      rw [show sample pop.length = 0 by omega]
      exact hw
  · intro S hS
    have := Ga.miss_measure hR hAm hS (sample p.populationSize)
    exact ⟨this.1, this.2.le⟩

/-- The same for the random search. -/
theorem randomSearch_rate (hR : Ideal R μ) (h : jobs.Proper nM) (hA : jobs.Alternates) (hD : jobs.Positive)
    (ho : load (jobs.file nM) = .ok (ops, nM)) (hE : ∀ ch : List ℝ, UnitGenes ch → E.Sane ch)
    {elapsed : M G Nat} {p : Ga.GAParams} (hlaw : HasLaw μ elapsed) (hel : Returns elapsed fun t => t < p.maxDuration)
    (hn : 0 < p.populationSize)
    {As : List (Set ℝ)} (hAs : As.length = 2 * jobs.total) (hAm : ∀ A ∈ As, MeasurableSet A) {v : Nat}
    (hgood : ∀ ch : List ℝ, UnitGenes ch → List.Forall₂ (fun x A => x ∈ A) ch As →
      ∀ i' r, Evaluates E (freshIndividual ops nM worst ch) i' r → r ≤ v) (m0 : Ga.Metrics) :
    chance μ (Ga.run (Indiv.trait ℝ) (randomSearchOps R E ops nM worst elapsed) p m0)
      (fun r => ¬ Fl.Le r.1.fit (.num v)) ≤ ((1 - boxVol As) ^ p.populationSize) ^ p.generationLimit := by
  have := hR.isProbability
  have hops : ops.length = jobs.total + 2 := by
    obtain ⟨ops', h3, h4, -⟩ := C100_loading h
    rw [ho] at h3
    cases h3; exact h4
  obtain ⟨tick, t1, t2⟩ := Moves.of_law hlaw (hel.mono fun _ _ => trivial)
  obtain ⟨jg, hg⟩ := generate_moves (R := R) (ops := ops) (nM := nM) (worst := worst) p.populationSize
  have hst := randomSearch_staged (R := R) (E := E) (worst := worst) h hA hD ho hE (hel.mono fun _ _ => trivial) (n := p.populationSize)
  have hsu := Ga.stepUnit_preserving hR
  refine Ga.run_misses (Hit := InBox As) (v := .num v) (sel := id) (cr := id) (tick := tick)
    (Miss := (MissOne R As)^[p.populationSize]) hst ⟨t2, fun i _ => eval_moves rfl i, fun m pop hl _ => Moves.pure _, ?_, fun m i _ => Moves.pure i, ?_,
      fun i hi hh => eval_hit h hA hD ho hE hgood rfl hi hh⟩ hel hn rfl (.id μ) (.id μ) t1 ?_ (hsu.iterate jg) hg m0
  · intro m pool hl hq
    exact cross_moves (φ := id) (n := 0) _ hl fun a ha b hb => Moves.pure _
  · intro m pop children hl hc hq hch S w out w' e hw hno
    rw [← hl]
    exact generate_miss (by rw [hAs, hops]; omega) e hw hno
  · intro S hS
    have := Ga.miss_measure hR hAm hS p.populationSize
    exact ⟨this.1, this.2.le⟩

end runs
/-! ## A box of chromosomes around a chromosome -/

theorem near (a b d : ℝ) (h : a < d) : ∀ᶠ ε in nhdsWithin (0 : ℝ) (Set.Ioi 0), a + ε * b < d := by
  have hc : Continuous fun ε : ℝ => a + ε * b := by fun_prop
  have := hc.tendsto 0
  simp only [zero_mul, add_zero] at this
  exact (this.mono_left nhdsWithin_le_nhds).eventually (gt_mem_nhds h)

theorem real_late (y y' : ℝ) (h : ⌊y⌋ = ⌊y'⌋) (a t : Nat) : ((t : ℝ) + y < a ↔ (t : ℝ) + y' < a) := by
  have e : ∀ z : ℝ, ((t : ℝ) + z < a ↔ ⌊z⌋ < (a : ℤ) - t) := fun z => by
    rw [Int.floor_lt]; push_cast
    constructor <;> intro h <;> linarith
  rw [e, e, h]

/-- The chromosomes of a box around a chromosome look like it to the decoder. -/
theorem box_exists {c : List ℝ} (hc : UnitGenes c) {n : Nat} (hl : c.length = 2 * n) (md : Nat) :
    ∃ As : List (Set ℝ), As.length = 2 * n ∧ (∀ A ∈ As, MeasurableSet A) ∧ boxVol As ≠ 0 ∧
      ∀ ch', List.Forall₂ (fun x A => x ∈ A) ch' As → SameView realEval n md c ch' := by
  obtain ⟨N, hN⟩ : ∃ N : ℝ, N = 2 * n + 1 := ⟨_, rfl⟩
  have hfin : {x | x ∈ c}.Finite := c.finite_toSet
  have hev : ∀ᶠ ε in nhdsWithin (0 : ℝ) (Set.Ioi 0), (∀ x ∈ {x | x ∈ c}, x + ε * N < 1) ∧
      (∀ x ∈ {x | x ∈ c}, x * (3 / 2) * md + ε * (N * (3 / 2) * md) < (⌊x * (3 / 2) * md⌋ : ℝ) + 1) ∧
      (∀ x ∈ {x | x ∈ c}, ∀ y ∈ {x | x ∈ c}, x < y → x + ε * N < y) ∧ 0 < ε := by
    refine (hfin.eventually_all.2 fun x hx => near _ _ _ (hc x hx).2).and
      ((hfin.eventually_all.2 fun x hx => near _ _ _ (Int.lt_floor_add_one _)).and
      ((hfin.eventually_all.2 fun x hx => hfin.eventually_all.2 fun y hy => ?_).and self_mem_nhdsWithin))
    by_cases hxy : x < y
    · exact (near x N y hxy).mono fun ε h _ => h
    · exact Filter.Eventually.of_forall fun ε h => absurd h hxy
  obtain ⟨ε, h1, h2, h3, h4⟩ := hev.exists
  let As : List (Set ℝ) := c.mapIdx fun i x => Set.Ioo (x + ε * ((2 * n : Nat) - i : ℝ)) (x + ε * ((2 * n : Nat) - i : ℝ) + ε)
  have hAl : As.length = 2 * n := by simp [As, hl]
  refine ⟨As, hAl, ?_, ?_, ?_⟩
  · intro A hA
    obtain ⟨i, hi, rfl⟩ := List.mem_mapIdx.1 hA
    exact measurableSet_Ioo
  · unfold boxVol
    refine List.prod_ne_zero fun h0 => ?_
    obtain ⟨A, hA, h5⟩ := List.mem_map.1 h0
    obtain ⟨i, hi, rfl⟩ := List.mem_mapIdx.1 hA
    have hx := c.getElem_mem hi
    have h6 := hc _ hx
    have h7 := h1 _ hx
    have h8 : (i : ℝ) + 1 ≤ (2 * n : Nat) := by exact_mod_cast (by omega : i + 1 ≤ 2 * n)
    have h9 : 0 ≤ (i : ℝ) := by positivity
    push_cast at h8
    rw [Set.inter_eq_left.2, Real.volume_Ioo] at h5
    · rw [ENNReal.ofReal_eq_zero] at h5
      linarith
    · intro z hz
      have h10 := hz.1
      have h11 := hz.2
      push_cast at h10 h11
      constructor
      · have : 0 ≤ ε * (2 * n - i) := mul_nonneg h4.le (by linarith)
        linarith
      · have : ε * (2 * n - i) + ε ≤ ε * N := by rw [hN]; nlinarith
        linarith
  · intro ch' hf
    have hl' : ch'.length = 2 * n := hf.length_eq.trans hAl
    have hlo : ∀ (i : Nat) (x x' : ℝ), c[i]? = some x → ch'[i]? = some x' → x + ε * ((2 * n : ℝ) - i) < x' ∧ x' < x + ε * ((2 * n : ℝ) - i) + ε ∧ (i : ℝ) + 1 ≤ 2 * n := by
      intro i x x' hx hx'
      obtain ⟨hi, rfl⟩ := List.getElem?_eq_some_iff.1 hx
      obtain ⟨hi', rfl⟩ := List.getElem?_eq_some_iff.1 hx'
      have := (List.forall₂_iff_get.1 hf).2 i hi' (by omega)
      simp only [List.get_eq_getElem, As, List.getElem_mapIdx] at this
      have h8 : (i : ℝ) + 1 ≤ (2 * n : Nat) := by exact_mod_cast (by omega : i + 1 ≤ 2 * n)
      push_cast at this h8
      exact ⟨this.1, this.2, h8⟩
    refine ⟨hl, hl', ?_, ?_⟩
    · intro i j p q p' q' hij hj hp hq hp' hq'
      obtain ⟨a1, a2, a3⟩ := hlo _ _ _ hp hp'
      obtain ⟨b1, b2, b3⟩ := hlo _ _ _ hq hq'
      have hpm := List.mem_of_getElem? hp
      have hqm := List.mem_of_getElem? hq
      have hi0 : 0 ≤ (i : ℝ) := by positivity
      have hj0 : 0 ≤ (j : ℝ) := by positivity
      have hij' : (i : ℝ) + 1 ≤ j := by exact_mod_cast hij
      have e1 : ε * ((2 * n : ℝ) - i) + ε ≤ ε * N := by rw [hN]; nlinarith
      have e2 : ε * ((2 * n : ℝ) - j) + ε ≤ ε * N := by rw [hN]; nlinarith
      have e3 : 0 ≤ ε * ((2 * n : ℝ) - i) := mul_nonneg h4.le (by linarith)
      have e4 : 0 ≤ ε * ((2 * n : ℝ) - j) := mul_nonneg h4.le (by linarith)
      have e5 : ε * ((2 * n : ℝ) - j) + ε ≤ ε * ((2 * n : ℝ) - i) := by nlinarith
      show decide (p < q) = decide (p' < q')
      rw [decide_eq_decide]
      constructor
      · intro h
        have := h3 p hpm q hqm h
        linarith
      · intro h
        by_contra hn
        rcases lt_or_eq_of_le (not_lt.1 hn) with h5 | h5
        · have := h3 q hqm p hpm h5
          linarith
        · linarith
    · intro k x x' hk hx hx' f t
      obtain ⟨a1, a2, a3⟩ := hlo _ _ _ hx hx'
      have hxm := List.mem_of_getElem? hx
      have hk0 : 0 ≤ (k : ℝ) := by positivity
      have hm0 : 0 ≤ (md : ℝ) := by positivity
      have e1 : ε * ((2 * n : ℝ) - k) + ε ≤ ε * N := by rw [hN]; nlinarith
      have e3 : 0 ≤ ε * ((2 * n : ℝ) - k) := mul_nonneg h4.le (by linarith)
      have e6 : ⌊x * (3 / 2) * (md : ℝ)⌋ = ⌊x' * (3 / 2) * (md : ℝ)⌋ := by
        symm
        rw [Int.floor_eq_iff]
        have e7 := h2 x hxm
        have e8 := Int.floor_le (x * (3 / 2) * (md : ℝ))
        have e9 : x * (3 / 2) * (md : ℝ) ≤ x' * (3 / 2) * md := by gcongr; linarith
        have e10 : x' * (3 / 2) * (md : ℝ) ≤ (x + ε * N) * (3 / 2) * md := by gcongr; linarith
        constructor
        · linarith
        · calc x' * (3 / 2) * (md : ℝ) ≤ (x + ε * N) * (3 / 2) * md := e10
            _ = x * (3 / 2) * md + ε * (N * (3 / 2) * md) := by ring
            _ < _ := e7
      cases f with
      | none => rfl
      | some a =>
        show decide _ = decide _
        rw [decide_eq_decide]
        exact real_late _ _ e6 a t

theorem realEval_ordered (ch : List ℝ) : realEval.Ordered ch := by
  refine ⟨fun x _ y _ h => ?_, fun x _ y _ z _ h => ?_⟩
  · simp only [realEval, decide_eq_true_eq, decide_eq_false_iff_not] at h ⊢
    linarith
  · simp only [realEval, decide_eq_true_eq] at h ⊢
    rcases lt_or_ge z x with h1 | h1
    · exact .inl h1
    · exact .inr (lt_of_lt_of_le h h1)

/-! ## Specification -/

/-- Specification: a value of the problem – the value that evaluating some chromosome of random keys gives. -/
def Describable (jobs : Jobs) (ops : List Operation) (nM worst v : Nat) : Prop :=
  ∃ ch : List ℝ, UnitGenes ch ∧ ch.length = 2 * jobs.total ∧ ∃ i', Evaluates realEval (freshIndividual ops nM worst ch) i' v

section
variable {jobs : Jobs} {nM worst : Nat} {ops : List Operation}

/-- Around every describable value there is a box of chromosomes with that value. -/
theorem describable_box (h : jobs.Proper nM) (hA : jobs.Alternates) (hD : jobs.Positive)
    (ho : load (jobs.file nM) = .ok (ops, nM)) {v : Nat} (hv : Describable jobs ops nM worst v) :
    ∃ As : List (Set ℝ), As.length = 2 * jobs.total ∧ (∀ A ∈ As, MeasurableSet A) ∧ boxVol As ≠ 0 ∧
      ∀ ch : List ℝ, UnitGenes ch → List.Forall₂ (fun x A => x ∈ A) ch As →
        ∀ i' r, Evaluates realEval (freshIndividual ops nM worst ch) i' r → r = v := by
  obtain ⟨c, h1, h2, i', h3⟩ := hv
  obtain ⟨md, hmd⟩ : ∃ md, maxDuration (initialSched (freshIndividual (X := ℝ) ops nM worst c)).ops = .ok md := by
    unfold maxDuration
    obtain ⟨ops', g1, g2, -⟩ := C100_loading h
    rw [ho] at g1
    cases g1
    have : (initialSched (freshIndividual (X := ℝ) ops nM worst c)).ops.toList.length = ops.length := by
      simp [initialSched, freshIndividual, Arr.toList, Arr.ofList, Individual.new]
    split
    · next e => rw [e] at this; simp at this; omega
    · exact ⟨_, rfl⟩
  obtain ⟨As, b1, b2, b3, b4⟩ := box_exists h1 h2 md
  refine ⟨As, b1, b2, b3, fun ch hu hf j r he => ?_⟩
  have := fresh_same h hA hD (load_ok ho).1 hmd (b4 ch hf) (realEval_sane c h1) (realEval_ordered c) (realEval_sane ch hu) (realEval_ordered ch) h3
  exact (he.unique this).2

theorem known_describable (h : jobs.Proper nM) (hA : jobs.Alternates) (hD : jobs.Positive)
    (ho : load (jobs.file nM) = .ok (ops, nM)) {i : Indiv ℝ} (hi : Shown realEval jobs ops nM worst i) : Describable jobs ops nM worst i.ind.fitness := by
  obtain ⟨j, j', a1, a2, a3⟩ := hi.value hi.done
  obtain ⟨-, b2, b3⟩ := a1.inv h hA hD (load_ok ho).1
  have hf : Arises realEval ops nM worst jobs.total (freshIndividual ops nM worst j.chromosome) := .fresh _ b3 b2
  obtain ⟨k', t, -, -, hk, -⟩ := C66_evaluated_feasible h hA hD ho hf
  have := (C96_history_independent h hA hD ho a1 hf rfl a3 hk).1
  exact ⟨_, a2, b3, k', this ▸ hk⟩
end

section runs
variable {G : Type} [MeasurableSpace G] {μ : Measure G} {R : Rng G ℝ} {jobs : Jobs} {nM worst : Nat} {ops : List Operation}

/-- **C173, the solver, rate.** For every describable value there is a number below one such that the probability that the run returns
something worse is at most its `k`-th power, `k` the number of generations. -/
theorem C173_solver_rate (hR : Ideal R μ) (h : jobs.Proper nM) (hA : jobs.Alternates) (hD : jobs.Positive)
    (ho : load (jobs.file nM) = .ok (ops, nM)) (keep : ℝ) {elite sample : Nat → Nat} {elapsed : M G Nat} {p : Ga.GAParams}
    (hlaw : HasLaw μ elapsed) (hel : Returns elapsed fun t => t < p.maxDuration)
    (hn : 0 < p.populationSize) (heven : p.populationSize % 2 = 0) (h1 : elite p.populationSize + sample p.populationSize ≤ p.populationSize)
    (h2 : 0 < sample p.populationSize) {v : Nat} (hv : Describable jobs ops nM worst v) (m0 : Ga.Metrics) :
    ∃ δ : ℝ≥0∞, δ < 1 ∧ ∀ k,
      chance μ (Ga.run (Indiv.trait ℝ) (solverOps R realEval keep ops nM worst p.populationSize elite sample elapsed)
        { p with generationLimit := k } m0) (fun r => ¬ Fl.Le r.1.fit (.num v)) ≤ δ ^ k := by
  obtain ⟨As, b1, b2, b3, b4⟩ := describable_box h hA hD ho hv
  refine ⟨(1 - boxVol As) ^ sample p.populationSize, pow_lt_one₀ zero_le (ENNReal.sub_lt_self (by simp) (by simp) b3) (by omega), fun k => ?_⟩
  exact solver_rate (p := { p with generationLimit := k }) hR h hA hD ho realEval_sane keep hlaw hel hn heven h1 (by show 0 < elite p.populationSize + sample p.populationSize; omega) b1 b2
    (fun ch hu hf i' r he => (b4 ch hu hf i' r he).le) m0

/-- **C173, the random search, rate.** -/
theorem C173_random_search_rate (hR : Ideal R μ) (h : jobs.Proper nM) (hA : jobs.Alternates) (hD : jobs.Positive)
    (ho : load (jobs.file nM) = .ok (ops, nM)) {elapsed : M G Nat} {p : Ga.GAParams}
    (hlaw : HasLaw μ elapsed) (hel : Returns elapsed fun t => t < p.maxDuration)
    (hn : 0 < p.populationSize) {v : Nat} (hv : Describable jobs ops nM worst v) (m0 : Ga.Metrics) :
    ∃ δ : ℝ≥0∞, δ < 1 ∧ ∀ k,
      chance μ (Ga.run (Indiv.trait ℝ) (randomSearchOps R realEval ops nM worst elapsed)
        { p with generationLimit := k } m0) (fun r => ¬ Fl.Le r.1.fit (.num v)) ≤ δ ^ k := by
  obtain ⟨As, b1, b2, b3, b4⟩ := describable_box h hA hD ho hv
  refine ⟨(1 - boxVol As) ^ p.populationSize, pow_lt_one₀ zero_le (ENNReal.sub_lt_self (by simp) (by simp) b3) (by omega), fun k => ?_⟩
  exact randomSearch_rate (p := { p with generationLimit := k }) hR h hA hD ho realEval_sane hlaw hel hn b1 b2
    (fun ch hu hf i' r he => (b4 ch hu hf i' r he).le) m0

theorem some_describable (h : jobs.Proper nM) (hA : jobs.Alternates) (hD : jobs.Positive) (ho : load (jobs.file nM) = .ok (ops, nM)) :
    ∃ v, Describable jobs ops nM worst v := by
  have hu : UnitGenes (List.replicate (2 * jobs.total) (0 : ℝ)) := fun x hx => by
    rw [List.eq_of_mem_replicate hx]; norm_num
  obtain ⟨i', r, -, -, hk, -⟩ := C66_evaluated_feasible (E := realEval) (worst := worst) h hA hD ho (.fresh _ (by simp) (realEval_sane _ hu))
  exact ⟨r, _, hu, by simp, i', hk⟩

/-- A run that returns evaluated individuals, and something worse than a describable value with small probability, tends to the best. -/
theorem tendsto_least (hμ : IsProbabilityMeasure μ) (h : jobs.Proper nM) (hA : jobs.Alternates) (hD : jobs.Positive)
    (ho : load (jobs.file nM) = .ok (ops, nM)) {m : Nat → M G (Indiv ℝ × List (Ga.Ev (Indiv ℝ)))}
    (hret : ∀ k, Returns (m k) fun r => Shown realEval jobs ops nM worst r.1)
    (hrate : ∀ v, Describable jobs ops nM worst v → ∃ δ : ℝ≥0∞, δ < 1 ∧ ∀ k, chance μ (m k) (fun r => ¬ Fl.Le r.1.fit (.num v)) ≤ δ ^ k) :
    Filter.Tendsto (fun k => chance μ (m k) fun r => IsLeast {v | Describable jobs ops nM worst v} r.1.ind.fitness) Filter.atTop (nhds 1) := by
  classical
  obtain ⟨v, hv, hmin⟩ : ∃ v, Describable jobs ops nM worst v ∧ ∀ u, Describable jobs ops nM worst u → v ≤ u := by
    have hex := some_describable (worst := worst) h hA hD ho
    exact ⟨Nat.find hex, Nat.find_spec hex, fun u hu => Nat.find_min' hex hu⟩
  obtain ⟨δ, hδ, hk⟩ := hrate v hv
  have hlow : ∀ k, 1 - δ ^ k ≤ chance μ (m k) fun r => IsLeast {v | Describable jobs ops nM worst v} r.1.ind.fitness := by
    intro k
    rw [tsub_le_iff_right]
    refine le_trans ?_ (add_le_add_right (hk k) _)
    rw [← measure_univ (μ := μ)]
    refine le_trans (measure_mono fun g _ => ?_) (measure_union_le _ _)
    obtain ⟨r, g', h1, h2⟩ := hret k g
    by_cases hle : Fl.Le r.1.fit (.num v)
    · refine .inl ⟨r, g', h1, known_describable h hA hD ho h2, fun u hu => ?_⟩
      rw [h2.fit] at hle
      exact le_trans hle (hmin u hu)
    · exact .inr ⟨r, g', h1, hle⟩
  have hlim : Filter.Tendsto (fun k => 1 - δ ^ k) Filter.atTop (nhds 1) := by
    have := ENNReal.Tendsto.sub (tendsto_const_nhds (x := (1 : ℝ≥0∞))) (ENNReal.tendsto_pow_atTop_nhds_zero_of_lt_one hδ) (.inl (by simp))
    simpa using this
  exact tendsto_of_tendsto_of_tendsto_of_le_of_le hlim tendsto_const_nhds hlow fun k => prob_le_one

/-- **C173, the solver.** With more and more generations the probability that the run returns the least describable value tends to one. -/
theorem C173_solver_converges (hR : Ideal R μ) (h : jobs.Proper nM) (hA : jobs.Alternates) (hD : jobs.Positive)
    (ho : load (jobs.file nM) = .ok (ops, nM)) (keep : ℝ) {elite sample : Nat → Nat} {elapsed : M G Nat} {p : Ga.GAParams}
    (hlaw : HasLaw μ elapsed) (hel : Returns elapsed fun t => t < p.maxDuration)
    (hn : 0 < p.populationSize) (heven : p.populationSize % 2 = 0) (h1 : elite p.populationSize + sample p.populationSize ≤ p.populationSize)
    (h2 : 0 < sample p.populationSize) (m0 : Ga.Metrics) :
    Filter.Tendsto (fun generations => chance μ
      (Ga.run (Indiv.trait ℝ) (solverOps R realEval keep ops nM worst p.populationSize elite sample elapsed)
        { p with generationLimit := generations } m0)
      (fun r => IsLeast {v | Describable jobs ops nM worst v} r.1.ind.fitness)) Filter.atTop (nhds 1) := by
  refine tendsto_least hR.isProbability h hA hD ho (fun k => ?_) fun v hv => C173_solver_rate hR h hA hD ho keep hlaw hel hn heven h1 h2 hv m0
  refine (solves_of_staged (p := { p with generationLimit := k }) (solver_staged h hA hD ho realEval_sane keep (hel.mono fun _ _ => trivial)
    hn heven h1 (by omega)) hn rfl m0).mono ?_
  rintro r ⟨q1, q2⟩
  obtain ⟨pop, hp1, hp2⟩ := q1.member
  exact q2 pop hp1 _ hp2

/-- **C173, the random search.** -/
theorem C173_random_search_converges (hR : Ideal R μ) (h : jobs.Proper nM) (hA : jobs.Alternates) (hD : jobs.Positive)
    (ho : load (jobs.file nM) = .ok (ops, nM)) {elapsed : M G Nat} {p : Ga.GAParams}
    (hlaw : HasLaw μ elapsed) (hel : Returns elapsed fun t => t < p.maxDuration) (hn : 0 < p.populationSize) (m0 : Ga.Metrics) :
    Filter.Tendsto (fun generations => chance μ
      (Ga.run (Indiv.trait ℝ) (randomSearchOps R realEval ops nM worst elapsed) { p with generationLimit := generations } m0)
      (fun r => IsLeast {v | Describable jobs ops nM worst v} r.1.ind.fitness)) Filter.atTop (nhds 1) := by
  refine tendsto_least hR.isProbability h hA hD ho (fun k => ?_) fun v hv => C173_random_search_rate hR h hA hD ho hlaw hel hn hv m0
  refine (solves_of_staged (p := { p with generationLimit := k }) (randomSearch_staged h hA hD ho realEval_sane (hel.mono fun _ _ => trivial))
    hn rfl m0).mono ?_
  rintro r ⟨q1, q2⟩
  obtain ⟨pop, hp1, hp2⟩ := q1.member
  exact q2 pop hp1 _ hp2

/-- Every describable value is the makespan of a feasible schedule. -/
theorem C173_describable_makespan (h : jobs.Proper nM) (hA : jobs.Alternates) (hD : jobs.Positive)
    (ho : load (jobs.file nM) = .ok (ops, nM)) {v : Nat} (hv : Describable jobs ops nM worst v) : Makespan jobs v := by
  obtain ⟨ch, hu, hl, i', he⟩ := hv
  exact (C95_fitness_is_a_makespan h hA hD ho (.fresh _ hl (realEval_sane ch hu)) he).2.2.2

/-- The delays of the example: at most one and a half times the longest duration. -/
theorem realEval_delays (ch : List ℝ) (hu : UnitGenes ch) : Delays realEval ch := by
  intro x hx md a t h
  have h1 := hu x hx
  simp only [realEval, decide_eq_false_iff_not, not_lt] at h
  have h2 : x * (3 / 2) * (md : ℝ) ≤ 1 * (3 / 2) * md := by gcongr; exact h1.2.le
  have h3 : (2 : ℝ) * a ≤ 2 * t + 3 * md := by linarith
  exact_mod_cast h3

/-- **C173, the limits.** On the instances of C150 the least describable value is not the optimum. -/
theorem C173_not_the_optimum {n : Nat} (hn : 2 ≤ n) {ops : List Operation} (ho : load ((stubborn n).file 6) = .ok (ops, 6)) {v : Nat}
    (hv : Describable (stubborn n) ops 6 worst v) : v = 2 * n + 1 ∧ Makespan (stubborn n) (n + 3) := by
  obtain ⟨ch, hu, hl, i', he⟩ := hv
  have := C150_unreachable_optimum hn ho (.fresh (worst := worst) ch hl (realEval_sane ch hu)) (realEval_ordered ch) (realEval_delays ch hu) he
  exact ⟨this.1, this.2.1⟩

end runs

/-- Two jobs on two machines, ten individuals, the rates of the example, the generator on the tape. -/
example : ∃ ops, load (twoJobs.file 2) = .ok (ops, 2) ∧
    Filter.Tendsto (fun generations => chance tapeLaw
      (Ga.run (Indiv.trait ℝ) (solverOps tapeRng realEval (3 / 5) ops 2 1000 10 (· / 10) (· / 5) (pure 0)) ⟨10, generations, 1000⟩ ⟨0, 10, none⟩)
      (fun r => IsLeast {v | Describable twoJobs ops 2 1000 v} r.1.ind.fitness)) Filter.atTop (nhds 1) ∧
    ∃ v, Describable twoJobs ops 2 1000 v := by
  obtain ⟨ops, h1, -⟩ := C100_loading twoJobs_proper
  refine ⟨ops, h1, ?_, some_describable twoJobs_proper twoJobs_alternates twoJobs_positive h1⟩
  have := C173_solver_converges (R := tapeRng) (worst := 1000) (p := ⟨10, 0, 1000⟩) tapeRng_ideal twoJobs_proper twoJobs_alternates twoJobs_positive h1 (3 / 5) (elite := (· / 10)) (sample := (· / 5))
    (elapsed := pure 0) (HasLaw.pure 0) (Returns.pure (by decide)) (by decide) (by decide) (by decide) (by decide) ⟨0, 10, none⟩
  exact this

end Ecrs.Jssp
