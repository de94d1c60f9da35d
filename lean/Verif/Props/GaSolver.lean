import Verif.Ga.SolverLemmas
import Mathlib.Data.Int.Order.Basic

/-!
# Properties of the GA driver: C01–C07

`run T ops p m0 w = .ok ((best, tr), w')` reads: `GeneticSolver::run` with operators `ops`, parameters
`p` and initial world `w` returned `Some(best)`, and `tr` is everything that happened, in order.
The specification functions below only project the trace.
-/

namespace Ecrs.Ga
open Ecrs

/-! ## Specification vocabulary -/

/-- The populations shown to the probe (`on_initial_population_created`, `on_new_generation`):
exactly the populations on which the fitness function has been evaluated in full. -/
def shownPops {I : Type} (tr : List (Ev I)) : List (List I) :=
  tr.filterMap fun
    | .onInitialPopulation _ pop => some pop
    | .onNewGeneration _ pop => some pop
    | _ => none

/-- The individuals announced through `on_new_best`, in order. -/
def newBests {I : Type} (tr : List (Ev I)) : List I :=
  tr.filterMap fun
    | .onNewBest _ i => some i
    | _ => none

/-- Generation numbers of the `on_iteration_start` callbacks. -/
def iterationNumbers {I : Type} (tr : List (Ev I)) : List Nat :=
  tr.filterMap fun
    | .onIterationStart m => some m.generation
    | _ => none

/-- The elapsed times at which the stop condition was tested. -/
def clockChecks {I : Type} (tr : List (Ev I)) : List Nat :=
  tr.filterMap fun
    | .clockCheck d => some d
    | _ => none

/-- Names of the probe callbacks. -/
inductive Cb
  | start | initial | newBest | iterStart | newGen | bestFit | iterEnd | fin
  deriving DecidableEq, Repr

/-- The probe's view of the trace: callback names in order. -/
def callbackNames {I : Type} (tr : List (Ev I)) : List Cb :=
  tr.filterMap fun
    | .onStart _ => some .start
    | .onInitialPopulation _ _ => some .initial
    | .onNewBest _ _ => some .newBest
    | .onIterationStart _ => some .iterStart
    | .onNewGeneration _ _ => some .newGen
    | .onBestFit _ _ => some .bestFit
    | .onIterationEnd _ => some .iterEnd
    | .onEnd _ _ _ => some .fin
    | _ => none

section
variable {W I C K : Type} [LinearOrder K] (T : IndTrait I C K) (ops : Ops W I K) (p : GAParams)

/-! ## C01, C02: the best individual -/

private structure BestInv (s : St I) : Prop where
  notLt : ∀ pop ∈ shownPops s.trace, ∀ i ∈ pop, ¬ Fl.Lt (T.fitness i) (T.fitness s.best)
  mem : ∃ pop ∈ shownPops s.trace, s.best ∈ pop
  dec : (newBests s.trace).Pairwise fun a b => Fl.Lt (T.fitness b) (T.fitness a)
  last : (newBests s.trace).getLast? = some s.best
  nums : ∀ pop ∈ shownPops s.trace, 2 ≤ pop.length → ∀ i ∈ pop, (T.fitness i).IsNum

private theorem isNum_of_findBest {l : List I} {b : I} (h : findBest T l = .ok b)
    (h2 : 2 ≤ l.length) : ∀ i ∈ l, (T.fitness i).IsNum :=
  fun i hi => (findBest_le T h (.inl h2) i hi).isNum_right

private theorem bestInv_prologue {m0 : Metrics} {s : St I} {w w' : W}
    (h : prologue T ops p m0 w = .ok (s, w')) : BestInv T s := by
  obtain ⟨pop0, wa, wb, d, -, -, h3, -, -, h5⟩ := prologue_ok T ops p h
  have hs : shownPops s.trace = [s.pop] := by rw [h5]; rfl
  have hn : newBests s.trace = [s.best] := by rw [h5]; rfl
  refine ⟨?_, ?_, ?_, ?_, ?_⟩
  · rw [hs]; intro pop hp i hi; simp at hp; subst hp
    exact findBest_not_lt T h3 i hi
  · rw [hs]; exact ⟨s.pop, by simp, findBest_mem T h3⟩
  · rw [hn]; simp
  · rw [hn]; simp
  · rw [hs]; intro pop hp h2; simp at hp; subst hp
    exact isNum_of_findBest T h3 h2

private theorem bestInv_step {g : Nat} {s s' : St I} {stop : Bool} {w w' : W} (hi : BestInv T s)
    (h : iteration T ops p g s w = .ok ((s', stop), w')) : BestInv T s' := by
  obtain ⟨d, wa, m, pop, wb, pool, wc, crossed, wd, mutated, we, children, wf, replaced, wg, m', wh,
    b, d', wi, -, -, -, -, -, -, -, -, -, -, -, hb, -, hbest, -, -, htr⟩ := iteration_ok T ops p h
  have hs : shownPops s'.trace = shownPops s.trace ++ [s'.pop] := by
    rw [htr]; unfold shownPops; split <;> simp
  have hn : newBests s'.trace = newBests s.trace ++
      (if Fl.lt (T.fitness b) (T.fitness s.best) then [b] else []) := by
    rw [htr]; unfold newBests; split <;> simp
  have hlast : ∃ ys, newBests s.trace = ys ++ [s.best] := by
    have := hi.last
    rw [List.getLast?_eq_some_iff] at this
    exact this
  by_cases himp : Fl.lt (T.fitness b) (T.fitness s.best) = true
  · rw [if_pos himp] at hbest hn
    have hlt := Fl.lt_iff.1 himp
    refine ⟨?_, ?_, ?_, ?_, ?_⟩
    · rw [hs, hbest]; intro q hq i hiq hilt
      rcases List.mem_append.1 hq with hq | hq
      · exact hi.notLt q hq i hiq (hilt.trans_le hlt.le)
      · simp at hq; subst hq; exact findBest_not_lt T hb i hiq hilt
    · rw [hs, hbest]; exact ⟨s'.pop, by simp, findBest_mem T hb⟩
    · rw [hn, List.pairwise_append]
      refine ⟨hi.dec, by simp, ?_⟩
      intro x hx y hy
      simp at hy; subst hy
      obtain ⟨ys, hys⟩ := hlast
      rw [hys] at hx
      rcases List.mem_append.1 hx with hx | hx
      · have := hi.dec
        rw [hys, List.pairwise_append] at this
        have hx' := this.2.2 x hx s.best (by simp)
        exact hlt.trans_le hx'.le
      · simp at hx; subst hx; exact hlt
    · rw [hn, hbest]; simp
    · rw [hs]; intro q hq h2 i hiq
      rcases List.mem_append.1 hq with hq | hq
      · exact hi.nums q hq h2 i hiq
      · simp at hq; subst hq; exact isNum_of_findBest T hb h2 i hiq
  · rw [if_neg himp] at hbest hn
    have hnlt : ¬ Fl.Lt (T.fitness b) (T.fitness s.best) := fun h => himp (Fl.lt_iff.2 h)
    refine ⟨?_, ?_, ?_, ?_, ?_⟩
    · rw [hs, hbest]; intro q hq i hiq hilt
      rcases List.mem_append.1 hq with hq | hq
      · exact hi.notLt q hq i hiq hilt
      · simp at hq; subst hq
        by_cases h2 : 2 ≤ s'.pop.length
        · have hle := findBest_le T hb (.inl h2) i hiq
          apply hnlt
          revert hle hilt
          cases T.fitness b <;> cases T.fitness i <;> cases T.fitness s.best <;>
            simp [Fl.Le, Fl.Lt]
          intro h1 h2
          exact lt_of_le_of_lt h2 h1
        · have hbm := findBest_mem T hb
          have : i = b := by
            match hpop : s'.pop with
            | [] => rw [hpop] at hiq; simp at hiq
            | [x] => rw [hpop] at hiq hbm; simp at hiq hbm; rw [hiq, hbm]
            | _ :: _ :: _ => rw [hpop] at h2; simp at h2
          subst this; exact hnlt hilt
    · rw [hs, hbest]; obtain ⟨q, hq, hm⟩ := hi.mem; exact ⟨q, by simp [hq], hm⟩
    · rw [hn]; simpa using hi.dec
    · rw [hn, hbest]; simpa using hi.last
    · rw [hs]; intro q hq h2 i hiq
      rcases List.mem_append.1 hq with hq | hq
      · exact hi.nums q hq h2 i hiq
      · simp at hq; subst hq; exact isNum_of_findBest T hb h2 i hiq

private theorem bestInv_run {m0 : Metrics} {best : I} {tr : List (Ev I)} {w w' : W}
    (h : run T ops p m0 w = .ok ((best, tr), w')) :
    ∃ s : St I, BestInv T s ∧ best = s.best ∧ shownPops tr = shownPops s.trace ∧
      newBests tr = newBests s.trace := by
  obtain ⟨s, wa, s', wb, d, h1, h2, -, hb, htr⟩ := run_ok T ops p h
  have hi := bestInv_prologue T ops p h1
  obtain ⟨k, -, hk⟩ := loop_inv T ops p (Inv := fun _ s => BestInv T s)
    (fun g s w s' stop w' hi h => bestInv_step T ops p hi h) _ _ _ _ _ _ hi h2
  refine ⟨s', hk, hb, ?_, ?_⟩
  · rw [htr]; simp [shownPops]
  · rw [htr]; simp [newBests]

/-- **C01.** The returned individual belongs to a population shown to the probe, and no individual
of any shown population (initial or after any generation) has a strictly smaller fitness. No
hypothesis on operators, fitness function, clock or NaN. -/
theorem C01_result_is_best {m0 : Metrics} {best : I} {tr : List (Ev I)} {w w' : W}
    (h : run T ops p m0 w = .ok ((best, tr), w')) :
    (∃ pop ∈ shownPops tr, best ∈ pop) ∧
    ∀ pop ∈ shownPops tr, ∀ i ∈ pop, ¬ Fl.Lt (T.fitness i) (T.fitness best) := by
  obtain ⟨s, hi, rfl, hs, -⟩ := bestInv_run T ops p h
  rw [hs]; exact ⟨hi.mem, hi.notLt⟩

/-- **C01, `≤` form.** If every shown population has at least two members or only numeric fitness
values, then the result's fitness is a number that is `≤` every fitness ever shown. -/
theorem C01_result_le_all {m0 : Metrics} {best : I} {tr : List (Ev I)} {w w' : W}
    (h : run T ops p m0 w = .ok ((best, tr), w'))
    (hp : ∀ pop ∈ shownPops tr, 2 ≤ pop.length ∨ ∀ i ∈ pop, (T.fitness i).IsNum) :
    ∀ pop ∈ shownPops tr, ∀ i ∈ pop, Fl.Le (T.fitness best) (T.fitness i) := by
  obtain ⟨s, hi, rfl, hs, -⟩ := bestInv_run T ops p h
  rw [hs] at hp ⊢
  have hnum : ∀ pop ∈ shownPops s.trace, ∀ i ∈ pop, (T.fitness i).IsNum := by
    intro q hq
    rcases hp q hq with h2 | h2
    · exact hi.nums q hq h2
    · exact h2
  obtain ⟨q0, hq0, hm0⟩ := hi.mem
  intro q hq i hiq
  exact (Fl.not_lt (hnum q hq i hiq) (hnum q0 hq0 _ hm0)).1 (hi.notLt q hq i hiq)

/-- **C02.** The individuals announced by `on_new_best` have strictly decreasing fitness and the last
one is the individual `run` returns. -/
theorem C02_new_best_strictly_improves {m0 : Metrics} {best : I} {tr : List (Ev I)} {w w' : W}
    (h : run T ops p m0 w = .ok ((best, tr), w')) :
    (newBests tr).Pairwise (fun a b => Fl.Lt (T.fitness b) (T.fitness a)) ∧
    (newBests tr).getLast? = some best := by
  obtain ⟨s, hi, rfl, -, hn⟩ := bestInv_run T ops p h
  rw [hn]; exact ⟨hi.dec, hi.last⟩

/-- **C07.** A run never gets past a population of two or more individuals one of which has NaN
fitness: if it returns, every such population shown was NaN-free. -/
theorem C07_no_nan_survives {m0 : Metrics} {best : I} {tr : List (Ev I)} {w w' : W}
    (h : run T ops p m0 w = .ok ((best, tr), w')) :
    ∀ pop ∈ shownPops tr, 2 ≤ pop.length → ∀ i ∈ pop, (T.fitness i).IsNum := by
  obtain ⟨s, hi, rfl, hs, -⟩ := bestInv_run T ops p h
  rw [hs]; exact hi.nums

/-- **C07, direct form.** Searching the best individual of a population of at least two members panics
as soon as any one of them, at any position, has NaN fitness. -/
theorem C07_nan_panics {l : List I} (h2 : 2 ≤ l.length) (h : ∃ i ∈ l, T.fitness i = .nan) :
    findBest T l = .error .nanCompare := findBest_nan T h2 h

/-! ## C03, C04, C05: protocol, budget, size -/

/-- The callbacks of one generation; the flag says whether a new best was announced. -/
def generationCallbacks (improved : Bool) : List Cb :=
  [.iterStart, .newGen, .bestFit] ++ (if improved then [.newBest] else []) ++ [.iterEnd]

private structure ProtoInv (k : Nat) (s : St I) : Prop where
  names : ∃ flags : List Bool, flags.length = k ∧
    callbackNames s.trace = [.start, .initial, .newBest] ++ flags.flatMap generationCallbacks
  nums : iterationNumbers s.trace = List.range' 1 k
  clocks : (clockChecks s.trace).length = k

private theorem protoInv_step {k : Nat} {s s' : St I} {stop : Bool} {w w' : W}
    (hi : ProtoInv k s)
    (h : iteration T ops p (1 + k) s w = .ok ((s', stop), w')) : ProtoInv (k + 1) s' := by
  obtain ⟨d, wa, m, pop, wb, pool, wc, crossed, wd, mutated, we, children, wf, replaced, wg, m', wh,
    b, d', wi, -, hm, -, -, -, -, -, -, -, -, -, hb, -, hbest, -, -, htr⟩ := iteration_ok T ops p h
  obtain ⟨⟨flags, hf, hn⟩, h2, h3⟩ := hi
  refine ⟨⟨flags ++ [Fl.lt (T.fitness b) (T.fitness s.best)], by simp [hf], ?_⟩, ?_, ?_⟩
  · rw [List.flatMap_append, ← List.append_assoc, ← hn, htr]
    unfold callbackNames generationCallbacks
    split <;> simp_all
  · rw [List.range'_concat, ← h2, htr]
    unfold iterationNumbers
    split <;> simp [hm]
  · rw [← h3, htr]
    unfold clockChecks
    split <;> simp

private structure ClockInv (s : St I) : Prop where
  low : ∀ d ∈ clockChecks s.trace, d < p.maxDuration

private theorem clock_step {g : Nat} {s s' : St I} {stop : Bool} {w w' : W}
    (h : iteration T ops p g s w = .ok ((s', stop), w')) :
    ∃ d', clockChecks s'.trace = clockChecks s.trace ++ [d'] ∧
      stop = decide (p.maxDuration ≤ d') := by
  obtain ⟨d, wa, m, pop, wb, pool, wc, crossed, wd, mutated, we, children, wf, replaced, wg, m', wh,
    b, d', wi, -, hm, -, -, -, -, -, -, -, -, -, hb, -, hbest, -, hstop, htr⟩ := iteration_ok T ops p h
  refine ⟨d', ?_, hstop⟩
  rw [htr]; unfold clockChecks
  split <;> simp

private theorem loop_proto : ∀ (n k : Nat) (s s' : St I) (w w' : W), ProtoInv k s →
    (∀ d ∈ clockChecks s.trace, d < p.maxDuration) →
    loop T ops p n (1 + k) s w = .ok (s', w') →
    ∃ j, j ≤ n ∧ ProtoInv (k + j) s' ∧
      (∀ d ∈ (clockChecks s'.trace).dropLast, d < p.maxDuration) ∧
      ((j = n ∧ ∀ d ∈ clockChecks s'.trace, d < p.maxDuration) ∨
       (1 ≤ j ∧ ∃ d, (clockChecks s'.trace).getLast? = some d ∧ p.maxDuration ≤ d))
  | 0, k, s, s', w, w', hi, hc, h => by
    simp [loop] at h; obtain ⟨rfl, rfl⟩ := h
    exact ⟨0, Nat.le_refl _, hi, fun d hd => hc d (List.dropLast_subset _ hd), .inl ⟨rfl, hc⟩⟩
  | n + 1, k, s, s', w, w', hi, hc, h => by
    unfold loop at h
    obtain ⟨⟨s1, stop⟩, w1, h1, h2⟩ := M.bind_ok_iff.1 h
    have hi1 := protoInv_step T ops p hi h1
    obtain ⟨d', hcl, hst⟩ := clock_step T ops p h1
    simp only at h2
    cases stop with
    | true =>
      simp at h2; obtain ⟨rfl, rfl⟩ := h2
      refine ⟨1, by omega, hi1, ?_, .inr ⟨Nat.le_refl _, d', by rw [hcl]; simp, by simpa using hst⟩⟩
      rw [hcl]; simpa using hc
    | false =>
      simp at h2
      have hlt : d' < p.maxDuration := by simpa using hst
      have hc1 : ∀ d ∈ clockChecks s1.trace, d < p.maxDuration := by
        rw [hcl]; intro d hd
        rcases List.mem_append.1 hd with hd | hd
        · exact hc d hd
        · simp at hd; subst hd; exact hlt
      obtain ⟨j, hj, hp', hd, hor⟩ := loop_proto n (k + 1) s1 s' w1 w' hi1 hc1
        (by rw [show 1 + (k + 1) = 1 + k + 1 by omega]; exact h2)
      refine ⟨j + 1, by omega, by rw [show k + (j + 1) = k + 1 + j by omega]; exact hp', hd, ?_⟩
      rcases hor with ⟨rfl, hl⟩ | ⟨hj1, hl⟩
      · exact .inl ⟨rfl, hl⟩
      · exact .inr ⟨by omega, hl⟩

private theorem protoInv_prologue {m0 : Metrics} {s : St I} {w w' : W}
    (h : prologue T ops p m0 w = .ok (s, w')) : ProtoInv 0 s ∧ clockChecks s.trace = [] := by
  obtain ⟨pop0, wa, wb, d, -, -, h3, -, -, h5⟩ := prologue_ok T ops p h
  refine ⟨⟨⟨[], rfl, ?_⟩, ?_, ?_⟩, ?_⟩ <;> rw [h5] <;> rfl

private theorem run_proto {m0 : Metrics} {best : I} {tr : List (Ev I)} {w w' : W}
    (h : run T ops p m0 w = .ok ((best, tr), w')) :
    ∃ k, k ≤ p.generationLimit ∧
      (∃ flags : List Bool, flags.length = k ∧
        callbackNames tr = [.start, .initial, .newBest] ++ flags.flatMap generationCallbacks ++ [.fin]) ∧
      iterationNumbers tr = List.range' 1 k ∧
      (clockChecks tr).length = k ∧
      (∀ d ∈ (clockChecks tr).dropLast, d < p.maxDuration) ∧
      ((k = p.generationLimit ∧ ∀ d ∈ clockChecks tr, d < p.maxDuration) ∨
       (1 ≤ k ∧ ∃ d, (clockChecks tr).getLast? = some d ∧ p.maxDuration ≤ d)) := by
  obtain ⟨s, wa, s', wb, d, h1, h2, -, hb, htr⟩ := run_ok T ops p h
  obtain ⟨hi, hc⟩ := protoInv_prologue T ops p h1
  obtain ⟨j, hj, ⟨⟨flags, hf, hn⟩, hnum, hlen⟩, hd, hor⟩ := loop_proto T ops p _ 0 _ _ _ _ hi
    (by rw [hc]; simp) h2
  rw [Nat.zero_add] at hf hnum hlen
  have e1 : clockChecks tr = clockChecks s'.trace := by rw [htr]; simp [clockChecks]
  have e2 : iterationNumbers tr = iterationNumbers s'.trace := by rw [htr]; simp [iterationNumbers]
  have e3 : callbackNames tr = callbackNames s'.trace ++ [.fin] := by rw [htr]; simp [callbackNames]
  refine ⟨j, hj, ⟨flags, hf, by rw [e3, hn]⟩, by rw [e2, hnum], by rw [e1, hlen], by rw [e1]; exact hd,
    by rw [e1]; exact hor⟩

/-- **C03.** The probe callbacks of a returning run are: start, initial population, new best; then for
each generation: iteration start, new generation, best fit, (new best)?, iteration end; then end. -/
theorem C03_callback_protocol {m0 : Metrics} {best : I} {tr : List (Ev I)} {w w' : W}
    (h : run T ops p m0 w = .ok ((best, tr), w')) :
    ∃ flags : List Bool, flags.length ≤ p.generationLimit ∧
      callbackNames tr = [.start, .initial, .newBest] ++
        flags.flatMap (fun improved =>
          [.iterStart, .newGen, .bestFit] ++ (if improved then [.newBest] else []) ++ [.iterEnd]) ++
        [.fin] := by
  obtain ⟨k, hk, ⟨flags, hf, hn⟩, -⟩ := run_proto T ops p h
  exact ⟨flags, by omega, hn⟩

/-- **C04.** A returning run performs `k ≤ generation_limit` generations, numbered `1, 2, …, k`; the
stop test was made at the end of each; all tests but the last saw an elapsed time below
`max_duration`; and either `k = generation_limit` or the last test saw `elapsed ≥ max_duration`. -/
theorem C04_iteration_budget {m0 : Metrics} {best : I} {tr : List (Ev I)} {w w' : W}
    (h : run T ops p m0 w = .ok ((best, tr), w')) :
    ∃ k, k ≤ p.generationLimit ∧ iterationNumbers tr = List.range' 1 k ∧
      (clockChecks tr).length = k ∧
      (∀ d ∈ (clockChecks tr).dropLast, d < p.maxDuration) ∧
      (k = p.generationLimit ∨ ∃ d, (clockChecks tr).getLast? = some d ∧ p.maxDuration ≤ d) ∧
      (1 ≤ p.generationLimit → 1 ≤ k) := by
  obtain ⟨k, hk, -, h2, h3, h4, h5⟩ := run_proto T ops p h
  refine ⟨k, hk, h2, h3, h4, ?_, ?_⟩
  · rcases h5 with ⟨h5, -⟩ | ⟨-, h5⟩
    · exact .inl h5
    · exact .inr h5
  · rcases h5 with ⟨h5, -⟩ | ⟨h5, -⟩ <;> omega

/-- **C04, zero duration.** With `max_duration = 0` and a positive limit exactly one generation is run. -/
theorem C04_zero_duration_runs_once {m0 : Metrics} {best : I} {tr : List (Ev I)} {w w' : W}
    (h : run T ops p m0 w = .ok ((best, tr), w')) (hd : p.maxDuration = 0)
    (hl : 1 ≤ p.generationLimit) : iterationNumbers tr = [1] := by
  obtain ⟨k, hk, -, h2, h3, h4, h5⟩ := run_proto T ops p h
  have hk1 : 1 ≤ k := by rcases h5 with ⟨h5, -⟩ | ⟨h5, -⟩ <;> omega
  have : k = 1 := by
    by_contra hne
    have hl : (clockChecks tr).dropLast ≠ [] := by
      intro h0
      have := congrArg List.length h0
      simp at this; omega
    obtain ⟨x, hx⟩ := List.exists_mem_of_ne_nil _ hl
    have := h4 x hx; omega
  subst this; rw [h2]; rfl

private structure SizeInv (s : St I) : Prop where
  newGen : ∀ m pop, Ev.onNewGeneration m pop ∈ s.trace →
    pop.length = p.populationSize ∧ m.populationSize = p.populationSize

/-- **C05.** Every population handed to `on_new_generation` has exactly `params.population_size`
members, and the metrics handed along say so. -/
theorem C05_population_size_constant {m0 : Metrics} {best : I} {tr : List (Ev I)} {w w' : W}
    (h : run T ops p m0 w = .ok ((best, tr), w')) :
    ∀ m pop, Ev.onNewGeneration m pop ∈ tr →
      pop.length = p.populationSize ∧ m.populationSize = p.populationSize := by
  obtain ⟨s, wa, s', wb, d, h1, h2, -, hb, htr⟩ := run_ok T ops p h
  have hi : SizeInv p s := by
    obtain ⟨pop0, wa, wb, d, -, -, h3, -, -, h5⟩ := prologue_ok T ops p h1
    constructor; rw [h5]; simp
  obtain ⟨k, -, hk⟩ := loop_inv T ops p (Inv := fun _ s => SizeInv p s) (by
    intro g s w s' stop w' hi h
    obtain ⟨d, wa, m, pop, wb, pool, wc, crossed, wd, mutated, we, children, wf, replaced, wg, m',
      wh, b, d', wi, -, hm, -, -, -, -, -, -, hm', hsz, hev, hb, -, hbest, -, hstop, htr⟩ :=
      iteration_ok T ops p h
    constructor
    intro m1 pop1 hmem
    rw [htr] at hmem
    have hmem' : Ev.onNewGeneration m1 pop1 ∈ s.trace ∨ (m1 = m' ∧ pop1 = s'.pop) := by
      revert hmem
      split <;> simp
    rcases hmem' with hmem | ⟨rfl, rfl⟩
    · exact hi.newGen m1 pop1 hmem
    · rw [evalPop_length T ops hev, hsz, hm']; simp [hsz]) _ _ _ _ _ _ hi h2
  intro m pop hmem
  rw [htr] at hmem
  simp at hmem
  exact hk.newGen m pop hmem

/-- **C05, panic form.** If the replacement operator never returns a population of the configured size
then a run of at least one generation never returns: it panics. -/
theorem C05_wrong_size_panics {m0 : Metrics} (hl : 1 ≤ p.generationLimit)
    (hr : ∀ m a b, IfReturns (ops.replace m a b) fun r => r.length ≠ p.populationSize) :
    Panics (run T ops p m0) := by
  intro w
  cases hrun : run T ops p m0 w with
  | error e => exact ⟨e, rfl⟩
  | ok r =>
    exfalso
    obtain ⟨⟨best, tr⟩, w'⟩ := r
    obtain ⟨s, wa, s', wb, d, h1, h2, -, hb, htr⟩ := run_ok T ops p hrun
    obtain ⟨n, hn⟩ : ∃ n, p.generationLimit = n + 1 := ⟨p.generationLimit - 1, by omega⟩
    rw [hn] at h2
    unfold loop at h2
    obtain ⟨⟨s1, stop⟩, w1, h1', -⟩ := M.bind_ok_iff.1 h2
    obtain ⟨d, wa, m, pop, wb, pool, wc, crossed, wd, mutated, we, children, wf, replaced, wg, m', wh,
      b, d', wi, -, hm, -, -, -, -, -, hrep, hm', hsz, hev, hb, -⟩ := iteration_ok T ops p h1'
    exact hr m pop children wf replaced wg hrep hsz

/-! ## C06: fitness is up to date -/

/-- The cached fitness agrees with the fitness function. -/
def Fresh (f : C → Fl K) (i : I) : Prop := T.fitness i = f (T.chromosome i)

/-- `requires_evaluation` is truthful for `i`: whenever it says "no", the cached value is right. -/
def Honest (f : C → Fl K) (i : I) : Prop := T.requiresEval i = false → Fresh T f i

/-- The contract under which cached fitness can be trusted: the fitness operator computes `f` of the
chromosome, and generator, crossover, mutation and replacement only produce honest individuals from
honest ones.  It holds unconditionally for the shipped `Individual`, whose `requires_evaluation` is
constantly `true` (see `C06_contract_of_individual`). -/
structure HonestOps (f : C → Fl K) : Prop where
  fit : ∀ i, IfReturns (ops.fitnessFn i) fun r => r.2 = f (T.chromosome r.1)
  gen : ∀ n, IfReturns (ops.generate n) fun l => ∀ i ∈ l, Honest T f i
  sel : ∀ m l, (∀ i ∈ l, Honest T f i) → IfReturns (ops.select m l) fun r => ∀ i ∈ r, Honest T f i
  cross : ∀ m l, (∀ i ∈ l, Honest T f i) → IfReturns (ops.cross m l) fun r => ∀ i ∈ r, Honest T f i
  mutation : ∀ m i, Honest T f i → IfReturns (ops.mutate m i) fun r => Honest T f r
  repl : ∀ m a b, (∀ i ∈ a, Honest T f i) → (∀ i ∈ b, Honest T f i) →
    IfReturns (ops.replace m a b) fun r => ∀ i ∈ r, Honest T f i

omit [LinearOrder K] in
private theorem Fresh.honest {f : C → Fl K} {i : I} (h : Fresh T f i) : Honest T f i := fun _ => h

omit [LinearOrder K] in
private theorem evalPop_fresh {f : C → Fl K}
    (hf : ∀ i, IfReturns (ops.fitnessFn i) fun r => r.2 = f (T.chromosome r.1))
    {pop pop' : List I} {w w' : W} (hp : ∀ i ∈ pop, Honest T f i)
    (h : evalPop T ops pop w = .ok (pop', w')) : ∀ i ∈ pop', Fresh T f i := by
  have := IfReturns.forEach (f := evalOne T ops) (R := fun _ y => Fresh T f y) pop (by
    intro i hi
    unfold evalOne
    split
    · refine IfReturns.bind (hf i) ?_
      rintro ⟨i', v⟩ hv
      apply IfReturns.pure
      show T.fitness (T.setFitness i' v) = f (T.chromosome (T.setFitness i' v))
      rw [T.fitness_set, T.chromosome_set]; exact hv
    · rename_i hne
      apply IfReturns.pure
      exact hp i hi (by simpa using hne)) _ _ _ h
  intro i hi
  clear h hp
  induction this with
  | nil => simp at hi
  | cons hxy _ ih =>
    rcases List.mem_cons.1 hi with rfl | hi
    · exact hxy
    · exact ih hi

/-- Every individual a given event exposes has an up-to-date fitness.  For `replaceCall` the children
are required to be fresh only if the operator asks for it. -/
def EvFresh (f : C → Fl K) (needChildren : Bool) : Ev I → Prop
  | .onInitialPopulation _ pop => ∀ i ∈ pop, Fresh T f i
  | .onNewGeneration _ pop => ∀ i ∈ pop, Fresh T f i
  | .onNewBest _ i => Fresh T f i
  | .onBestFit _ i => Fresh T f i
  | .onEnd _ pop b => (∀ i ∈ pop, Fresh T f i) ∧ Fresh T f b
  | .selectCall pop => ∀ i ∈ pop, Fresh T f i
  | .replaceCall pop ch => (∀ i ∈ pop, Fresh T f i) ∧ (needChildren = true → ∀ i ∈ ch, Fresh T f i)
  | _ => True

private structure FreshInv (f : C → Fl K) (s : St I) : Prop where
  pop : ∀ i ∈ s.pop, Fresh T f i
  best : Fresh T f s.best
  tr : ∀ e ∈ s.trace, EvFresh T f ops.requiresChildrenFitness e

omit [LinearOrder K] in
private theorem forall₂_right {α β : Type} {P : β → Prop} {xs : List α} {ys : List β}
    (h : List.Forall₂ (fun _ y => P y) xs ys) : ∀ y ∈ ys, P y := by
  induction h with
  | nil => simp
  | cons hxy _ ih =>
    intro y hy
    rcases List.mem_cons.1 hy with rfl | hy
    · exact hxy
    · exact ih y hy

private theorem freshInv_step {f : C → Fl K} (ho : HonestOps T ops f) {g : Nat} {s s' : St I}
    {stop : Bool} {w w' : W} (hi : FreshInv T ops f s)
    (h : iteration T ops p g s w = .ok ((s', stop), w')) : FreshInv T ops f s' := by
  obtain ⟨d, wa, m, pop, wb, pool, wc, crossed, wd, mutated, we, children, wf, replaced, wg, m',
    wh, b, d', wi, -, hm, he1, hsel, hcr, hmu, hch, hrep, hm', hsz, hev, hb, -, hbest, -, hstop,
    htr⟩ := iteration_ok T ops p h
  have hpop : ∀ i ∈ pop, Fresh T f i :=
    evalPop_fresh T ops ho.fit (fun i hi' => (hi.pop i hi').honest) he1
  have hpool := ho.sel m pop (fun i hi' => (hpop i hi').honest) _ _ _ hsel
  have hcrossed := ho.cross m pool hpool _ _ _ hcr
  have hmut : ∀ i ∈ mutated, Honest T f i :=
    forall₂_right (IfReturns.forEach (R := fun _ y => Honest T f y) crossed
      (fun i hi' => ho.mutation m i (hcrossed i hi')) _ _ _ hmu)
  have hchildren : (∀ i ∈ children, Honest T f i) ∧
      (ops.requiresChildrenFitness = true → ∀ i ∈ children, Fresh T f i) := by
    unfold evalChildren at hch
    by_cases hreq : ops.requiresChildrenFitness = true
    · rw [if_pos hreq] at hch
      have := evalPop_fresh T ops ho.fit hmut hch
      exact ⟨fun i hi' => (this i hi').honest, fun _ => this⟩
    · rw [if_neg hreq] at hch
      simp at hch; obtain ⟨rfl, -⟩ := hch
      exact ⟨hmut, fun h => absurd h hreq⟩
  have hrepl := ho.repl m pop children (fun i hi' => (hpop i hi').honest) hchildren.1 _ _ _ hrep
  have hpop' := evalPop_fresh T ops ho.fit hrepl hev
  have hbf : Fresh T f b := hpop' b (findBest_mem T hb)
  refine ⟨hpop', ?_, ?_⟩
  · rw [hbest]; split
    · exact hbf
    · exact hi.best
  · intro e he
    rw [htr] at he
    simp only [List.mem_append] at he
    rcases he with ((he | he) | he) | he
    · exact hi.tr e he
    · simp at he
      rcases he with rfl | rfl | rfl | rfl | rfl
      · trivial
      · exact hpop
      · exact ⟨hpop, hchildren.2⟩
      · exact hpop'
      · exact hbf
    · split at he
      · simp at he; subst he; exact hbf
      · simp at he
    · simp at he; rcases he with rfl | rfl <;> trivial

/-- **C06.** Under the honesty contract, every individual the run exposes — to the selection operator,
to the replacement operator (children included when it asks for children fitness) and to every probe
callback — carries the fitness of its own chromosome. -/
theorem C06_fitness_is_fresh {f : C → Fl K} (ho : HonestOps T ops f)
    {m0 : Metrics} {best : I} {tr : List (Ev I)} {w w' : W}
    (h : run T ops p m0 w = .ok ((best, tr), w')) :
    Fresh T f best ∧ ∀ e ∈ tr, EvFresh T f ops.requiresChildrenFitness e := by
  obtain ⟨s, wa, s', wb, d, h1, h2, -, hb, htr⟩ := run_ok T ops p h
  have hi : FreshInv T ops f s := by
    obtain ⟨pop0, wa, wb, d, hg, he, h3, -, -, h5⟩ := prologue_ok T ops p h1
    have hp := evalPop_fresh T ops ho.fit (ho.gen _ _ _ _ hg) he
    have hbf := hp _ (findBest_mem T h3)
    refine ⟨hp, hbf, ?_⟩
    rw [h5]; intro e he; simp at he
    rcases he with rfl | rfl | rfl
    · trivial
    · exact hp
    · exact hbf
  obtain ⟨k, -, hk⟩ := loop_inv T ops p (Inv := fun _ s => FreshInv T ops f s)
    (fun g s w s' stop w' hi h => freshInv_step T ops p ho hi h) _ _ _ _ _ _ hi h2
  refine ⟨hb ▸ hk.best, ?_⟩
  intro e he
  rw [htr] at he
  rcases List.mem_append.1 he with he | he
  · exact hk.tr e he
  · simp at he; subst he; exact ⟨hk.pop, hk.best⟩

end

/-- The honesty contract holds for the shipped `Individual` with any operators, as soon as the fitness
operator computes `f` of the chromosome. -/
theorem C06_contract_of_individual {W C K : Type} [LinearOrder K]
    (ops : Ops W (Individual C K) K) (f : C → Fl K)
    (hf : ∀ i, IfReturns (ops.fitnessFn i) fun r => r.2 = f r.1.chromosome) :
    HonestOps (Individual.trait C K) ops f := by
  have hh : ∀ i, Honest (Individual.trait C K) f i := fun i h => by
    simp [Individual.trait] at h
  exact ⟨hf, fun _ _ _ _ _ i _ => hh i, fun _ _ _ _ _ _ _ i _ => hh i,
    fun _ _ _ _ _ _ _ i _ => hh i, fun _ _ _ _ i _ _ => hh i, fun _ _ _ _ _ _ _ _ _ i _ => hh i⟩

/-! ## Non-vacuity: a concrete run -/

/-- A concrete GA on integers: two individuals, mutation decrements, the clock ticks by one on each
reading. -/
def exampleOps : Ops Nat (Individual Int Int) Int where
  generate _ := pure [⟨5, .nan⟩, ⟨3, .nan⟩]
  fitnessFn i := pure (i, .num (i.chromosome * i.chromosome))
  select _ pop := pure pop
  cross _ pool := pure pool
  mutate _ i := pure { i with chromosome := i.chromosome - 2 }
  replace _ _ children := pure children
  requiresChildrenFitness := false
  elapsed := fun w => .ok (w, w + 1)

/-- The run returns, announces two bests (9, 1) and performs three generations: the hypotheses of
C01–C07 are met by a non-trivial run. -/
example : ∃ best tr w', run (Individual.trait Int Int) exampleOps ⟨2, 3, 100⟩ (initialMetrics ⟨2, 3, 100⟩) 0
      = .ok ((best, tr), w') ∧ best = ⟨1, .num 1⟩ ∧ newBests tr = [⟨3, .num 9⟩, ⟨1, .num 1⟩] ∧
      iterationNumbers tr = [1, 2, 3] ∧ (shownPops tr).length = 4 :=
  ⟨_, _, _, rfl, by decide, by decide, by decide, by decide⟩

/-- The same GA stopped by its time limit during generation 1. -/
example : ∃ best tr w', run (Individual.trait Int Int) exampleOps ⟨2, 3, 2⟩ (initialMetrics ⟨2, 3, 2⟩) 0
      = .ok ((best, tr), w') ∧ iterationNumbers tr = [1] :=
  ⟨_, _, _, rfl, by decide⟩

/-- The honesty contract is met by `exampleOps`. -/
example : HonestOps (Individual.trait Int Int) exampleOps (fun c => .num (c * c)) :=
  C06_contract_of_individual _ _ fun _ => IfReturns.pure rfl

/-- A replacement operator of wrong size: hypotheses of `C05_wrong_size_panics`. -/
def wrongSizeOps : Ops Nat (Individual Int Int) Int :=
  { exampleOps with replace := fun _ pop _ => pure (pop ++ pop ++ [⟨0, .nan⟩]) }

example : Panics (run (Individual.trait Int Int) wrongSizeOps ⟨2, 3, 100⟩ (initialMetrics ⟨2, 3, 100⟩)) :=
  C05_wrong_size_panics _ _ _ (by decide) fun m a b => IfReturns.pure (by simp; omega)

/-- Why C07 needs two individuals: with a population of one a NaN is accepted, announced as best and
never displaced (`x < NaN` is false), although later generations have numeric fitness. -/
def nanOps : Ops Nat (Individual Int Int) Int :=
  { exampleOps with
    generate := fun _ => pure [⟨5, .nan⟩]
    fitnessFn := fun i => pure (i, if i.chromosome = 5 then .nan else .num i.chromosome) }

/-- **C07, failing case.** A one-individual run returns the NaN individual as its best. -/
theorem C07_single_individual_nan_sticks : ∃ best tr w',
    run (Individual.trait Int Int) nanOps ⟨1, 3, 100⟩ (initialMetrics ⟨1, 3, 100⟩) 0 =
      .ok ((best, tr), w') ∧ best.fitness = .nan ∧
      (⟨3, .num 3⟩ : Individual Int Int) ∈ (shownPops tr).flatten :=
  ⟨_, _, _, rfl, by decide, by decide⟩

/-! ## Every theorem on a concrete case: the run of the example above -/

section instances

theorem example_honest : HonestOps (Individual.trait Int Int) exampleOps (fun c => .num (c * c)) :=
  C06_contract_of_individual _ _ fun _ => IfReturns.pure rfl

variable {best : Individual Int Int} {tr : List (Ev (Individual Int Int))} {w' : Nat}
  (h : run (Individual.trait Int Int) exampleOps ⟨2, 3, 100⟩ (initialMetrics ⟨2, 3, 100⟩) 0 = .ok ((best, tr), w'))
include h
example := C07_no_nan_survives _ _ _ h
example := C03_callback_protocol _ _ _ h
example := C04_iteration_budget _ _ _ h
example := C05_population_size_constant _ _ _ h
example := C06_fitness_is_fresh _ _ _ example_honest h
omit h
example := C07_nan_panics (Individual.trait Int Int) (l := [⟨1, .num 1⟩, ⟨2, .nan⟩]) (by decide) ⟨⟨2, .nan⟩, by simp, rfl⟩
example {best : Individual Int Int} {tr : List (Ev (Individual Int Int))} {w' : Nat}
    (h : run (Individual.trait Int Int) exampleOps ⟨2, 3, 0⟩ (initialMetrics ⟨2, 3, 0⟩) 0 = .ok ((best, tr), w')) :=
  C04_zero_duration_runs_once _ _ _ h rfl (by decide)
end instances

end Ecrs.Ga
