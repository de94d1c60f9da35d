import Verif.Props.GaSolver
import Verif.Ga.Probe
import Verif.Ga.Replacement
import Verif.Ga.Selection
import Verif.Ga.Crossover
import Verif.CounterRng

/-!
# More about whole GA runs: C72, C109

As in `GaSolver`, `run T ops p m0 w = .ok ((best, tr), w')` reads: `run` returned `Some(best)` and `tr` is everything that
happened, in order; `m0` is the solver's `metrics` field when `run` is called.
-/

set_option linter.unusedSectionVars false

namespace Ecrs.Ga
open Ecrs

/-! ## Specification vocabulary -/

/-- The probe's view of the trace: callback names with the generation number in the metrics passed. -/
def callbackGens {I : Type} (tr : List (Ev I)) : List (Cb × Nat) :=
  tr.filterMap fun
    | .onStart m => some (.start, m.generation)
    | .onInitialPopulation m _ => some (.initial, m.generation)
    | .onNewBest m _ => some (.newBest, m.generation)
    | .onIterationStart m => some (.iterStart, m.generation)
    | .onNewGeneration m _ => some (.newGen, m.generation)
    | .onBestFit m _ => some (.bestFit, m.generation)
    | .onIterationEnd m => some (.iterEnd, m.generation)
    | .onEnd m _ _ => some (.fin, m.generation)
    | _ => none

/-- The callbacks of generation `g`; the flag says whether a new best was announced. -/
def generationBlock (improved : Bool) (g : Nat) : List (Cb × Nat) :=
  [(.iterStart, g), (.newGen, g), (.bestFit, g)] ++ (if improved then [(.newBest, g)] else []) ++ [(.iterEnd, g)]

/-- The metrics in the last callback of a run: the solver's `metrics` field when `run` returns. -/
def finalMetrics {I : Type} (tr : List (Ev I)) : Option Metrics :=
  match tr.getLast? with
  | some (.onEnd m _ _) => some m
  | _ => none

/-- The metrics passed to a callback that comes after the initial population was shown have the elapsed time. -/
def HasTime {I : Type} : Ev I → Prop
  | .onNewBest m _ | .onIterationStart m | .onNewGeneration m _ | .onBestFit m _ | .onIterationEnd m | .onEnd m _ _ =>
    m.totalDur.isSome
  | _ => True

/-- The population size in the metrics passed along with a population is that population's. -/
def HasSize {I : Type} : Ev I → Prop
  | .onInitialPopulation m pop | .onNewGeneration m pop | .onEnd m pop _ => m.populationSize = pop.length
  | _ => True

section
variable {W I C K : Type} [LinearOrder K] (T : IndTrait I C K) (ops : Ops W I K) (p : GAParams)

/-! ## C109, C72: the metrics shown to the probe -/

private structure GenInv (m0 : Metrics) (g : Nat) (s : St I) : Prop where
  gens : ∃ flags : List Bool, flags.length + 1 = g ∧
    callbackGens s.trace = [(.start, m0.generation), (.initial, m0.generation), (.newBest, m0.generation)] ++
      flags.zipIdx.flatMap fun x => generationBlock x.1 (x.2 + 1)
  gen : s.metrics.generation = if g = 1 then m0.generation else g - 1
  time : ∀ e ∈ s.trace, HasTime e
  size : ∀ e ∈ s.trace, HasSize e
  len : s.metrics.populationSize = s.pop.length

private theorem genInv_prologue {m0 : Metrics} {s : St I} {w w' : W}
    (h : prologue T ops p m0 w = .ok (s, w')) : GenInv m0 1 s := by
  obtain ⟨pop0, wa, wb, d, h1, h2, h3, h4, h5, h6⟩ := prologue_ok T ops p h
  have hl := evalPop_length T ops h2
  refine ⟨⟨[], rfl, ?_⟩, by rw [h5]; rfl, ?_, ?_, by rw [h5]; exact hl.symm⟩
  · rw [h6]; rfl
  · rw [h6]; intro e he; simp at he
    rcases he with rfl | rfl | rfl <;> simp [HasTime]
  · rw [h6]; intro e he; simp at he
    rcases he with rfl | rfl | rfl <;> simp [HasSize, hl]

private theorem genInv_step {m0 : Metrics} {g : Nat} {s s' : St I} {stop : Bool} {w w' : W} (hi : GenInv m0 g s)
    (h : iteration T ops p g s w = .ok ((s', stop), w')) : GenInv m0 (g + 1) s' := by
  obtain ⟨d, wa, m, pop, wb, pool, wc, crossed, wd, mutated, we, children, wf, replaced, wg, m', wh, b, d',
    wi, -, hm, e1, e2, e3, e4, e5, e6, hm', -, e7, hb, -, hbest, hmet, -, htr⟩ := iteration_ok T ops p h
  obtain ⟨⟨flags, hf, hg⟩, -, ht, hs, -⟩ := hi
  have hl := evalPop_length T ops e7
  have hgm : m.generation = g := by rw [hm]
  have hgm' : m'.generation = g := by rw [hm', hgm]
  have htm : m.totalDur.isSome := by rw [hm]; rfl
  have htm' : m'.totalDur.isSome := by rw [hm']; exact htm
  have hsm' : m'.populationSize = s'.pop.length := by rw [hm', hl]
  have hg1 : g + 1 ≠ 1 := by omega
  refine ⟨⟨flags ++ [Fl.lt (T.fitness b) (T.fitness s.best)], by simp; omega, ?_⟩,
    by rw [hmet, if_neg hg1]; exact hgm', ?_, ?_, by rw [hmet]; exact hsm'⟩
  · rw [htr]
    simp only [callbackGens, List.filterMap_append] at hg ⊢
    rw [hg, List.zipIdx_append, List.flatMap_append]
    have hg' : flags.length + 1 = g := hf
    cases Fl.lt (T.fitness b) (T.fitness s.best) <;>
      simp [generationBlock, hgm, hgm', hg', List.zipIdx_cons]
  · rw [htr]
    intro e he
    simp only [List.mem_append, List.mem_cons, List.not_mem_nil, or_false] at he
    rcases he with ((he | rfl | rfl | rfl | rfl | rfl) | he) | rfl | rfl
    · exact ht e he
    · exact htm
    · trivial
    · trivial
    · exact htm'
    · exact htm'
    · split at he
      · simp at he; subst he; exact htm'
      · simp at he
    · exact htm'
    · trivial
  · rw [htr]
    intro e he
    simp only [List.mem_append, List.mem_cons, List.not_mem_nil, or_false] at he
    rcases he with ((he | rfl | rfl | rfl | rfl | rfl) | he) | rfl | rfl
    · exact hs e he
    · trivial
    · trivial
    · trivial
    · exact hsm'
    · trivial
    · split at he
      · simp at he; subst he; trivial
      · simp at he
    · trivial
    · trivial

private theorem genInv_run {m0 : Metrics} {best : I} {tr : List (Ev I)} {w w' : W}
    (h : run T ops p m0 w = .ok ((best, tr), w')) : ∃ k s d, k ≤ p.generationLimit ∧ GenInv m0 (1 + k) s ∧
      best = s.best ∧ tr = s.trace ++ [.onEnd { s.metrics with totalDur := some d } s.pop s.best] := by
  obtain ⟨s, wa, s', wb, d, h1, h2, h3, h4, h5⟩ := run_ok T ops p h
  obtain ⟨k, hk, hi⟩ := loop_inv T ops p (Inv := GenInv m0)
    (fun g s w s' stop w' hi h => genInv_step T ops p hi h) _ _ _ _ _ _ (genInv_prologue T ops p h1) h2
  exact ⟨k, s', d, hk, hi, h4, h5⟩

/-- **C109.** The generation numbers shown to the probe: before the first generation the number `m0.generation` the solver
already had (`0` for a new solver), during the `i`-th generation the number `i` in every callback, and at the end the number
of generations performed (if there were any). -/
theorem C109_generation_numbers {m0 : Metrics} {best : I} {tr : List (Ev I)} {w w' : W}
    (h : run T ops p m0 w = .ok ((best, tr), w')) :
    ∃ flags : List Bool, flags.length ≤ p.generationLimit ∧
      callbackGens tr = [(.start, m0.generation), (.initial, m0.generation), (.newBest, m0.generation)] ++
        flags.zipIdx.flatMap (fun x =>
          [(.iterStart, x.2 + 1), (.newGen, x.2 + 1), (.bestFit, x.2 + 1)] ++
          (if x.1 then [(.newBest, x.2 + 1)] else []) ++ [(.iterEnd, x.2 + 1)]) ++
        [(.fin, if flags = [] then m0.generation else flags.length)] := by
  obtain ⟨k, s, d, hk, ⟨⟨flags, hf, hg⟩, hgen, -⟩, -, htr⟩ := genInv_run T ops p h
  refine ⟨flags, by omega, ?_⟩
  rw [htr]
  simp only [callbackGens, List.filterMap_append] at hg ⊢
  rw [hg]
  have e : s.metrics.generation = if flags = [] then m0.generation else flags.length := by
    rw [hgen]
    cases flags with
    | nil => simp at hf; subst hf; simp
    | cons a l =>
      simp only [List.length_cons] at hf
      rw [if_neg (by omega), if_neg (by simp)]
      simp; omega
  simp only [generationBlock, List.filterMap_cons, List.filterMap_nil, e]

/-- **C109, elapsed time and size.** Every callback after the initial population was shown carries the elapsed time, and
whenever a population is shown the metrics carry its size. -/
theorem C109_time_and_size {m0 : Metrics} {best : I} {tr : List (Ev I)} {w w' : W}
    (h : run T ops p m0 w = .ok ((best, tr), w')) : ∀ e ∈ tr, HasTime e ∧ HasSize e := by
  obtain ⟨k, s, d, hk, hi, -, htr⟩ := genInv_run T ops p h
  rw [htr]
  intro e he
  rw [List.mem_append, List.mem_singleton] at he
  rcases he with he | rfl
  · exact ⟨hi.time e he, hi.size e he⟩
  · exact ⟨rfl, hi.len⟩

/-- **C72, first run.** A new solver reports generation `0` until the first generation starts. -/
theorem C72_first_run_starts_at_zero {best : I} {tr : List (Ev I)} {w w' : W}
    (h : run T ops p (initialMetrics p) w = .ok ((best, tr), w')) :
    (callbackGens tr).take 3 = [(.start, 0), (.initial, 0), (.newBest, 0)] := by
  obtain ⟨flags, -, hg⟩ := C109_generation_numbers T ops p h
  rw [hg]; rfl

/-- **C72, defect.** When `run` is called again, the three callbacks before the first generation report the last generation
number of the previous run (at least `1` unless the generation limit is `0`) instead of `0`, and `on_start` and
`on_initial_population_created` report its duration. -/
theorem C72_second_run_is_stale {m0 : Metrics} {best best2 : I} {tr tr2 : List (Ev I)} {w w' w2 : W} {m : Metrics}
    (h : run T ops p m0 w = .ok ((best, tr), w')) (hm : finalMetrics tr = some m) (hl : 1 ≤ p.generationLimit)
    (h2 : run T ops p m w' = .ok ((best2, tr2), w2)) :
    ∃ k, iterationNumbers tr = List.range' 1 k ∧ 1 ≤ k ∧
      (callbackGens tr2).take 3 = [(.start, k), (.initial, k), (.newBest, k)] ∧
      ∃ d, m.totalDur = some d ∧ tr2.head? = some (.onStart m) := by
  obtain ⟨k, hk, hnum, -, -, -, hk1⟩ := C04_iteration_budget T ops p h
  obtain ⟨flags, -, hg⟩ := C109_generation_numbers T ops p h
  obtain ⟨j, s, d, hj, hi, -, htr⟩ := genInv_run T ops p h
  have hm' : m = { s.metrics with totalDur := some d } := by
    rw [htr] at hm
    simp [finalMetrics] at hm
    exact hm.symm
  have hjk : j = k := by
    obtain ⟨fl, hf, hg'⟩ := hi.gens
    have hn : iterationNumbers tr = (callbackGens tr).filterMap fun x => if x.1 = .iterStart then some x.2 else none := by
      unfold iterationNumbers callbackGens
      rw [List.filterMap_filterMap]
      congr 1
      funext e
      cases e <;> rfl
    have hc : callbackGens tr = callbackGens s.trace ++ [(.fin, s.metrics.generation)] := by
      rw [htr]; simp [callbackGens]
    rw [hc, hg'] at hn
    have hlen : ∀ (l : List Bool) (a : Nat),
        ((l.zipIdx a).flatMap fun x => generationBlock x.1 (x.2 + 1)).filterMap
          (fun x : Cb × Nat => if x.1 = .iterStart then some x.2 else none) = List.range' (a + 1) l.length := by
      intro l
      induction l with
      | nil => intro a; rfl
      | cons b l ih =>
        intro a
        rw [List.zipIdx_cons, List.flatMap_cons, List.filterMap_append, ih, List.length_cons, List.range'_succ]
        cases b <;> simp [generationBlock]
    rw [List.filterMap_append, List.filterMap_append, hlen fl 0, hnum] at hn
    have := congrArg List.length hn
    simp at this
    omega
  subst hjk
  have hgen : m.generation = j := by
    rw [hm']; show s.metrics.generation = j
    rw [hi.gen, if_neg (by have := hk1 hl; omega)]; omega
  refine ⟨j, hnum, hk1 hl, ?_, d, by rw [hm'], ?_⟩
  · obtain ⟨flags2, -, hg2⟩ := C109_generation_numbers T ops p h2
    rw [hg2, hgen]; rfl
  · obtain ⟨s2, wa, s2', wb, d2, h21, h22, -, -, htr2⟩ := run_ok T ops p h2
    obtain ⟨_, _, _, _, _, _, _, _, _, h6⟩ := prologue_ok T ops p h21
    have hpre : ∀ (n g : Nat) (s s' : St I) (w w' : W), s.trace.head? = some (.onStart m) →
        loop T ops p n g s w = .ok (s', w') → s'.trace.head? = some (.onStart m) := by
      intro n g s s' w w' hs hl
      obtain ⟨_, _, hinv⟩ := loop_inv T ops p (Inv := fun _ s => s.trace.head? = some (.onStart m))
        (fun g s w s' stop w' hs h => by
          obtain ⟨_, _, _, _, _, _, _, _, _, _, _, _, _, _, _, _, _, _, _, _, _, _, _, _, _, _, _, _, _, _, _, _, _, _, _,
            _, ht⟩ := iteration_ok T ops p h
          rw [ht]
          cases hst : s.trace with
          | nil => rw [hst] at hs; cases hs
          | cons a l => rw [hst] at hs; simpa using hs) n g s w s' w' hs hl
      exact hinv
    have := hpre _ _ _ _ _ _ (by rw [h6]; rfl) h22
    rw [htr2]
    cases hst : s2'.trace with
    | nil => rw [hst] at this; cases this
    | cons a l => rw [hst] at this; simpa using this

/-- A generation reads the old metrics only for the population size, and only appends to the trace. -/
private theorem iteration_shift (g : Nat) (pop : List I) (best : I) (m m' : Metrics) (tr : List (Ev I))
    (hm : m.populationSize = m'.populationSize) :
    iteration T ops p g ⟨pop, best, m, tr⟩ =
      (iteration T ops p g ⟨pop, best, m', []⟩ >>= fun r => pure ({ r.1 with trace := tr ++ r.1.trace }, r.2)) := by
  unfold iteration
  simp only [bind_assoc, pure_bind, List.append_assoc, List.nil_append, hm]

private theorem loop_shift : ∀ (n g : Nat) (pop : List I) (best : I) (m m' : Metrics) (tr tr' : List (Ev I)),
    m.populationSize = m'.populationSize → ∀ (w : W) (s : St I) (w' : W),
    loop T ops p n g ⟨pop, best, m, tr⟩ w = .ok (s, w') →
    ∃ s', loop T ops p n g ⟨pop, best, m', tr'⟩ w = .ok (s', w') ∧ s'.pop = s.pop ∧ s'.best = s.best ∧
      (1 ≤ n → s'.metrics = s.metrics) ∧ ∃ t, s.trace = tr ++ t ∧ s'.trace = tr' ++ t
  | 0, g, pop, best, m, m', tr, tr', hm, w, s, w', h => by
    simp [loop] at h
    obtain ⟨rfl, rfl⟩ := h
    exact ⟨_, rfl, rfl, rfl, fun h => absurd h (by omega), [], by simp, by simp⟩
  | n + 1, g, pop, best, m, m', tr, tr', hm, w, s, w', h => by
    unfold loop at h ⊢
    rw [iteration_shift T ops p g pop best m m' tr hm] at h
    rw [iteration_shift T ops p g pop best m' m' tr' rfl]
    obtain ⟨⟨s1, stop⟩, w1, h1, h2⟩ := M.bind_ok_iff.1 h
    obtain ⟨⟨s0, stop0⟩, w0, h0, h3⟩ := M.bind_ok_iff.1 h1
    have h3 := M.pure_ok_iff.1 h3
    simp only [Prod.mk.injEq] at h3
    obtain ⟨⟨rfl, rfl⟩, rfl⟩ := h3
    have e : ((iteration T ops p g ⟨pop, best, m', []⟩ >>= fun r =>
        pure ({ r.1 with trace := tr' ++ r.1.trace }, r.2)) w) = .ok (({ s0 with trace := tr' ++ s0.trace }, stop), w1) := by
      rw [M.bind_of_ok h0]; rfl
    rw [M.bind_of_ok e]
    simp only at h2 ⊢
    cases stop with
    | true =>
      simp at h2
      obtain ⟨rfl, rfl⟩ := h2
      exact ⟨_, rfl, rfl, rfl, fun _ => rfl, s0.trace, rfl, rfl⟩
    | false =>
      simp at h2 ⊢
      obtain ⟨s', hs', e1, e2, e3, t, et, et'⟩ := loop_shift n (g + 1) s0.pop s0.best s0.metrics s0.metrics (tr ++ s0.trace)
        (tr' ++ s0.trace) rfl w1 s w' h2
      refine ⟨s', hs', e1, e2, ?_, s0.trace ++ t, by rw [et, List.append_assoc], by rw [et', List.append_assoc]⟩
      cases n with
      | zero =>
        simp [loop] at h2 hs'
        obtain ⟨rfl, -⟩ := h2
        obtain ⟨rfl, -⟩ := hs'
        rfl
      | succ k => exact e3 (by omega)

/-- **C72, what a second run keeps.** The metrics left by an earlier run have no other effect: from the same world every
solver returns the same individual, and (if at least one generation is allowed) all callbacks and operator calls from the
first generation on are the same. -/
theorem C72_rerun_is_a_fresh_run {m0 : Metrics} {best : I} {tr : List (Ev I)} {w w' : W}
    (h : run T ops p m0 w = .ok ((best, tr), w')) (m1 : Metrics) :
    ∃ tr1, run T ops p m1 w = .ok ((best, tr1), w') ∧ (1 ≤ p.generationLimit → tr1.drop 3 = tr.drop 3) := by
  obtain ⟨s, wa, s', wb, d, h1, h2, h3, h4, h5⟩ := run_ok T ops p h
  obtain ⟨pop0, wc, wd, d0, g1, g2, g3, g4, g5, g6⟩ := prologue_ok T ops p h1
  obtain ⟨pop, b, m, tr0⟩ := s
  simp only at g2 g3 g5 g6
  have hp : prologue T ops p m1 w = .ok (⟨pop, b, { m1 with populationSize := pop0.length, totalDur := some d0 },
      [.onStart m1, .onInitialPopulation { m1 with populationSize := pop0.length } pop,
        .onNewBest { m1 with populationSize := pop0.length, totalDur := some d0 } b]⟩, wa) := by
    unfold prologue
    rw [M.bind_of_ok g1, M.bind_of_ok g2]
    rw [M.bind_of_ok (show M.ofExcept (findBest T pop) wd = .ok (b, wd) from M.ofExcept_ok_iff.2 ⟨g3, rfl⟩), M.bind_of_ok g4]
    rfl
  obtain ⟨s1, hs1, e1, e2, e3, t, et, et'⟩ := loop_shift T ops p p.generationLimit 1 pop b m
    { m1 with populationSize := pop0.length, totalDur := some d0 } tr0
    [.onStart m1, .onInitialPopulation { m1 with populationSize := pop0.length } pop,
        .onNewBest { m1 with populationSize := pop0.length, totalDur := some d0 } b] (by rw [g5]) wa s' wb h2
  refine ⟨s1.trace ++ [.onEnd { s1.metrics with totalDur := some d } s1.pop s1.best], ?_, fun hl => ?_⟩
  · unfold run
    rw [M.bind_of_ok hp, M.bind_of_ok hs1, M.bind_of_ok h3, h4, e2]
    rfl
  · rw [et', h5, et, e1, e2, e3 hl, g6]
    simp

end

/-- The hypotheses of C72 and C109 are met: two consecutive runs of the example GA. -/
example : ∃ best tr w' m best2 tr2 w2, run (Individual.trait Int Int) exampleOps ⟨2, 3, 100⟩ (initialMetrics ⟨2, 3, 100⟩) 0
      = .ok ((best, tr), w') ∧ finalMetrics tr = some m ∧
      run (Individual.trait Int Int) exampleOps ⟨2, 3, 100⟩ m w' = .ok ((best2, tr2), w2) ∧
      (callbackGens tr2).take 4 = [(.start, 3), (.initial, 3), (.newBest, 3), (.iterStart, 1)] :=
  ⟨_, _, _, _, _, _, _, rfl, rfl, rfl, by decide⟩

/-! ## Every theorem on a concrete case: the runs of the example above -/

section instances
variable {best best2 : Individual Int Int} {tr tr2 : List (Ev (Individual Int Int))} {w' w2 : Nat} {m : Metrics}
  (h : run (Individual.trait Int Int) exampleOps ⟨2, 3, 100⟩ (initialMetrics ⟨2, 3, 100⟩) 0 = .ok ((best, tr), w'))
include h
example := C72_first_run_starts_at_zero _ _ _ h
example := C72_rerun_is_a_fresh_run _ _ _ h ⟨7, 2, some 5⟩
example (hm : finalMetrics tr = some m) (h2 : run (Individual.trait Int Int) exampleOps ⟨2, 3, 100⟩ m w' = .ok ((best2, tr2), w2)) :=
  C72_second_run_is_stale _ _ _ h hm (by decide) h2
end instances

end Ecrs.Ga
