import Verif.Ga.Solver

/-!
# Model of the time measurements of the genetic algorithm driver (src/ga.rs, src/ga/timer.rs)

`Ga/Solver` leaves out the durations of the phases. Here `run` is modelled again with every reading of the clock. The operators see
the fields of `Metrics` kept in `Ga/Solver` (no shipped operator reads a duration). -/

namespace Ecrs.Ga
open Ecrs

/-- The durations of `Metrics` (src/ga.rs:186-192). -/
structure Phases where
  popGen : Option Nat
  popEval : Option Nat
  selection : Option Nat
  crossover : Option Nat
  mutation : Option Nat
  replacement : Option Nat
  iteration : Option Nat
  deriving DecidableEq, Repr

/-- Models `Metrics::new` (src/ga.rs:196-216): no duration is known. -/
def Phases.unknown : Phases := ⟨none, none, none, none, none, none, none⟩

/-- An event of `Ga/Solver` together with the durations in the metrics at that moment. -/
abbrev TEv (I : Type) := Phases × Ev I

/-- Local variables of `run` across the loop, with the durations in `self.metrics`. -/
structure TSt (I : Type) where
  pop : List I
  best : I
  metrics : Metrics
  phases : Phases
  trace : List (TEv I)

section
variable {W I C K : Type} [LinearOrder K] (T : IndTrait I C K) (ops : Ops W I K) (p : GAParams) (now : M W Nat)

/-- Models `self.timer.start(); …; self.timer.elapsed()` (src/ga/timer.rs:12-21): two readings of the clock; `Instant::elapsed` does not
go below zero. -/
def stopwatch {A : Type} (x : M W A) : M W (A × Nat) := do
  let s ← now
  let a ← x
  let e ← now
  pure (a, e - s)

/-- Models the loop body of `run` (src/ga.rs:304-377) for generation `g` of a run started at `start`. -/
def timedIteration (start g : Nat) (s : TSt I) : M W (TSt I × Bool) := do
  let t ← now
  let m : Metrics := { s.metrics with generation := g, totalDur := some (t - start) }
  let it ← now
  let (pop, dEval) ← stopwatch now (evalPop T ops s.pop)
  let ph1 : Phases := { s.phases with popEval := some dEval }
  let (pool, dSel) ← stopwatch now (ops.select m pop)
  let (crossed, dCross) ← stopwatch now (ops.cross m pool)
  let (mutated, dMut) ← stopwatch now (M.forEach (ops.mutate m) crossed)
  let ph2 : Phases := { ph1 with selection := some dSel, crossover := some dCross, mutation := some dMut }
  let children ← evalChildren T ops mutated
  let (replaced, dRepl) ← stopwatch now (ops.replace m pop children)
  let m' : Metrics := { m with populationSize := replaced.length }
  M.assert (replaced.length == p.populationSize)
  let (pop', dEval') ← stopwatch now (evalPop T ops replaced)
  let ph3 : Phases := { ph2 with replacement := some dRepl, popEval := some dEval' }
  let b ← M.ofExcept (findBest T pop')
  let improved := Fl.lt (T.fitness b) (T.fitness s.best)
  let best' := if improved then b else s.best
  let it' ← now
  let ph4 : Phases := { ph3 with iteration := some (it' - it) }
  let t' ← now
  let trace := s.trace ++ [(s.phases, .onIterationStart m), (ph1, .selectCall pop), (ph2, .replaceCall pop children),
      (ph3, .onNewGeneration m' pop'), (ph3, .onBestFit m' b)] ++
      (if improved then [(ph3, .onNewBest m' b)] else []) ++ [(ph4, .onIterationEnd m'), (ph4, .clockCheck (t' - start))]
  pure ({ pop := pop', best := best', metrics := m', phases := ph4, trace := trace }, decide (p.maxDuration ≤ t' - start))

/-- Models `for generation_no in 1..=limit { .. }` (src/ga.rs:303-378). -/
def timedLoop (start : Nat) : Nat → Nat → TSt I → M W (TSt I)
  | 0, _, s => pure s
  | n + 1, g, s => do
    let (s', stop) ← timedIteration T ops p now start g s
    if stop then pure s' else timedLoop start n (g + 1) s'

/-- Models lines 278-300 of `run` (src/ga.rs) after the reading of the start time; `m0`, `ph0` are the metrics left by construction or
by a previous run. -/
def timedPrologue (start : Nat) (m0 : Metrics) (ph0 : Phases) : M W (TSt I) := do
  let (pop0, dGen) ← stopwatch now (ops.generate p.populationSize)
  let m1 : Metrics := { m0 with populationSize := pop0.length }
  let (pop, dEval) ← stopwatch now (evalPop T ops pop0)
  let ph1 : Phases := { ph0 with popGen := some dGen, popEval := some dEval }
  let b ← M.ofExcept (findBest T pop)
  let t ← now
  let m2 : Metrics := { m1 with totalDur := some (t - start) }
  pure { pop := pop, best := b, metrics := m2, phases := ph1,
         trace := [(ph0, .onStart m0), (ph1, .onInitialPopulation m1 pop), (ph1, .onNewBest m2 b)] }

/-- Models `GeneticSolver::run` (src/ga.rs:277-385) with all readings of the clock. -/
def timedRun (m0 : Metrics) (ph0 : Phases) : M W (I × List (TEv I)) := do
  let start ← now
  let s ← timedPrologue T ops p now start m0 ph0
  let s' ← timedLoop T ops p now start p.generationLimit 1 s
  let t ← now
  let m : Metrics := { s'.metrics with totalDur := some (t - start) }
  pure (s'.best, s'.trace ++ [(s'.phases, .onEnd m s'.pop s'.best)])

end
end Ecrs.Ga
