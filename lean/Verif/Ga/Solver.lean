import Verif.Basic

/-!
# Model of the genetic algorithm driver (src/ga.rs) and of individuals (src/ga/individual.rs)
-/

namespace Ecrs.Ga
open Ecrs

/-- Models the trait `IndividualTrait` (src/ga/individual.rs:22-53) as the accessors the driver
uses.  `fitness_mut` is the setter `setFitness`; a read after a write gives the written value and
writing the fitness does not touch the chromosome (true of the shipped `Individual`,
src/ga/individual.rs:93-116).  Simplification: `chromosome_mut` and `From` are modelled with the
operators that use them, and ordering of individuals is the ordering of their fitness values
(src/ga/individual.rs:140-164). -/
structure IndTrait (I C K : Type) where
  chromosome : I → C
  fitness : I → Fl K
  setFitness : I → Fl K → I
  requiresEval : I → Bool
  fitness_set : ∀ i x, fitness (setFitness i x) = x
  chromosome_set : ∀ i x, chromosome (setFitness i x) = chromosome i

/-- Models `struct Individual<T>` (src/ga/individual.rs:65-69). -/
structure Individual (C K : Type) where
  chromosome : C
  fitness : Fl K
  deriving DecidableEq, Repr

/-- Models `impl IndividualTrait for Individual<T>` (src/ga/individual.rs:93-116);
`requires_evaluation` is the default method (lines 50-52), always `true`. -/
def Individual.trait (C K : Type) : IndTrait (Individual C K) C K where
  chromosome := Individual.chromosome
  fitness := Individual.fitness
  setFitness i x := { i with fitness := x }
  requiresEval _ := true
  fitness_set _ _ := rfl
  chromosome_set _ _ := rfl

/-- Models `Ord::cmp` on individuals (src/ga/individual.rs:157-164): compares fitness and panics
(`unimplemented!()`) when `partial_cmp` is `None`. -/
def cmpInd {I C K : Type} [LinearOrder K] (T : IndTrait I C K) (a b : I) : Except Panic Ordering :=
  match Fl.partialCmp (T.fitness a) (T.fitness b) with
  | some o => .ok o
  | none => .error .nanCompare

/-- The fold inside `Iterator::min` (core): keeps the earlier element unless it compares
`Greater`. -/
def minFrom {I C K : Type} [LinearOrder K] (T : IndTrait I C K) : I → List I → Except Panic I
  | b, [] => .ok b
  | b, x :: xs =>
    match cmpInd T b x with
    | .error e => .error e
    | .ok .gt => minFrom T x xs
    | .ok _ => minFrom T b xs

/-- Models `find_best_individual` (src/ga.rs:258-260): `population.iter().min().unwrap()`. -/
def findBest {I C K : Type} [LinearOrder K] (T : IndTrait I C K) : List I → Except Panic I
  | [] => .error .unwrapNone
  | x :: xs => minFrom T x xs

/-- Models `GAParams` (src/ga.rs:146-152); durations are natural numbers of nanoseconds. -/
structure GAParams where
  populationSize : Nat
  generationLimit : Nat
  maxDuration : Nat
  deriving DecidableEq, Repr

/-- Models `Metrics` (src/ga.rs:177-193).  Simplification: only the fields that drive behaviour
(`generation`, `population_size`, `total_dur`) are kept; `start_time` and the per-phase durations
are pure measurements. -/
structure Metrics where
  generation : Nat
  populationSize : Nat
  totalDur : Option Nat
  deriving DecidableEq, Repr

/-- Models `GAConfig` (src/ga.rs:154-174) minus the probe: arbitrary operators acting on an
arbitrary world `W` (their own states, random generators, the clock).  `elapsed` is
`metrics.start_time.unwrap().elapsed()`. `fitnessFn` may modify the individual
(src/ga/operators/fitness.rs:3-5 takes `&mut`). -/
structure Ops (W I K : Type) where
  generate : Nat → M W (List I)
  fitnessFn : I → M W (I × Fl K)
  select : Metrics → List I → M W (List I)
  cross : Metrics → List I → M W (List I)
  mutate : Metrics → I → M W I
  replace : Metrics → List I → List I → M W (List I)
  requiresChildrenFitness : Bool
  elapsed : M W Nat

/-- What happens during a run, in order.  The first eight constructors are the `Probe` callbacks
(src/ga/probe.rs); the last three record what the operators and the stop test were given. -/
inductive Ev (I : Type) where
  | onStart (m : Metrics)
  | onInitialPopulation (m : Metrics) (pop : List I)
  | onNewBest (m : Metrics) (i : I)
  | onIterationStart (m : Metrics)
  | onNewGeneration (m : Metrics) (pop : List I)
  | onBestFit (m : Metrics) (i : I)
  | onIterationEnd (m : Metrics)
  | onEnd (m : Metrics) (pop : List I) (best : I)
  | selectCall (pop : List I)
  | replaceCall (pop children : List I)
  | clockCheck (elapsed : Nat)
  deriving DecidableEq, Repr

/-- Is this event a probe callback? -/
def Ev.isCallback {I : Type} : Ev I → Bool
  | .selectCall _ | .replaceCall _ _ | .clockCheck _ => false
  | _ => true

/-- Local variables of `run` across the loop: `population`, `best_individual_all_time`,
`self.metrics`, and the trace so far. -/
structure St (I : Type) where
  pop : List I
  best : I
  metrics : Metrics
  trace : List (Ev I)

section
variable {W I C K : Type} [LinearOrder K] (T : IndTrait I C K) (ops : Ops W I K) (p : GAParams)

/-- One step of `eval_pop` (src/ga.rs:263-268): individuals that do not require evaluation are
skipped. -/
def evalOne (i : I) : M W I :=
  if T.requiresEval i then do
    let (i', v) ← ops.fitnessFn i
    pure (T.setFitness i' v)
  else pure i

/-- Models `eval_pop` (src/ga.rs:263-268). -/
def evalPop (pop : List I) : M W (List I) := M.forEach (evalOne T ops) pop

/-- Models src/ga.rs:333-335: children are evaluated only on request of the replacement. -/
def evalChildren (children : List I) : M W (List I) :=
  if ops.requiresChildrenFitness then evalPop T ops children else pure children

/-- Models the loop body of `run` (src/ga.rs:304-377) for generation `g`; the Boolean says whether
the loop breaks. -/
def iteration (g : Nat) (s : St I) : M W (St I × Bool) := do
  let d ← ops.elapsed
  let m : Metrics := { s.metrics with generation := g, totalDur := some d }
  let pop ← evalPop T ops s.pop
  let pool ← ops.select m pop
  let crossed ← ops.cross m pool
  let mutated ← M.forEach (ops.mutate m) crossed
  let children ← evalChildren T ops mutated
  let replaced ← ops.replace m pop children
  let m' : Metrics := { m with populationSize := replaced.length }
  M.assert (replaced.length == p.populationSize)
  let pop' ← evalPop T ops replaced
  let b ← M.ofExcept (findBest T pop')
  let improved := Fl.lt (T.fitness b) (T.fitness s.best)
  let best' := if improved then b else s.best
  let d' ← ops.elapsed
  let trace := s.trace ++ [.onIterationStart m, .selectCall pop, .replaceCall pop children,
      .onNewGeneration m' pop', .onBestFit m' b] ++
      (if improved then [.onNewBest m' b] else []) ++ [.onIterationEnd m', .clockCheck d']
  pure ({ pop := pop', best := best', metrics := m', trace := trace }, decide (p.maxDuration ≤ d'))

/-- Models `for generation_no in 1..=limit { .. }` (src/ga.rs:303-378): `n` iterations remain and
the next generation number is `g`. -/
def loop : Nat → Nat → St I → M W (St I)
  | 0, _, s => pure s
  | n + 1, g, s => do
    let (s', stop) ← iteration T ops p g s
    if stop then pure s' else loop n (g + 1) s'

/-- Models lines 278-300 of `run` (src/ga.rs): everything before the loop.  `m0` is the metrics
left by construction or by a previous run. -/
def prologue (m0 : Metrics) : M W (St I) := do
  let pop0 ← ops.generate p.populationSize
  let m1 : Metrics := { m0 with populationSize := pop0.length }
  let pop ← evalPop T ops pop0
  let b ← M.ofExcept (findBest T pop)
  let d ← ops.elapsed
  let m2 : Metrics := { m1 with totalDur := some d }
  pure { pop := pop, best := b, metrics := m2,
         trace := [.onStart m0, .onInitialPopulation m1 pop, .onNewBest m2 b] }

/-- Models `GeneticSolver::run` (src/ga.rs:277-385): the returned individual and the trace of
everything observable. -/
def run (m0 : Metrics) : M W (I × List (Ev I)) := do
  let s ← prologue T ops p m0
  let s' ← loop T ops p p.generationLimit 1 s
  let d ← ops.elapsed
  let m : Metrics := { s'.metrics with totalDur := some d }
  pure (s'.best, s'.trace ++ [.onEnd m s'.pop s'.best])

/-- Models `GeneticSolver::new` (src/ga.rs:246-255): the initial metrics. -/
def initialMetrics : Metrics :=
  { generation := 0, populationSize := p.populationSize, totalDur := none }

end
end Ecrs.Ga
