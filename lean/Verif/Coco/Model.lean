import Verif.Ga.Builder
import Verif.Ga.RealAssemble

/-!
# The benchmark harness (coco/src/main.rs, coco/src/adapter.rs)

The COCO library itself is external: a problem is a record of the calls the harness makes, on a world `W` that holds the state of the
problem, the generators and the clock.
-/

namespace Ecrs.Coco
open Ecrs Ecrs.Ga

variable {W G K : Type} [Field K] [LinearOrder K] [IsStrictOrderedRing K] [FloorSemiring K]

/-- The part of `coco_rs::Problem` (and of `RandomState`) the harness uses. `evaluate` models `evaluate_function` with a one-element output
(coco/src/adapter.rs:25-27), `open` models `suite.next_problem` returning this problem (coco/src/main.rs:59). -/
structure Problem (W K : Type) where
  dimension : Nat
  constraints : Nat
  objectives : Nat
  integers : Nat
  ranges : List (K × K)
  initial : List K
  «open» : M W Unit
  evaluate : List K → M W (Fl K)
  evaluateConstraint : List K → M W Unit
  uniform : M W K
  evaluations : W → Nat
  evaluationsConstraints : W → Nat
  targetHit : W → Bool

/-- Models `CocoFitness::apply` (coco/src/adapter.rs:24-28). -/
def cocoFitness (P : Problem W K) (i : Individual (List K) K) : M W (Individual (List K) K × Fl K) := do
  let v ← P.evaluate i.chromosome
  pure (i, v)

/-- Models the builder chain and `solver.run()` (coco/src/main.rs:103-126), given the constructed operators. `f64` fitness and genes share
the type `K`; `worst` is the fitness of an individual made by `From` (src/ga/individual.rs); `debug` is the kind of build. -/
def gaSolve (R : FRng G K) (S : Slots W G) (worst : Fl K) (elapsed : M W Nat) (debug : Bool) (P : Problem W K) (rp : RandomPoints K) (factor : K) :
    M W Unit :=
  match genericBuild (Mu := Mutation K) (Cr := Crossover K) (Se := K × Nat) (Re := Replacement) (Po := RandomPoints K) (Fi := Unit)
      (Pr := Unit)
      [.setPopulationSize 100, .setMaxGenerationCount 10000, .setMaxDuration (200 * 10 ^ 6), .setFitness (), .setProbe (),
       .setPopulationGenerator rp, .setSelection (factor, 100), .setCrossover .uniform, .setMutation (.reversing (1 / 20)),
       .setReplacement .weakParent] with
  | .error _ => M.fail .assertion
  | .ok c => do
      let _ ← run (Individual.trait (List K) K)
        { realOps R (Individual.trait (List K) K) (Individual.chromOps K worst) S (fun _ => .nan) (fun _ => 0) (1 / 2) 0 c.selection.2
            c.populationFactory (.tournament c.selection.1) c.crossover c.mutation c.replacement debug elapsed with
          fitnessFn := cocoFitness P }
        c.params (initialMetrics c.params)
      pure ()

/-- Models `ecrs_ga_search` (coco/src/main.rs:90-127); the budget is not used. -/
def gaSearch (R : FRng G K) (S : Slots W G) (worst : Fl K) (elapsed : M W Nat) (debug : Bool) (P : Problem W K) (_maxBudget : Nat) : M W Unit := do
  let rp ← S.gen.run (RandomPoints.withConstraints P.dimension P.ranges)
  let factor ← S.sel.run (tournamentNew (1 / 5))
  gaSolve R S worst elapsed debug P rp factor

/-- Models the coordinate loop of `random_search` (coco/src/main.rs:148-155). -/
def randomCoord (round : K → K) (P : Problem W K) (i : Nat) : M W K := do
  let b ← idx P.ranges i
  let u ← P.uniform
  let v := b.1 + u * (b.2 - b.1)
  pure (if i < P.integers then round v else v)

/-- Models one iteration of the outer loop of `random_search` (coco/src/main.rs:147-162). -/
def randomTry (round : K → K) (P : Problem W K) : M W Unit := do
  let x ← M.forEach (randomCoord round P) (List.range P.dimension)
  if 0 < P.constraints then P.evaluateConstraint x else pure ()
  let _ ← P.evaluate x
  pure ()

/-- Models `random_search` (coco/src/main.rs:132-163). -/
def randomSearch (round : K → K) (P : Problem W K) (maxBudget : Nat) : M W Unit := do
  let _ ← P.evaluate P.initial
  let _ ← M.replicate maxBudget (randomTry round P)
  pure ()

/-- Models the restart loop (coco/src/main.rs:77-87) with `n` restarts left, `BUDGET_MULTIPLIER = 10`; returns the number of searches made
(not computed by the code). -/
def restarts (search : Problem W K → Nat → M W Unit) (P : Problem W K) : Nat → M W Nat
  | 0 => pure 0
  | n + 1 => fun w =>
    if P.targetHit w || (P.dimension * 10 - (P.evaluations w + P.evaluationsConstraints w) == 0) then .ok (0, w)
    else (search P (P.dimension * 10 - (P.evaluations w + P.evaluationsConstraints w)) >>= fun _ =>
      restarts search P n >>= fun k => pure (k + 1)) w

/-- Models the body of the `while` loop of `run_experiment` (coco/src/main.rs:59-88) for one problem, `INDEPENDENT_RESTARTS_100K = 10^5`. -/
def runProblem (search : Problem W K → Nat → M W Unit) (P : Problem W K) : M W Nat := do
  P.open
  M.assert (P.constraints == 0)
  M.assert (decide (P.objectives ≤ 1))
  M.assert (P.integers == 0)
  restarts search P (10 ^ 5)

/-- Models `run_experiment` (coco/src/main.rs:48-89) on the problems of the suite. -/
def runExperiment (search : Problem W K → Nat → M W Unit) (problems : List (Problem W K)) : M W (List Nat) :=
  M.forEach (runProblem search) problems

end Ecrs.Coco
