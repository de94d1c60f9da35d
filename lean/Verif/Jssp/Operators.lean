import Verif.Jssp.Evaluate
import Verif.Ga.Selection
import Verif.Ga.Population

/-!
# Model of the operators of the job shop example and of its two solvers (examples/jssp)
-/

namespace Ecrs.Jssp
open Ecrs

/-- A `JsspIndividual` together with what the driver reads as its fitness.  The driver model works with values that may be
NaN, the field `fitness` is a `usize`; `fit` is that field as the driver sees it (every run keeps `fit = .num ind.fitness`, see
`Shown` in Props/JsspRun). -/
structure Indiv (X : Type) where
  ind : Individual X
  fit : Fl Nat

/-- Models `impl IndividualTrait for JsspIndividual` (examples/jssp/problem/individual.rs:70-98): evaluation is required unless
`is_fitness_valid`. -/
def Indiv.trait (X : Type) : Ga.IndTrait (Indiv X) (List X) Nat where
  chromosome i := i.ind.chromosome
  fitness := Indiv.fit
  setFitness i x := ⟨match x with | .num n => { i.ind with fitness := n } | .nan => i.ind, x⟩
  requiresEval i := !i.ind.isFitnessValid
  fitness_set _ _ := rfl
  chromosome_set i x := by cases x <;> rfl

/-- `clone()` of a parent with another chromosome, marked as not evaluated (examples/jssp/problem/crossover.rs:45-50). -/
def Indiv.child {X : Type} (parent : Indiv X) (ch : List X) : Indiv X :=
  { parent with ind := { parent.ind with chromosome := ch, isFitnessValid := false } }

section
variable {G X : Type} [Field X] [LinearOrder X] (R : Rng G X)

/-- Models `JsspCrossover::apply_single` (examples/jssp/problem/crossover.rs:21-53); `keep` is the literal `0.6`. -/
def crossSingle (keep : X) (a b : Indiv X) : M G (Indiv X × Indiv X) := do
  let vals ← M.replicate a.ind.chromosome.length R.genUnit
  let s ← Ga.maskLoci a.ind.chromosome b.ind.chromosome 0 (vals.map fun v => decide (v ≤ keep))
  pure (a.child (s.map Prod.fst), b.child (s.map Prod.snd))

/-- Models `JsspCrossover::apply` (crossover.rs:56-70). -/
def cross (keep : X) (selected : List (Indiv X)) : M G (List (Indiv X)) := Ga.applyPairs (crossSingle R keep) selected

/-- Models `NoopCrossover::apply` (crossover.rs:72-102): clones of the parents. -/
def noopCross (selected : List (Indiv X)) : M G (List (Indiv X)) := Ga.applyPairs (fun a b => pure (a, b)) selected

/-- Models `EmptySelection::apply` (examples/jssp/problem/selection.rs:13-21). -/
def emptySelection (_pop : List (Indiv X)) : M G (List (Indiv X)) := pure []

/-- Models `JsspPopProvider::generate` (examples/jssp/problem/population.rs:60-75); `worst` is `usize::MAX`. -/
def generate (ops : List Operation) (nM worst count : Nat) : M G (List (Indiv X)) := do
  let pts ← Ga.generateWithSingleConstraint R (2 * (ops.length - 2)) count (0, 1)
  pure (pts.map fun ch => ⟨freshIndividual ops nM worst ch, .num worst⟩)

end

section
variable {G I : Type}

/-- `std::mem::swap(&mut population[i], &mut children[i - elite_size])` (examples/jssp/problem/replacement.rs:50-52). -/
def swapStep (elite : Nat) (st : List I × List I) (i : Nat) : M G (List I × List I) := do
  let a ← Ga.idx st.1 i
  let b ← Ga.idx st.2 (i - elite)
  let p ← Ga.setIdx st.1 i b
  let c ← Ga.setIdx st.2 (i - elite) a
  pure (p, c)

/-- Models `population.splice((elite + crossover)..len, generate(sample))` (replacement.rs:54-59), skipped for `sample = 0`. -/
def spliceSamples (gen : Nat → M G (List I)) (keep sample : Nat) (pop : List I) : M G (List I) :=
  if 0 < sample then do
    let new ← gen sample
    pure (pop.take keep ++ new)
  else pure pop

/-- Models `JsspReplacement::apply` (replacement.rs:24-62).  `elite` and `sample` are
`(rate * population.len() as f64) as usize`; `key` is the `usize` fitness by which `Ord` compares (individual.rs:63-67).  The
subtraction underflows (a panic in debug builds; in release builds the assertion that follows fails). -/
def replace (key : I → Nat) (gen : Nat → M G (List I)) (elite sample : Nat → Nat) (pop children : List I) : M G (List I) := do
  M.assert (decide (elite pop.length + sample pop.length ≤ pop.length)) .underflow
  let crossover := pop.length - elite pop.length - sample pop.length
  M.assert (decide (crossover < pop.length))
  let sorted := if 0 < elite pop.length then pop.mergeSort (fun a b => decide (key a ≤ key b)) else pop
  let st ← M.fold (swapStep (elite pop.length)) (sorted, children) (List.range' (elite pop.length) crossover)
  spliceSamples gen (elite pop.length + crossover) (sample pop.length) st.1

/-- Models `ReplaceWithRandomPopulation::apply` (replacement.rs:79-88). -/
def replaceWithRandom (gen : Nat → M G (List I)) (pop _children : List I) : M G (List I) := gen pop.length

end

section
variable {G X : Type} [Field X] [LinearOrder X] (R : Rng G X) (E : EvalOps X)

open Classical in
/-- `JsspFitness::apply` (examples/jssp/problem/fitness.rs:378-383) without bound on the number of loop iterations: the result
that `evaluate` has for all sufficiently large fuel. -/
noncomputable def fitnessFn (i : Indiv X) : M G (Indiv X × Fl Nat) := fun g =>
  if h : ∃ p : Individual X × Nat, Evaluates E i.ind p.1 p.2 then
    .ok ((⟨h.choose.1, .num h.choose.1.fitness⟩, .num h.choose.2), g)
  else .error .outOfFuel

/-- Models the solver configured by `run_jssp_solver` (examples/jssp/main.rs:83-128): Rank selection of as many parents as there are
individuals, JsspCrossover, no mutation, JsspReplacement. -/
noncomputable def solverOps (keep : X) (ops : List Operation) (nM worst popSize : Nat) (elite sample : Nat → Nat)
    (elapsed : M G Nat) : Ga.Ops G (Indiv X) Nat where
  generate := generate R ops nM worst
  fitnessFn := fitnessFn E
  select _ pop := Ga.selRank R (Indiv.trait X) popSize pop
  cross _ pool := cross R keep pool
  mutate _ i := pure i
  replace _ pop children := replace (fun i => i.ind.fitness) (generate R ops nM worst) elite sample pop children
  requiresChildrenFitness := false
  elapsed := elapsed

/-- Models the solver configured by `run_randomsearch` (examples/jssp/main.rs:35-81). -/
noncomputable def randomSearchOps (ops : List Operation) (nM worst : Nat) (elapsed : M G Nat) : Ga.Ops G (Indiv X) Nat where
  generate := generate R ops nM worst
  fitnessFn := fitnessFn E
  select _ pop := emptySelection pop
  cross _ pool := noopCross pool
  mutate _ i := pure i
  replace _ pop children := replaceWithRandom (generate R ops nM worst) pop children
  requiresChildrenFitness := false
  elapsed := elapsed

end
end Ecrs.Jssp
