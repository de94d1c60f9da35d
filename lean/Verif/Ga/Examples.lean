import Verif.Ga.Boltzmann
import Verif.Ga.Builder
import Verif.Ga.RealAssemble
import Verif.TestFunctions.Model

/-!
# The example programs of the genetic algorithm (examples/ga*.rs)

Each `main` up to the last `println!`; logging and the probes are left out (they only write), the clock is a parameter, and so is the
place of the generators. Arithmetic is exact.
-/

namespace Ecrs.Ga
open Ecrs

noncomputable section

variable {W G : Type} (R : Rng G ℝ) (S : Slots W G) (worst : Fl ℝ) (elapsed : M W Nat)

/-- The trait implementation the examples use (`RealValueIndividual`, `BitStringIndividual`). -/
abbrev RealInd := Individual (List ℝ) ℝ
/-- See `RealInd`. -/
abbrev BitInd := Individual (List Bool) ℝ

/-- A fitness function built from a library function that may panic. -/
def trapFitness {W : Type} (f : List ℝ → TF.R) (i : RealInd) : M W (RealInd × Fl ℝ) :=
  match f i.chromosome with
  | .ok v => pure (i, .num v)
  | .error _ => M.fail .assertion

/-- Models `wordmax_fitness` (examples/ga_bsc.rs:5-7). -/
def wordmaxFitness (c : List Bool) : Fl ℝ := .num (c.filter (· = true)).length

/-- Models `main` of examples/ga_bsc.rs:9-22; `limit` is the one call that bounds the run (there:
`set_max_duration(10 s)`, in nanoseconds). -/
def gaBscMain (limit : PresetCall (List Bool → Fl ℝ)) : M W (BitInd × List (Ev BitInd)) :=
  match presetBuild true [limit, .setFitness wordmaxFitness, .dim 10, .setPopulationSize 6] with
  | .error _ => M.fail .assertion
  | .ok c => run (Individual.trait (List Bool) ℝ) (bscOps R S worst c.fitness c.dim c.params.populationSize elapsed) c.params
      (initialMetrics c.params)

/-- Models the local `rastrigin` (examples/ga_rvc.rs:9-14). -/
def localRastrigin (c : List ℝ) : ℝ :=
  10 * c.length + c.foldl (fun sum x => sum + x ^ 2 - 10 * Real.cos (2 * Real.pi * x)) 0

/-- Models `main` of examples/ga_rvc.rs:16-28 (fitness function: lines 5-7); `debug` is the kind of build. -/
def gaRvcMain (debug : Bool) : M W (RealInd × List (Ev RealInd)) :=
  match presetBuild debug [.setMaxDuration (10 * 10 ^ 9),
      .setFitness (fun c => Fl.num (1000 * Real.exp (-localRastrigin c))), .dim 5] with
  | .error _ => M.fail .assertion
  | .ok c => run (Individual.trait (List ℝ) ℝ) (rvcOps R S worst c.fitness c.dim c.params.populationSize elapsed) c.params
      (initialMetrics c.params)

/-- Models `main` of examples/ga_ackley_test_function.rs:5-17 (the fitness function given to `rvcOps` is replaced by the one that may
panic). -/
def gaAckleyMain (debug : Bool) : M W (RealInd × List (Ev RealInd)) :=
  match presetBuild debug [.setMaxDuration (5 * 10 ^ 9), .setFitness (fun c => (TF.ackley c).map fun v => -v), .dim 4] with
  | .error _ => M.fail .assertion
  | .ok c => run (Individual.trait (List ℝ) ℝ)
      { rvcOps R S worst (fun _ => .num 0) c.dim c.params.populationSize elapsed with fitnessFn := trapFitness c.fitness } c.params
      (initialMetrics c.params)

/-- A fitness value as an argument of `Boltzmann`. -/
def Fl.ext : Fl ℝ → Ext ℝ
  | .num x => .fin x
  | .nan => .nan

/-- A solver on real vectors with `Boltzmann` selection, as `realOps`. -/
def boltzmannOps (H : HeapOrder) (alpha temp0 : ℝ) (maxGen count : Nat) (f : List ℝ → TF.R) (rp : RandomPoints ℝ) (cr : Crossover ℝ)
    (mu : Mutation ℝ) (re : Replacement) (debug : Bool) : Ops W RealInd ℝ where
  generate n := S.gen.run (rp.generate R (Individual.chromOps ℝ worst) n)
  fitnessFn := trapFitness f
  select m pop := S.sel.run (boltzmannApply R H alpha temp0 maxGen count (fun i => Fl.ext i.fitness) m pop)
  cross _ pool := S.cross.run (cr.apply R (Individual.chromOps ℝ worst) (1 / 2) 0 pool)
  mutate _ i := S.mutate.run (applyMutation (Individual.chromOps ℝ worst) (mu.run R) i)
  replace _ pop children := re.apply (Individual.trait (List ℝ) ℝ) debug pop children
  requiresChildrenFitness := re.requiresChildrenFitness
  elapsed := elapsed

/-- Models the builder chain and the run of examples/ga.rs:19-55 (fitness function: lines 11-14), given the two constructed operators. -/
def gaSolve (H : HeapOrder) (debug : Bool) (rp : RandomPoints ℝ) (at0 : ℝ × ℝ) : M W (RealInd × List (Ev RealInd)) :=
  match genericBuild (Mu := Mutation ℝ) (Cr := Crossover ℝ) (Se := Nat × (ℝ × ℝ) × Nat) (Re := Replacement)
      (Po := RandomPoints ℝ) (Fi := List ℝ → TF.R) (Pr := Unit)
      [.setMaxGenerationCount 50000, .setPopulationSize 100,
       .setFitness (fun c => (TF.rastrigin c).map fun v => 1000 * Real.exp (-v)),
       .setCrossover .singlePoint, .setReplacement .weakParent, .setMutation .identity, .setPopulationGenerator rp,
       .setSelection (100, at0, 500), .setProbe ()] with
  | .error _ => M.fail .assertion
  | .ok c => run (Individual.trait (List ℝ) ℝ)
      (boltzmannOps R S worst elapsed H c.selection.2.1.1 c.selection.2.1.2 c.selection.2.2 c.selection.1 c.fitness
        c.populationFactory c.crossover c.mutation c.replacement debug)
      c.params (initialMetrics c.params)

/-- Models `main` of examples/ga.rs:16-58. -/
def gaMain (H : HeapOrder) (debug : Bool) : M W (RealInd × List (Ev RealInd)) := do
  let rp ← S.gen.run (RandomPoints.withConstraints 3 [(-5.12, 5.12), (-5.12, 5.12), (-5.12, 5.12)])
  let at0 ← S.sel.run (boltzmannNew 5 100 0.05 80)
  gaSolve R S worst elapsed H debug rp at0

end
end Ecrs.Ga
