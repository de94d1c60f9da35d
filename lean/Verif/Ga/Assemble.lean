import Verif.Ga.Selection
import Verif.Ga.Mutation
import Verif.Ga.Replacement
import Verif.Ga.Population

/-!
# Assembling a solver configuration from shipped operators

Each operator owns its random number generator (fields `rng` of the operator structs); with `ThreadRng` they
all share one.  `Slot` says where in the world an operator's generator lives; two slots may coincide.
-/

namespace Ecrs.Ga
open Ecrs

/-- The place of an operator's generator state `G` in the world `W`. -/
structure Slot (W G : Type) where
  get : W → G
  put : G → W → W

/-- Run an operator on its own generator. -/
def Slot.run {W G α : Type} (s : Slot W G) (m : M G α) : M W α := fun w =>
  match m (s.get w) with
  | .error e => .error e
  | .ok (a, g) => .ok (a, s.put g w)

/-- Where the four random operators keep their generators. -/
structure Slots (W G : Type) where
  gen : Slot W G
  sel : Slot W G
  cross : Slot W G
  mutate : Slot W G

/-- Models `FnBasedFitness::apply` (src/ga/operators/fitness.rs:17-21). -/
def fnFitness {W I C K : Type} (T : IndTrait I C K) (f : C → Fl K) (i : I) : M W (I × Fl K) :=
  pure (i, f (T.chromosome i))

section
variable {G K I C F : Type} [Field K] [LinearOrder K] [IsStrictOrderedRing K] [FloorSemiring K] [LinearOrder F]

/-- The eight shipped selection operators with their parameters; `weight` stands for the Boltzmann weight
(transcendental; it depends on the generation number). -/
inductive Selection (K I : Type)
  | roulette
  | random
  | uniqueRandom
  | rank
  | rankR (r : K)
  | tournament (factor : K)
  | sus
  | boltzmann (weight : Metrics → I → K)

/-- `SelectionOperator::apply` of each of them.  `count` is the constant selection size (a `usize` value
provider, src/ga/value_provider/flat.rs:19-23), `fit` the fitness as a number, `fuel` bounds the unbounded
loop of StochasticUniversalSampling. -/
def Selection.apply (R : FRng G K) (T : IndTrait I C F) (fit : I → K) (fuel count : Nat) :
    Selection K I → Metrics → List I → M G (List I)
  | .roulette, _, pop => selRoulette R.toRng fit count pop
  | .random, _, pop => selRandom R.toRng count pop
  | .uniqueRandom, _, pop => selUniqueRandom R.toRng count pop
  | .rank, _, pop => selRank R.toRng T count pop
  | .rankR r, _, pop => selRankR R.toRng r count pop
  | .tournament factor, _, pop => selTournament R.toRng T factor count pop
  | .sus, _, pop => selSus R fit fuel count pop
  | .boltzmann weight, m, pop => selBoltzmann R (weight m) count pop

/-- A solver configuration for permutation problems made of shipped operators: RandomPermutations, a shipped
selection, crossover, mutation and replacement and a plain fitness function. -/
def permOps {W A : Type} [DecidableEq A] (R : FRng G K) (T : IndTrait I C F) (X : ChromOps I A)
    (S : Slots W G) (f : C → Fl F) (fit : I → K) (half : K) (fuel count : Nat) (genes : List A)
    (sel : Selection K I) (cr : Crossover K) (mu : Mutation K) (re : Replacement) (debug : Bool)
    (elapsed : M W Nat) : Ops W I F where
  generate n := S.gen.run (permutationsGenerate R.toRng X genes n)
  fitnessFn := fnFitness T f
  select m pop := S.sel.run (sel.apply R T fit fuel count m pop)
  cross _ pool := S.cross.run (cr.apply R.toRng X half fuel pool)
  mutate _ i := S.mutate.run (applyMutation X (mu.run R.toRng) i)
  replace _ pop children := re.apply T debug pop children
  requiresChildrenFitness := re.requiresChildrenFitness
  elapsed := elapsed

/-- The operators installed by `RealValuedBuilder::build` (src/ga/builder/realvalued.rs:144-159): RandomPoints
in the unit cube, SinglePoint, Interchange 0.05, Tournament 0.2 selecting `n` individuals, BothParents. -/
def rvcOps {W : Type} (R : Rng G K) (S : Slots W G) (worst : Fl F) (f : List K → Fl F) (dim n : Nat)
    (elapsed : M W Nat) : Ops W (Individual (List K) F) F where
  generate k := S.gen.run (RandomPoints.generate R (Individual.chromOps K worst)
    ⟨dim, List.replicate dim (0, 1)⟩ k)
  fitnessFn := fnFitness (Individual.trait (List K) F) f
  select _ pop := S.sel.run (selTournament R (Individual.trait (List K) F) (1 / 5) n pop)
  cross _ pool := S.cross.run (applyPairs (liftSingle (Individual.chromOps K worst) (singlePoint R)) pool)
  mutate _ i := S.mutate.run (applyMutation (Individual.chromOps K worst) (interchange R (1 / 20)) i)
  replace _ pop children := bothParents pop children
  requiresChildrenFitness := false
  elapsed := elapsed

/-- The operators installed by `BitStringBuilder::build` (src/ga/builder/bitstring.rs:145-160): BitStrings,
SinglePoint, FlipBit 0.05, Tournament 0.2 selecting `n` individuals, BothParents. -/
def bscOps {W : Type} (R : Rng G K) (S : Slots W G) (worst : Fl F) (f : List Bool → Fl F) (dim n : Nat)
    (elapsed : M W Nat) : Ops W (Individual (List Bool) F) F where
  generate k := S.gen.run (bitStringsGenerate R (Individual.chromOps Bool worst) dim k)
  fitnessFn := fnFitness (Individual.trait (List Bool) F) f
  select _ pop := S.sel.run (selTournament R (Individual.trait (List Bool) F) (1 / 5) n pop)
  cross _ pool := S.cross.run (applyPairs (liftSingle (Individual.chromOps Bool worst) (singlePoint R)) pool)
  mutate _ i := S.mutate.run (applyMutation (Individual.chromOps Bool worst) (flipBit R (1 / 20)) i)
  replace _ pop children := bothParents pop children
  requiresChildrenFitness := false
  elapsed := elapsed

end
end Ecrs.Ga
