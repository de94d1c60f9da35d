import Verif.Ga.Crossover
import Verif.FRng

/-!
# Model of the population generators (src/ga/population/impls.rs, src/ga/population/tools.rs)

Exact arithmetic over an ordered field stands for `f64` in RandomPoints (simplification: no rounding).
-/

namespace Ecrs.Ga
open Ecrs

section points
variable {G K I : Type} [Field K] [LinearOrder K] (R : Rng G K)

/-- One coordinate of `PointGenerator::generate_with_constraints` (tools.rs:56). -/
def pointCoord (c : K × K) : M G K := do
  let u ← R.genUnit
  pure ((c.2 - c.1) * u + c.1)

/-- Models `PointGenerator::generate_with_constraints` (tools.rs:45-59); a constraint is `(start, end)`. -/
def generateWithConstraints (dim n : Nat) (constraints : List (K × K)) : M G (List (List K)) := do
  M.assert (dim == constraints.length)
  M.replicate n (M.forEach (pointCoord R) constraints)

/-- Models `PointGenerator::generate_with_single_constraint` (tools.rs:33-40). -/
def generateWithSingleConstraint (dim n : Nat) (c : K × K) : M G (List (List K)) :=
  generateWithConstraints R dim n (List.replicate dim c)

/-- Models `PointGenerator::generate` (tools.rs:28-30). -/
def generatePoints (dim n : Nat) : M G (List (List K)) := generateWithSingleConstraint R dim n (0, 1)

/-- Models `struct RandomPoints` (impls.rs:15-19) minus the generator. -/
structure RandomPoints (K : Type) where
  dim : Nat
  constraints : List (K × K)

/-- Models `RandomPoints::with_constraints_and_rng` (impls.rs:81-94), which `with_constraints` (28-30) and
`with_constraints_inclusive` (43-49, the same bounds) call. -/
def RandomPoints.withConstraints (dim : Nat) (constraints : List (K × K)) : M G (RandomPoints K) := do
  M.assert (decide (0 < dim))
  M.assert (dim == constraints.length)
  pure ⟨dim, constraints⟩

/-- Models `RandomPoints::with_single_constraint` (impls.rs:58-60). -/
def RandomPoints.withSingleConstraint (dim : Nat) (c : K × K) : M G (RandomPoints K) :=
  RandomPoints.withConstraints dim (List.replicate dim c)

/-- Models `RandomPoints::with_rng` (impls.rs:103-110) and `new` (68-70). -/
def RandomPoints.new (dim : Nat) : M G (RandomPoints K) := do
  M.assert (decide (0 < dim))
  pure ⟨dim, List.replicate dim (0, 1)⟩

/-- Models `RandomPoints::generate` (impls.rs:122-128): the points are drawn from a *clone* of the
generator. -/
def RandomPoints.generate (X : ChromOps I K) (self : RandomPoints K) (count : Nat) : M G (List I) := do
  let pts ← R.onClone (generateWithConstraints R self.dim count self.constraints)
  pure (pts.map X.ofCh)

end points

section discrete
variable {G U I A : Type} [LinearOrder U] [Zero U] [One U] (R : Rng G U)

/-- Models the constructor `BitStrings::with_rng` (impls.rs:157-160). -/
def bitStringsNew (dim : Nat) : M G Nat := do
  M.assert (decide (0 < dim))
  pure dim

/-- Models `BitStrings::generate` (impls.rs:171-183). -/
def bitStringsGenerate (X : ChromOps I Bool) (dim count : Nat) : M G (List I) :=
  M.replicate count (do
    let bits ← M.replicate dim R.genCoin
    pure (X.ofCh bits))

/-- The genome built in one iteration of `RandomPermutations::generate` (impls.rs:234-235):
`slice::shuffle` puts the gene of old index `order[k]` at position `k`. -/
def shuffled (genes : List A) : M G (List A) := do
  let order ← R.genShuffle genes.length
  M.forEach (idx genes) order

/-- Models `RandomPermutations::generate` (impls.rs:230-240). -/
def permutationsGenerate (X : ChromOps I A) (genes : List A) (count : Nat) : M G (List I) :=
  M.replicate count (do
    let genome ← shuffled R genes
    pure (X.ofCh genome))

end discrete
end Ecrs.Ga
