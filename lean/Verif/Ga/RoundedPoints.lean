import Verif.Ga.Population
import Verif.Ga.Overflow
import Verif.Float.Rounding

/-!
# The point generator in rounded arithmetic (src/ga/population/tools.rs)

The same code as `generateWithConstraints` in `Ga/Population`, with a rounding after every arithmetic operation, as `f64` performs it; and the
coordinate with overflow, infinities and NaN.
-/

set_option linter.unusedSectionVars false

namespace Ecrs.Ga
open Ecrs

variable {G K I : Type} [Field K] [LinearOrder K] [IsStrictOrderedRing K] (A : Rounding K) (R : Rng G K)

/-- The coordinate computed from a draw `u` of `Uniform::new(0.0, 1.0)` (tools.rs:56): three rounded operations. -/
def coordR (c : K × K) (u : K) : K := A.rnd (A.rnd (A.rnd (c.2 - c.1) * u) + c.1)

/-- One coordinate of `PointGenerator::generate_with_constraints` (tools.rs:56). -/
def pointCoordR (c : K × K) : M G K := do
  let u ← R.genUnit
  pure (coordR A c u)

/-- Models `PointGenerator::generate_with_constraints` (tools.rs:45-59). -/
def generateWithConstraintsR (dim n : Nat) (constraints : List (K × K)) : M G (List (List K)) := do
  M.assert (dim == constraints.length)
  M.replicate n (M.forEach (pointCoordR A R) constraints)

/-- Models `RandomPoints::generate` (src/ga/population/impls.rs:122-128). -/
def RandomPoints.generateR (X : ChromOps I K) (self : RandomPoints K) (count : Nat) : M G (List I) := do
  let pts ← R.onClone (generateWithConstraintsR A R self.dim count self.constraints)
  pure (pts.map X.ofCh)

/-- The coordinate on all `f64` values (tools.rs:56): a result beyond `f64::MAX` is an infinity. -/
def coordF (maxv : K) (c : Ext K × Ext K) (u : K) : Ext K :=
  addF A maxv (mulF A maxv (addF A maxv c.2 c.1.neg) (.fin u)) c.1

/-! With exact arithmetic these are the definitions of `Ga/Population`. -/

theorem pointCoordR_exact : pointCoordR (exact K) R = pointCoord R := rfl

theorem generateWithConstraintsR_exact : generateWithConstraintsR (exact K) R = generateWithConstraints R := rfl

theorem RandomPoints.generateR_exact (X : ChromOps I K) : RandomPoints.generateR (exact K) R X = RandomPoints.generate R X := rfl

end Ecrs.Ga
