import Mathlib.Analysis.SpecialFunctions.Trigonometric.Basic

/-!
# The firefly module's own benchmark function (src/ff/auxiliary.rs)
-/

namespace Ecrs.Ff

/-- Models `rastrigin` of src/ff/auxiliary.rs:4-10 in exact real arithmetic (it asserts nothing). -/
noncomputable def auxRastrigin (params : List ℝ) : ℝ :=
  params.foldl (fun res param => res + (param * param - 10 * Real.cos (2 * Real.pi * param))) 0 + 10 * params.length

end Ecrs.Ff
