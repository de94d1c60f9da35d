import Verif.TestFunctions.Lemmas

/-!
# `gulf_research` (src/test_functions/mod.rs:1218-1240)

Kept apart from the other functions because its first round computes `ln(0)`: the loop index starts
at zero.  In `f64` this is `-inf`, which later operations turn back into a finite number, so the
first round is modelled by its `f64` outcome.
-/

namespace Ecrs.TF
open Ecrs Real

/-- Round `i` of src/test_functions/mod.rs:1226-1238.  For `i = 0`: `ln(0.01 * 0) = -inf`, so the
inner power is `(+inf)^(2/3) = +inf`, and `(25 + inf)^x3` is `+inf` for positive `x3`, `1` for zero
`x3` and `0` for negative `x3`; `exp(-inf / x[0])` is `0` for positive and `+inf` for negative
`x[0]`.  Infinite results and zero divisors are undefined here. -/
noncomputable def gulfRound (x3 xi : ℝ) (i : ℕ) : R :=
  open Classical in
  if i = 0 then
    if 0 < x3 then (if 0 < xi then .ok 0 else .error .undef)
    else if x3 = 0 then do
      let q ← fdiv (-1 * 1) xi
      pure (exp q ^ 2)
    else do
      let q ← fdiv (-1 * 0) xi
      pure (exp q ^ 2)
  else do
    let l ← fln (0.01 * (i : ℝ))
    let p ← powf (-50 * l) (1 / 1.5)
    let r ← powf (25 + p) x3
    let q ← fdiv (-1 * r) xi
    pure (exp q ^ 2)

/-- src/test_functions/mod.rs:1218-1240 -/
noncomputable def gulf_research (x : List ℝ) : R := do
  require (x.length = 99)
  let x3 ← get x 2
  forLoop x.zipIdx 0 fun res p => do
    let t ← gulfRound x3 p.1 p.2
    pure (res + t)

end Ecrs.TF
