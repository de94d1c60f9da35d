import Verif.Ga.Crossover

/-!
# Model of the mutation operators (src/ga/operators/mutation/impls.rs)

Operators act on a chromosome `List A`; `applyMutation` lifts them to an individual.  The mutation rate
and the draws are elements of a linear order `U` (no NaN rate; simplification).
-/

namespace Ecrs.Ga
open Ecrs

section
variable {G U I A : Type} [LinearOrder U] [Zero U] [One U] (R : Rng G U)

/-- `MutationOperator::apply` mutates `individual.chromosome_mut()` in place (src/ga/operators/mutation.rs:18-26):
everything but the chromosome, the cached fitness included, is kept. -/
def applyMutation (X : ChromOps I A) (op : List A → M G (List A)) (i : I) : M G I := do
  let c ← op (X.ch i)
  pure (X.setCh i c)

/-- The three statements swapping two genes through a temporary (impls.rs:133-135, 188-190) and
`slice::swap` (line 254): `l[i]` and `l[j]` are exchanged, out of bounds panics. -/
def swapIdx (l : List A) (i j : Nat) : M G (List A) := do
  let gene ← idx l j
  let x ← idx l i
  let l1 ← setIdx l j x
  setIdx l1 i gene

/-- Models `Identity::apply` (impls.rs:26-28). -/
def identityMut (c : List A) : M G (List A) := pure c

/-- The guarded body of the loop of `FlipBit::apply` (impls.rs:76-78) after the draw `d`. -/
def flipAt (rate d : U) (c : List Bool) (i : Nat) : M G (List Bool) :=
  if d < rate then do
    let b ← idx c i
    setIdx c i (!b)
  else pure c

/-- Models the loop of `FlipBit::apply` (impls.rs:70-80), from index `i` for `n` more indices. -/
def flipBitGo (rate : U) : Nat → Nat → List Bool → M G (List Bool)
  | _, 0, c => pure c
  | i, n + 1, c => do
    let d ← R.genUnit
    let c' ← flipAt rate d c i
    flipBitGo rate (i + 1) n c'

/-- Models `FlipBit::apply` (impls.rs:70-80). -/
def flipBit (rate : U) (c : List Bool) : M G (List Bool) := flipBitGo R rate 0 c.length c

/-- One iteration of the loop of `Interchange::apply` (impls.rs:131-136).  The partner index comes
from `rand::thread_rng()`, not from the operator's generator. -/
def interchangeStep (rate : U) (c : List A) (i : Nat) : M G (List A) := do
  let d ← R.genUnit
  if d < rate then (do
      let j ← R.threadRange 0 c.length
      swapIdx c i j) else pure c

/-- Models `Interchange::apply` (impls.rs:123-138); `Uniform::from(0..0)` panics on an empty
chromosome (line 128). -/
def interchange (rate : U) (c : List A) : M G (List A) := do
  M.assert (decide (0 < c.length)) .emptyRange
  M.fold (interchangeStep R rate) c (List.range c.length)

/-- One iteration of the loop of `Reversing::apply` (impls.rs:187-191). -/
def reversingStep (rate : U) (c : List A) (i : Nat) : M G (List A) := do
  let d ← R.genUnit
  if d < rate then swapIdx c i (i - 1) else pure c

/-- Models `Reversing::apply` (impls.rs:181-193). -/
def reversing (rate : U) (c : List A) : M G (List A) :=
  M.fold (reversingStep R rate) c (List.range' 1 (c.length - 1))

/-- Models the loop of `Inversion::apply` (impls.rs:253-257) with an explicit iteration bound `n`;
`inversionLoop` supplies a bound that is never reached before `lo ≥ hi`. -/
def inversionGo : Nat → List A → Nat → Nat → M G (List A)
  | 0, c, lo, hi => if lo < hi then M.fail .outOfFuel else pure c
  | n + 1, c, lo, hi =>
    if lo < hi then do
      let c' ← swapIdx c lo hi
      inversionGo n c' (lo + 1) (hi - 1)
    else pure c

/-- Models the loop of `Inversion::apply` (impls.rs:253-257). -/
def inversionLoop (c : List A) (lo hi : Nat) : M G (List A) := inversionGo (hi - lo) c lo hi

/-- Models the mutating part of `Inversion::apply` (impls.rs:249-257). -/
def inversionBody (c : List A) : M G (List A) := do
  let lo ← R.genRange 0 c.length
  let hi ← R.genRange lo c.length
  inversionLoop c lo hi

/-- Models `Inversion::apply` (impls.rs:240-258). -/
def inversion (rate : U) (c : List A) : M G (List A) := do
  let r ← R.genUnit
  if rate < r then pure c else inversionBody R c

/-- The shipped mutation operators that work on any gene type (FlipBit is bit-string only). -/
inductive Mutation (U : Type)
  | identity
  | interchange (rate : U)
  | reversing (rate : U)
  | inversion (rate : U)

/-- The chromosome transformation of each of them. -/
def Mutation.run : Mutation U → List A → M G (List A)
  | .identity => identityMut
  | .interchange rate => Ga.interchange R rate
  | .reversing rate => Ga.reversing R rate
  | .inversion rate => Ga.inversion R rate

end
end Ecrs.Ga
