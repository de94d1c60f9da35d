import Verif.Ga.Rounded
import Verif.Ff.Arith

/-!
# The sampling selections with overflow, infinities and NaN (src/ga/operators/selection/impls.rs)

The same code as `selRouletteR` and `selSusR` in `Ga/Rounded`, on all `f64` values: after the rounding, a result larger than `f64::MAX`
becomes an infinity, and infinities and NaN follow IEEE 754. (Signed zeros are not distinguished.)
-/

namespace Ecrs.Ga
open Ecrs

variable {G K I : Type} [Field K] [LinearOrder K] [IsStrictOrderedRing K] (A : Rounding K) (maxv : K)

/-- A rounded result as an `f64`: beyond `f64::MAX` it is an infinity. -/
def overflow : Ext K → Ext K
  | .fin x => if maxv < A.rnd x then .pinf else if A.rnd x < -maxv then .ninf else .fin (A.rnd x)
  | y => y

/-- `a + b` on `f64` (impls.rs:81, 91). -/
def addF (a b : Ext K) : Ext K := overflow A maxv (a.add b)

/-- `a * b` on `f64` (impls.rs:87). -/
def mulF (a b : Ext K) : Ext K := overflow A maxv (a.mul b)

/-- `a / b` on `f64` (impls.rs:565). -/
def divF (a b : Ext K) : Ext K := overflow A maxv (a.div b)

/-- `a >= b` on `f64` (impls.rs:92, 575). -/
def geF (a b : Ext K) : Bool := Fl.ge a.view b.view

/-- Models `population.iter().map(|indiv| indiv.fitness()).sum()` (impls.rs:81, 561). -/
def sumF (l : List (Ext K)) : Ext K := l.foldl (addF A maxv) (.fin 0)

/-- Models the inner loop of `RouletteWheel::apply` (impls.rs:89-97). -/
def roulettePickF (fit : I → Ext K) (threshold : Ext K) : Ext K → List I → Option I
  | _, [] => none
  | s, x :: xs => if geF (addF A maxv s (fit x)) threshold then some x else roulettePickF fit threshold (addF A maxv s (fit x)) xs

/-- Models `RouletteWheel::apply` (impls.rs:80-100); the draws are listed first (see `selRoulette`). -/
def selRouletteF (R : Rng G K) (fit : I → Ext K) (count : Nat) (pop : List I) : M G (List I) := do
  let us ← M.replicate count R.genUnit
  pure (us.filterMap fun u => roulettePickF A maxv fit (mulF A maxv (sumF A maxv (pop.map fit)) (.fin u)) (.fin 0) pop)

/-- Models the `while` of `StochasticUniversalSampling::apply` (impls.rs:575-578). -/
def susWhileF (d sum : Ext K) : Nat → Ext K → M G (Nat × Ext K)
  | 0, _ => M.fail .outOfFuel
  | fuel + 1, ptr =>
    if geF sum ptr then do
      let (k, ptr') ← susWhileF d sum fuel (addF A maxv ptr d)
      pure (k + 1, ptr')
    else pure (0, ptr)

/-- Models the `for` of `StochasticUniversalSampling::apply` (impls.rs:572-579). -/
def susGoF (fit : I → Ext K) (d : Ext K) (fuel : Nat) : Ext K → Ext K → List I → M G (List I)
  | _, _, [] => pure []
  | sum, ptr, x :: xs => do
    let (k, ptr') ← susWhileF A maxv d (addF A maxv sum (fit x)) fuel ptr
    let rest ← susGoF fit d fuel (addF A maxv sum (fit x)) ptr' xs
    pure (List.replicate k x ++ rest)

/-- Models `StochasticUniversalSampling::apply` (impls.rs:559-584): `assert!(distance > 0.0)` fails on NaN; `gen_range(0.0..=distance)`
panics when the range is not finite (rand 0.8.5, `UniformFloat::new_inclusive`: "range overflow"). -/
def selSusF (R : FRng G K) (fit : I → Ext K) (fuel count : Nat) (pop : List I) : M G (List I) :=
  match divF A maxv (sumF A maxv (pop.map fit)) (.fin (A.rnd (count : K))) with
  | .fin d => do
    M.assert (decide (0 < d))
    let ptr ← R.genBetween 0 d
    let sel ← susGoF A maxv fit (.fin d) fuel (.fin 0) (.fin ptr) pop
    M.assert (sel.length == count)
    pure sel
  | .pinf => M.fail .emptyRange
  | _ => M.fail .assertion

end Ecrs.Ga
