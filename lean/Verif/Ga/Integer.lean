import Verif.Ga.Selection

/-!
# RouletteWheel on integer fitness values (src/ga/operators/selection/impls.rs)

`RouletteWheel` is generic in the type of the fitness: any `NumAssignOps + Sum + PartialOrd + Copy` type with
`Standard: Distribution<_>` will do (impls.rs:59-64), so `u8` .. `u64`, `usize`, `i8` .. `i64` are accepted (the individuals of the job shop
example, examples/jssp/problem/individual.rs, have `usize` fitness). The same code as `selRoulette` in `Ga/Selection`, in the arithmetic of
such a type.
-/

namespace Ecrs.Ga
open Ecrs

/-- A primitive integer type of Rust: `u32` is `⟨32, false⟩`, `i64` is `⟨64, true⟩`. -/
structure IntType where
  bits : Nat
  signed : Bool

/-- The value that `v` is wrapped to (two's complement). -/
def IntType.wrap (t : IntType) (v : Int) : Int := if t.signed then v.bmod (2 ^ t.bits) else v % (2 ^ t.bits : Nat)

/-- The result of an operation whose exact result is `v`: with overflow checks (`checked`, the default of debug builds) a panic when `v` is
out of range, without (release builds) the wrapped value. `Panic.underflow` stands for "attempt to add/multiply with overflow". -/
def IntType.result (t : IntType) (checked : Bool) (v : Int) : Except Panic Int :=
  if t.wrap v = v then .ok v else if checked then .error .underflow else .ok (t.wrap v)

variable {G U I : Type} [LinearOrder U] [Zero U] [One U] (t : IntType) (checked : Bool)

/-- Models `population.iter().map(|indiv| indiv.fitness()).sum()` (impls.rs:81). -/
def sumI (fit : I → Int) : Int → List I → Except Panic Int
  | s, [] => .ok s
  | s, x :: xs => match t.result checked (s + fit x) with
    | .error e => .error e
    | .ok s' => sumI fit s' xs

/-- Models the inner loop of `RouletteWheel::apply` (impls.rs:89-97). -/
def roulettePickI (fit : I → Int) (threshold : Int) : Int → List I → Except Panic (Option I)
  | _, [] => .ok none
  | s, x :: xs => match t.result checked (s + fit x) with
    | .error e => .error e
    | .ok s' => if threshold ≤ s' then .ok (some x) else roulettePickI fit threshold s' xs

/-- Models the body of the `for` of `RouletteWheel::apply` (impls.rs:86-98): `rng.gen()` of an integer type is uniform on all its values
(rand 0.8.5, `Standard`), here a uniform number below `2^bits` read as a value of the type. -/
def rouletteSpinI (R : Rng G U) (fit : I → Int) (total : Int) (pop : List I) : M G (Option I) :=
  R.genRange 0 (2 ^ t.bits) >>= fun u => M.ofExcept (match t.result checked (total * t.wrap u) with
    | .error e => .error e
    | .ok threshold => roulettePickI t checked fit threshold 0 pop)

/-- Models `RouletteWheel::apply` (impls.rs:80-100). -/
def selRouletteI (R : Rng G U) (fit : I → Int) (count : Nat) (pop : List I) : M G (List I) := do
  let total ← M.ofExcept (sumI t checked fit 0 pop)
  let picks ← M.replicate count (rouletteSpinI t checked R fit total pop)
  pure (picks.filterMap id)

end Ecrs.Ga
