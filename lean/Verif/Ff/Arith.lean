import Verif.Basic
import Mathlib.Algebra.Order.Field.Basic
import Mathlib.Order.WithBot

/-!
# Floating point arithmetic as used by the firefly algorithm

`FloatOps` is arithmetic without laws (so `f64` with its rounding is an instance): every operation the code uses,
and a view of the values as numbers of a linear order or NaN, through which all comparisons go.  `Ext` is exact
arithmetic with infinities and NaN, for the theorems that need laws.
-/

namespace Ecrs

/-- The `f64` operations used by src/ff.rs and src/ff/auxiliary.rs.  No laws. -/
structure FloatOps (X K : Type) where
  add : X → X → X
  sub : X → X → X
  mul : X → X → X
  div : X → X → X
  abs : X → X
  sqrt : X → X
  /-- `f64::powf(std::f64::consts::E, x)` -/
  expo : X → X
  /-- `f64::powf(x, 2.0)` and `f64::powi(x, 2)` -/
  sq : X → X
  zero : X
  one : X
  half : X
  minusOne : X
  /-- `f64::MAX` -/
  maxv : X
  infinity : X
  /-- `n as f64` -/
  ofNat : Nat → X
  /-- the value as a number or NaN: `partial_cmp` compares views -/
  view : X → Fl K

namespace FloatOps
variable {X K : Type} [LinearOrder K] (A : FloatOps X K)

/-- `a < b` -/
def lt (a b : X) : Bool := Fl.lt (A.view a) (A.view b)
/-- `a == b` -/
def eq (a b : X) : Bool := Fl.partialCmp (A.view a) (A.view b) == some .eq
/-- `matches!(a.partial_cmp(&b), None | Some(Ordering::Greater))` -/
def notLe (a b : X) : Bool :=
  match Fl.partialCmp (A.view a) (A.view b) with
  | none | some .gt => true
  | _ => false
/-- `matches!(a.partial_cmp(&b), None | Some(Ordering::Less))` -/
def notGe (a b : X) : Bool :=
  match Fl.partialCmp (A.view a) (A.view b) with
  | none | some .lt => true
  | _ => false

end FloatOps

/-- Exact arithmetic over an ordered field with infinities and NaN (IEEE 754 without rounding, overflow and signed
zeros: a zero counts as `+0`). -/
inductive Ext (F : Type) where
  | nan
  | ninf
  | fin (x : F)
  | pinf
  deriving DecidableEq, Repr

namespace Ext
variable {F : Type} [Field F] [LinearOrder F]

/-- Infinity with the sign of `x` (`x = 0` counts as positive). -/
def signed (x : F) : Ext F := if x < 0 then .ninf else .pinf

def neg : Ext F → Ext F
  | nan => nan
  | ninf => pinf
  | fin x => fin (-x)
  | pinf => ninf

def add : Ext F → Ext F → Ext F
  | fin x, fin y => fin (x + y)
  | nan, _ => nan
  | _, nan => nan
  | pinf, ninf => nan
  | ninf, pinf => nan
  | pinf, _ => pinf
  | _, pinf => pinf
  | ninf, _ => ninf
  | _, ninf => ninf

def sub (a b : Ext F) : Ext F := add a (neg b)

/-- `∞ * y` for `y ≠ 0`, and NaN for `∞ * 0`. -/
def infMul (y : F) : Ext F := if y = 0 then nan else signed y

def mul : Ext F → Ext F → Ext F
  | fin x, fin y => fin (x * y)
  | nan, _ => nan
  | _, nan => nan
  | pinf, fin y => infMul y
  | fin y, pinf => infMul y
  | ninf, fin y => neg (infMul y)
  | fin y, ninf => neg (infMul y)
  | pinf, pinf => pinf
  | ninf, ninf => pinf
  | _, _ => ninf

def div : Ext F → Ext F → Ext F
  | fin x, fin y => if y = 0 then (if x = 0 then nan else signed x) else fin (x / y)
  | nan, _ => nan
  | _, nan => nan
  | fin _, _ => fin 0
  | pinf, fin y => signed y
  | ninf, fin y => neg (signed y)
  | _, _ => nan

def abs : Ext F → Ext F
  | nan => nan
  | fin x => fin |x|
  | _ => pinf

/-- The order on the numbers: `-∞ <` finite `< +∞`. -/
def view : Ext F → Fl (WithBot (WithTop F))
  | nan => .nan
  | ninf => .num ⊥
  | fin x => .num ((x : WithTop F) : WithBot (WithTop F))
  | pinf => .num ((⊤ : WithTop F) : WithBot (WithTop F))

/-- Exact arithmetic as `FloatOps`; the exponential and the square root (not expressible in a field) and `f64::MAX`
are parameters. -/
def ops (expo sqrt : Ext F → Ext F) (maxv : F) : FloatOps (Ext F) (WithBot (WithTop F)) where
  add := add
  sub := sub
  mul := mul
  div := div
  abs := abs
  sqrt := sqrt
  expo := expo
  sq a := mul a a
  zero := fin 0
  one := fin 1
  half := fin (1 / 2)
  minusOne := fin (-1)
  maxv := fin maxv
  infinity := pinf
  ofNat n := fin (n : F)
  view := view

end Ext
end Ecrs
