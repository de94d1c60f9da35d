import Mathlib.Analysis.SpecialFunctions.Trigonometric.Bounds
import Mathlib.Analysis.SpecialFunctions.Pow.Real
import Mathlib.Analysis.SpecialFunctions.Sqrt
import Verif.Basic

/-!
# Vocabulary of the benchmark-function model (src/test_functions/mod.rs)

The functions are modelled over the real numbers: rounding, overflow and signed zeros of `f64` are
abstracted away.  What is kept is *definedness*: a call either returns a real number, panics, or
reaches an operation that real arithmetic does not define (division by zero, root, logarithm or
non-integer power of a negative number) where `f64` would produce NaN or an infinity.
-/

namespace Ecrs.TF
open Ecrs

/-- Why a call yields no real number: a Rust panic, or an operation outside its real domain
(`f64` yields NaN or an infinity there). -/
inductive Trap
  | panic (p : Panic)
  | undef
  deriving DecidableEq, Repr

/-- The outcome of a benchmark function: a real number or a trap. -/
abbrev R := Except Trap ℝ

/-- `assert!` / `assert_eq!`. -/
def require (c : Prop) [Decidable c] : Except Trap Unit :=
  if c then .ok () else .error (.panic .assertion)

/-- Slice indexing `x[i]`. -/
def get {α : Type} (x : List α) (i : ℕ) : Except Trap α :=
  match x[i]? with
  | some v => .ok v
  | none => .error (.panic .indexOob)

/-- `usize` subtraction `a - b` (debug profile: panics below zero). -/
def usub (a b : ℕ) : Except Trap ℕ :=
  if b ≤ a then .ok (a - b) else .error (.panic .underflow)

/-- `a / b` on `f64`, undefined for a zero divisor. -/
noncomputable def fdiv (a b : ℝ) : R :=
  open Classical in if b = 0 then .error .undef else .ok (a / b)

/-- `f64::powf`; negative bases are undefined (every `powf` call in the file with a possibly
negative base has a non-integer exponent), and so is a negative power of zero. -/
noncomputable def powf (b y : ℝ) : R :=
  open Classical in
  if b < 0 then .error .undef else if b = 0 ∧ y < 0 then .error .undef else .ok (b ^ y)

/-- `f64::ln`, undefined outside the positive numbers. -/
noncomputable def fln (a : ℝ) : R :=
  open Classical in if a ≤ 0 then .error .undef else .ok (Real.log a)

/-- `f64::sqrt`, undefined for negative numbers. -/
noncomputable def fsqrt (a : ℝ) : R :=
  open Classical in if a < 0 then .error .undef else .ok (Real.sqrt a)

/-- A Rust `for a in l { acc = body(acc, a) }` loop whose body may trap. -/
def forLoop {α : Type} (l : List α) (init : ℝ) (body : ℝ → α → R) : R := l.foldlM body init

/-- `assert_eq!(x.len(), 2); let x1 = x[0]; let x2 = x[1]; …`, the opening of every two-dimensional
function of the file. -/
def fn2 (f : ℝ → ℝ → R) (x : List ℝ) : R :=
  match x with
  | [x1, x2] => f x1 x2
  | _ => .error (.panic .assertion)

/-- The three-dimensional opening. -/
def fn3 (f : ℝ → ℝ → ℝ → R) (x : List ℝ) : R :=
  match x with
  | [x1, x2, x3] => f x1 x2 x3
  | _ => .error (.panic .assertion)

/-- The four-dimensional opening. -/
def fn4 (f : ℝ → ℝ → ℝ → ℝ → R) (x : List ℝ) : R :=
  match x with
  | [x1, x2, x3, x4] => f x1 x2 x3 x4
  | _ => .error (.panic .assertion)

/-- The five-dimensional opening. -/
def fn5 (f : ℝ → ℝ → ℝ → ℝ → ℝ → R) (x : List ℝ) : R :=
  match x with
  | [x1, x2, x3, x4, x5] => f x1 x2 x3 x4 x5
  | _ => .error (.panic .assertion)

/-- The six-dimensional opening. -/
def fn6 (f : ℝ → ℝ → ℝ → ℝ → ℝ → ℝ → R) (x : List ℝ) : R :=
  match x with
  | [x1, x2, x3, x4, x5, x6] => f x1 x2 x3 x4 x5 x6
  | _ => .error (.panic .assertion)

/-! ## Specification vocabulary -/

/-- `f` has the global minimum `m`, attained at `p`: on every vector of an admissible dimension
`f` returns a real number, never one below `m`, and at `p` it returns exactly `m`. -/
def HasMinimum (dim : ℕ → Prop) (f : List ℝ → R) (p : List ℝ) (m : ℝ) : Prop :=
  dim p.length ∧ f p = .ok m ∧ ∀ x, dim x.length → ∃ v, f x = .ok v ∧ m ≤ v

/-- The minimum up to `ε`, for the minima the documentation gives as rounded decimals: at `p` the
value is within `ε` of `m`, and no value is below `m - ε`. -/
def HasMinimumUpTo (ε : ℝ) (dim : ℕ → Prop) (f : List ℝ → R) (p : List ℝ) (m : ℝ) : Prop :=
  dim p.length ∧ (∃ v, f p = .ok v ∧ |v - m| ≤ ε) ∧ ∀ x, dim x.length → ∃ v, f x = .ok v ∧ m - ε ≤ v

/-- `f` takes arbitrarily small values on vectors of dimension `n`. -/
def UnboundedBelow (n : ℕ) (f : List ℝ → R) : Prop :=
  ∀ B : ℝ, ∃ x : List ℝ, x.length = n ∧ ∃ v, f x = .ok v ∧ v < B

/-- `f` accepts exactly the vectors of dimension `n`: it returns a number on each of them and
fails its dimension assertion on every other vector. -/
def AcceptsExactly (n : ℕ) (f : List ℝ → R) : Prop :=
  (∀ x : List ℝ, x.length = n → ∃ v, f x = .ok v) ∧
    ∀ x : List ℝ, x.length ≠ n → f x = .error (.panic .assertion)

/-- `f` yields a number for no vector of dimension `n`: every call panics. -/
def AlwaysPanics (n : ℕ) (f : List ℝ → R) : Prop :=
  ∀ x : List ℝ, x.length = n → ∃ p, f x = .error (.panic p)

end Ecrs.TF
