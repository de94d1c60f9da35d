import Verif.Exc
import Verif.Ff.Arith

/-!
# Matrices and arithmetic of the ant colony module
-/

namespace Ecrs.Aco
open Ecrs

/-- The `f64` operations used by src/aco: those of `FloatOps` and three more.  No laws. -/
structure AcoOps (X K : Type) extends FloatOps X K where
  /-- `f64::powf` (src/aco/tsp/goodness.rs:63) -/
  pow : X → X → X
  /-- `f64::MIN` (src/aco/tsp/ant.rs:194) -/
  minv : X
  /-- `x as usize` (src/aco/pheromone.rs:58) -/
  toNat : X → Nat

/-- Exact arithmetic: `Ext.ops` with a given power function; the cast truncates and saturates at zero (its upper
saturation at `usize::MAX` is not modelled). -/
def exactOps {F : Type} [Field F] [LinearOrder F] (sqrt : Ext F → Ext F) (pow : Ext F → Ext F → Ext F) (maxv : F)
    (floor : F → Nat) : AcoOps (Ext F) (WithBot (WithTop F)) :=
  { Ext.ops (fun _ => .nan) sqrt maxv with
    pow := pow
    minv := .fin (-maxv)
    toNat := fun x => match x with
      | .fin a => floor a
      | _ => 0 }

/-- Models `FMatrix` (src/aco.rs:36), a dynamically sized nalgebra matrix; `get` is meaningful inside the bounds. -/
structure Mat (X : Type) where
  rows : Nat
  cols : Nat
  get : Nat → Nat → X

namespace Mat
variable {X : Type}

/-- `m[(i, j)]`: panics out of bounds. -/
def at' (m : Mat X) (i j : Nat) : Except Panic X :=
  if i < m.rows ∧ j < m.cols then .ok (m.get i j) else .error .indexOob

/-- `m[(i, j)] = x`: panics out of bounds. -/
def set (m : Mat X) (i j : Nat) (x : X) : Except Panic (Mat X) :=
  if i < m.rows ∧ j < m.cols then .ok { m with get := fun a b => if a = i ∧ b = j then x else m.get a b }
  else .error .indexOob

/-- Componentwise function (`scale_mut` is `map (· * k)`). -/
def map (f : X → X) (m : Mat X) : Mat X := { m with get := fun a b => f (m.get a b) }

/-- The elements in the order of nalgebra's `iter()`: column by column. -/
def elems (m : Mat X) : List X := (List.range m.cols).flatMap fun j => (List.range m.rows).map fun i => m.get i j

/-- `FMatrix::from_iterator(n, n, l)`: panics when the iterator is too short, ignores what is left over. -/
def ofElems [Inhabited X] (n : Nat) (l : List X) : Except Panic (Mat X) :=
  if n * n ≤ l.length then .ok { rows := n, cols := n, get := fun i j => l.getD (j * n + i) default }
  else .error .libError

end Mat

/-- `circular_tuple_windows::<(usize, usize)>` (itertools): consecutive pairs, and the pair (last, first). -/
def windows (p : List Nat) : List (Nat × Nat) := p.zip (p.tail ++ p.take 1)

end Ecrs.Aco
