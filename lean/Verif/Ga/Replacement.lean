import Verif.Ga.Crossover

/-!
# Model of the replacement operators (src/ga/operators/replacement/impls.rs)

`a < b` and `a > b` on individuals are `PartialOrd` comparisons of the fitness values
(src/ga/individual.rs:147-152): false when NaN is involved, no panic.
-/

namespace Ecrs.Ga
open Ecrs

section
variable {W I C K : Type} [LinearOrder K] (T : IndTrait I C K)

/-- `a < b` on individuals (src/ga/individual.rs:147-152). -/
def indLt (a b : I) : Bool := Fl.lt (T.fitness a) (T.fitness b)

/-- Models `BothParents::apply` (impls.rs:39-46). -/
def bothParents (_pop children : List I) : M W (List I) := pure children

/-- Models `Noop::apply` (impls.rs:74-81). -/
def noopReplacement (pop _children : List I) : M W (List I) := pure pop

/-- Models the two `swap`s at the top of the loop body of `WeakParent::apply` (impls.rs:160-166): a pair
with the larger fitness first. -/
def largerFirst (a b : I) : I × I := if indLt T a b then (b, a) else (a, b)

/-- Models the nested `if` of `WeakParent::apply` (impls.rs:168-177) on an ordered parent pair `(p1, p2)` and
an ordered child pair `(c1, c2)`: the new population entries `i` and `i + 1`. -/
def weakMerge (p1 p2 c1 c2 : I) : I × I :=
  if indLt T p1 c1 then
    -- population.swap(i, i + 1); swap(children[i], population[i])
    (if indLt T p1 c2 then (c1, c2) else (c1, p1))
  else if indLt T p2 c1 then (p1, c1)
  else (p1, p2)

/-- Models one iteration of the loop of `WeakParent::apply` (impls.rs:160-177) on parents `a`, `b` and
children `c`, `d`. -/
def weakFamily (a b c d : I) : I × I :=
  weakMerge T (largerFirst T a b).1 (largerFirst T a b).2 (largerFirst T c d).1 (largerFirst T c d).2

/-- Models the loop of `WeakParent::apply` (impls.rs:159-178): `i = 0, 2, 4, ...` while `i < len - 1`;
missing children are an index out of bounds. -/
def weakGo : List I → List I → M W (List I)
  | a :: b :: ps, c :: d :: cs => do
    let rest ← weakGo ps cs
    pure ((weakFamily T a b c d).1 :: (weakFamily T a b c d).2 :: rest)
  | _ :: _ :: _, _ => M.fail .indexOob
  | ps, _ => pure ps

/-- Models `WeakParent::apply` (impls.rs:142-180); `debug` says whether `debug_assert!` is compiled in.
`population.len() - 1` underflows on an empty population: a panic in debug builds; in release builds it
wraps and `population[0]` is out of bounds. -/
def weakParent (debug : Bool) (pop children : List I) : M W (List I) := do
  M.assert (!debug || pop.length == children.length)
  M.assert (!debug || pop.length % 2 == 0)
  M.assert (decide (0 < pop.length)) .underflow
  weakGo T pop children

/-- The shipped replacement operators. -/
inductive Replacement
  | bothParents
  | noop
  | weakParent
  deriving DecidableEq, Repr

/-- `ReplacementOperator::apply` of each of them. -/
def Replacement.apply (debug : Bool) : Replacement → List I → List I → M W (List I)
  | .bothParents => Ga.bothParents
  | .noop => Ga.noopReplacement
  | .weakParent => Ga.weakParent T debug

/-- `requires_children_fitness` of each of them (impls.rs:52-54, 87-89; the default `true` of
src/ga/operators/replacement.rs:47-49 for WeakParent). -/
def Replacement.requiresChildrenFitness : Replacement → Bool
  | .bothParents => false
  | .noop => false
  | .weakParent => true

end
end Ecrs.Ga
