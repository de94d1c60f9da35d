import Verif.Ga.Crossover
import Verif.FRng
import Mathlib.Algebra.Order.Floor.Semiring
import Mathlib.Algebra.BigOperators.Group.List.Basic

/-!
# Model of the selection operators (src/ga/operators/selection/impls.rs)

`count` is `self.selection_size.get(metrics)`.  The Rust operators return references into the
population; the model returns the referenced individuals.  Operators that only compare fitness work on
`Fl K` (NaN included); RouletteWheel and StochasticUniversalSampling compute with fitness values and are
modelled in exact arithmetic over an ordered field (simplification: no rounding, no NaN).
-/

namespace Ecrs.Ga
open Ecrs

/-- `PartialOrd::ge` on `f64`: false when NaN is involved. -/
def Fl.ge {K : Type} [LinearOrder K] : Fl K → Fl K → Bool
  | .num a, .num b => decide (b ≤ a)
  | _, _ => false

section order
variable {G U I C K : Type} [LinearOrder U] [Zero U] [One U] (R : Rng G U)
variable [LinearOrder K] (T : IndTrait I C K)

/-- Models `Random::apply` (impls.rs:150-159): indices from a *clone* of the generator, with repetition;
`Uniform::new(0, 0)` panics on an empty population even when `count` is zero. -/
def selRandom (count : Nat) (pop : List I) : M G (List I) := do
  M.assert (decide (0 < pop.length)) .emptyRange
  let is ← R.onClone (M.replicate count (R.genRange 0 pop.length))
  M.forEach (idx pop) is

/-- Models `UniqueRandom::apply` (impls.rs:215-226). -/
def selUniqueRandom (count : Nat) (pop : List I) : M G (List I) := do
  let is ← R.indexSample pop.length count
  M.forEach (idx pop) is

/-- Models the loop body of `Rank::apply` (impls.rs:290-293). -/
def rankOne (pop : List I) : M G I := do
  let i ← R.genRange 0 pop.length
  let p1 ← idx pop i
  let j ← R.genRange 0 pop.length
  let p2 ← idx pop j
  pure (if Fl.ge (T.fitness p1) (T.fitness p2) then p1 else p2)

/-- Models `Rank::apply` (impls.rs:282-297). -/
def selRank (count : Nat) (pop : List I) : M G (List I) := M.replicate count (rankOne R T pop)

/-- Models the constructor `RankR::with_rng` (impls.rs:340-347). -/
def rankRNew (r : U) : M G U := do
  M.assert (decide (0 ≤ r) && decide (r ≤ 1))
  pure r

/-- Models the loop body of `RankR::apply` (impls.rs:378-385). -/
def rankROne (r : U) (pop : List I) : M G I := do
  let i ← R.genRange 0 pop.length
  let p1 ← idx pop i
  let j ← R.genRange 0 pop.length
  let p2 ← idx pop j
  let u ← R.genUnit
  pure (if u < r then p1 else p2)

/-- Models `RankR::apply` (impls.rs:368-388); `Uniform::from(0..0)` panics on an empty population. -/
def selRankR (r : U) (count : Nat) (pop : List I) : M G (List I) := do
  M.assert (decide (0 < pop.length)) .emptyRange
  M.replicate count (rankROne R r pop)

/-- The fold inside `Iterator::max` (core): the accumulator is kept only when it compares `Greater`. -/
def maxFrom : I → List I → Except Panic I
  | b, [] => .ok b
  | b, x :: xs =>
    match cmpInd T b x with
    | .error e => .error e
    | .ok .gt => maxFrom b xs
    | .ok _ => maxFrom x xs

/-- `iter.max().unwrap()`. -/
def findMax : List I → Except Panic I
  | [] => .error .unwrapNone
  | x :: xs => maxFrom T x xs

/-- Models the loop body of `Tournament::apply` (impls.rs:465-473). -/
def tournamentOne (size : Nat) (pop : List I) : M G I := do
  let is ← R.indexSample pop.length size
  let contenders ← M.forEach (idx pop) is
  M.ofExcept (findMax T contenders)

/-- Models `Boltzmann::apply` (impls.rs:676-699) with the weights `exp(-fitness / temp)` given by `weight`
(spelled out in `Ga/Boltzmann.lean`, C138). -/
def selBoltzmann (RF : FRng G U) (weight : I → U) (count : Nat) (pop : List I) : M G (List I) := do
  let is ← RF.genWeighted (pop.map weight) count
  M.forEach (idx pop) is

/-- Models the constructor `Boltzmann::with_rng` (impls.rs:641-666); `five` and `hundred` are the literals
`5.0` and `100.0`. -/
def boltzmannNew (five hundred alpha temp0 : U) : M G (U × U) := do
  M.assert (decide (0 ≤ alpha) && decide (alpha ≤ 1))
  M.assert (decide (five ≤ temp0) && decide (temp0 ≤ hundred))
  pure (alpha, temp0)

end order

section arith
variable {G K I C : Type} [Field K] [LinearOrder K] [IsStrictOrderedRing K]

/-- Models the tournament size (impls.rs:459-460): `((n as f64 * factor) as usize).max(1)`. -/
def tournamentSize [FloorSemiring K] (factor : K) (n : Nat) : Nat :=
  max (Nat.floor ((n : K) * factor)) 1

/-- Models `Tournament::apply` (impls.rs:457-477). -/
def selTournament [FloorSemiring K] {F : Type} [LinearOrder F] (R : Rng G K) (T : IndTrait I C F)
    (factor : K) (count : Nat) (pop : List I) : M G (List I) :=
  M.replicate count (tournamentOne R T (tournamentSize factor pop.length) pop)

/-- Models the constructor `Tournament::with_rng` (impls.rs:429-436). -/
def tournamentNew (factor : K) : M G K := do
  M.assert (decide (0 ≤ factor) && decide (factor ≤ 1))
  pure factor

/-- Models the inner loop of `RouletteWheel::apply` (impls.rs:89-97). -/
def roulettePick (fit : I → K) (threshold : K) : K → List I → Option I
  | _, [] => none
  | s, x :: xs => if threshold ≤ s + fit x then some x else roulettePick fit threshold (s + fit x) xs

/-- Models `RouletteWheel::apply` (impls.rs:80-100) on fitness values `fit`.  The draws are listed first; the
Rust code interleaves them with the picks, which use no randomness. -/
def selRoulette (R : Rng G K) (fit : I → K) (count : Nat) (pop : List I) : M G (List I) := do
  let us ← M.replicate count R.genUnit
  pure (us.filterMap fun u => roulettePick fit ((pop.map fit).sum * u) 0 pop)

/-- Models the `while` of `StochasticUniversalSampling::apply` (impls.rs:575-578) for one individual; the
number of pushes and the new pointer. The Rust loop has no bound; `fuel` bounds the model. -/
def susWhile (d sum : K) : Nat → K → M G (Nat × K)
  | 0, _ => M.fail .outOfFuel
  | fuel + 1, ptr =>
    if ptr ≤ sum then do
      let (k, ptr') ← susWhile d sum fuel (ptr + d)
      pure (k + 1, ptr')
    else pure (0, ptr)

/-- Models the `for` of `StochasticUniversalSampling::apply` (impls.rs:572-579). -/
def susGo (fit : I → K) (d : K) (fuel : Nat) : K → K → List I → M G (List I)
  | _, _, [] => pure []
  | sum, ptr, x :: xs => do
    let (k, ptr') ← susWhile d (sum + fit x) fuel ptr
    let rest ← susGo fit d fuel (sum + fit x) ptr' xs
    pure (List.replicate k x ++ rest)

/-- Models `StochasticUniversalSampling::apply` (impls.rs:559-584). -/
def selSus (R : FRng G K) (fit : I → K) (fuel count : Nat) (pop : List I) : M G (List I) := do
  let d := (pop.map fit).sum / (count : K)
  M.assert (decide (0 < d))
  let ptr ← R.genBetween 0 d
  let sel ← susGo fit d fuel 0 ptr pop
  M.assert (sel.length == count)
  pure sel

end arith
end Ecrs.Ga
