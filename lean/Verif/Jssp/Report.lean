import Verif.Jssp.Model
import Mathlib.Analysis.Real.Sqrt

/-!
# Model of what the job shop example reports: examples/jssp/problem/probe.rs and the distance of examples/jssp/util.rs

The log lines are modelled in Jssp/Logs. Not modelled: the MD5 hash, `println!`.
-/

namespace Ecrs.Jssp
open Ecrs

/-! ## The solution string -/

/-- Models the comparison closure of `JsspProbe::on_end` (probe.rs:176-192). -/
def compareOps (n : Nat) (a b : Operation) : Except Panic Ordering :=
  if a.id = n + 1 then .ok .gt
  else if b.id = n + 1 then .ok .lt
  else do
    let x ← unwrap a.finishTime
    let y ← unwrap b.finishTime
    pure (if x < y then .lt
      else if y < x then .gt
      else if a.duration ≠ 0 ∧ b.duration ≠ 0 then compare a.machine b.machine
      else if a.duration ≠ 0 ∧ b.duration = 0 then .lt
      else .gt)

/-- The comparisons of two different elements of `l` return, and order the elements of `l` totally. -/
structure TotalOn {α : Type} (cmp : α → α → Except Panic Ordering) (l : List α) : Prop where
  returns : ∀ a ∈ l, ∀ b ∈ l, a ≠ b → ∃ o, cmp a b = .ok o
  swap : ∀ a ∈ l, ∀ b ∈ l, a ≠ b → ∀ o, cmp a b = .ok o → cmp b a = .ok o.swap
  trans : ∀ a ∈ l, ∀ b ∈ l, ∀ c ∈ l, a ≠ b → b ≠ c → a ≠ c → cmp a b ≠ .ok .gt → cmp b c ≠ .ok .gt → cmp a c ≠ .ok .gt

/-- The contract of `slice::sort_unstable_by` (core): the result is a permutation, and ascending if the comparison is a total
order on the elements.  (With a comparison that is not, the order is unspecified and the call may panic.) -/
structure SortsTo {α : Type} (cmp : α → α → Except Panic Ordering) (l out : List α) : Prop where
  perm : out.Perm l
  sorted : TotalOn cmp l → out.Pairwise fun a b => cmp a b ≠ .ok .gt

/-- Models `.filter(|op| op.id != 0 && op.id != n + 1).map(|op| op.id ..)` (probe.rs:193-196). -/
def solutionIds (n : Nat) (sorted : List Operation) : List Nat :=
  (sorted.filter fun op => op.id != 0 && op.id != n + 1).map (·.id)

/-- Models `.map(|id| id.to_string()).join("_")` (probe.rs:196-197) as a list of characters. -/
def joinIds : List Nat → List Char
  | [] => []
  | [x] => Nat.toDigits 10 x
  | x :: y :: ys => Nat.toDigits 10 x ++ '_' :: joinIds (y :: ys)

/-- Models the computation of `solution_string` in `JsspProbe::on_end` (probe.rs:166-197): `s` is a possible value of the
string for the operations `ops` of the best individual.  `ops.len() - 2` is exact for two or more operations. -/
def SolutionString (ops : Arr Operation) (s : List Char) : Prop :=
  2 ≤ ops.size ∧ ∃ sorted, SortsTo (compareOps (ops.size - 2)) ops.toList sorted ∧ s = joinIds (solutionIds (ops.size - 2) sorted)

/-! ## The average distance -/

/-- `reduce(|a, b| a + b).unwrap()`. -/
def sumReduce : List ℝ → Except Panic ℝ
  | [] => .error .unwrapNone
  | x :: xs => .ok (xs.foldl (· + ·) x)

/-- Models `euclidean_distance` (examples/jssp/util.rs:47-55) over the real numbers. -/
noncomputable def euclideanDistance (u v : List ℝ) : Except Panic ℝ := do
  let s ← sumReduce ((u.zip v).map fun p => (p.1 - p.2) * (p.1 - p.2))
  pure (Real.sqrt s)

/-- `population[i].chromosome()`. -/
def chromosomeAt (pop : List (List ℝ)) (i : Nat) : Except Panic (List ℝ) :=
  match pop[i]? with
  | some c => .ok c
  | none => .error .indexOob

/-- The loop body of `estimate_avg_distance` (probe.rs:64). -/
noncomputable def distanceStep (pop : List (List ℝ)) (i : Nat) (acc : ℝ) (j : Nat) : Except Panic ℝ := do
  let u ← chromosomeAt pop i
  let v ← chromosomeAt pop j
  let d ← euclideanDistance u v
  pure (acc + d)

/-- The two loops of `estimate_avg_distance` (probe.rs:62-66). -/
noncomputable def distanceSum (pop : List (List ℝ)) : Except Panic ℝ :=
  (List.range (pop.length - 1)).foldlM
    (fun acc i => (List.range' (i + 1) (pop.length - (i + 1))).foldlM (distanceStep pop i) acc) 0

/-- Models `JsspProbe::estimate_avg_distance` (probe.rs:60-70) on the chromosomes of the population, over the real numbers;
`none` is NaN, the result of `0.0 / 0.0`.  `population.len() - 1` underflows for an empty population (a panic in debug builds; in
release builds the outer loop counts to `usize::MAX`). -/
noncomputable def avgDistance (pop : List (List ℝ)) : Except Panic (Option ℝ) :=
  if pop.length = 0 then .error .underflow
  else do
    let s ← distanceSum pop
    let pairs := pop.length * (pop.length - 1) / 2
    pure (if pairs = 0 then none else some (s / (pairs : ℝ)))

/-! ## The state of the probe -/

/-- Models the state change and the debug assertion of `JsspProbe::on_initial_population_created` (probe.rs:96-98):
`repeated` is the length of the vector of that name. -/
def onInitialPopulation (repeated popLen : Nat) : Except Panic Nat :=
  if repeated = 0 then .ok popLen else .error .assertion

end Ecrs.Jssp
