import Verif.Ga.Solver

/-!
# Model of the crossover operators (src/ga/operators/crossover/impls/*.rs)

A chromosome is a `List A` (Rust: any `Index<usize> + Push`, in practice `Vec<A>`).  Operators are
modelled on chromosomes (`apply_single`) and lifted to slices of individuals (`apply`).
-/

namespace Ecrs.Ga
open Ecrs

/-- `list[i]` with Rust's bounds check. -/
def idx {W A : Type} (l : List A) (i : Nat) : M W A :=
  match l[i]? with
  | some a => pure a
  | none => M.fail .indexOob

/-- How an individual type stores a chromosome: `chromosome()`, `From<ChromosomeT>` and
`clone()` followed by writes through `chromosome_mut()` (src/ga/individual.rs:22-53, 130-137). -/
structure ChromOps (I A : Type) where
  ch : I → List A
  ofCh : List A → I
  setCh : I → List A → I
  ch_ofCh : ∀ c, ch (ofCh c) = c
  ch_setCh : ∀ i c, ch (setCh i c) = c

/-- The shipped `Individual<Vec<A>>` (src/ga/individual.rs:65-137): `from` sets the fitness to
`f64::MIN` (`worst`), writes through `chromosome_mut` keep the cached fitness. -/
def Individual.chromOps {K : Type} (A : Type) (worst : Fl K) : ChromOps (Individual (List A) K) A where
  ch := Individual.chromosome
  ofCh c := ⟨c, worst⟩
  setCh i c := { i with chromosome := c }
  ch_ofCh _ := rfl
  ch_setCh _ _ := rfl

section
variable {G I A : Type}

/-- Body shared by every `apply` of the crossover module (e.g. single_point.rs:103-115): iterate over
`chunks(2)`; the second element of a chunk is `parents[1]`, out of bounds in a chunk of one. -/
def chunks2 (single : I → I → M G (I × I)) : List I → M G (List I)
  | [] => pure []
  | [_] => M.fail .indexOob
  | a :: b :: rest => do
    let (c1, c2) ← single a b
    let out ← chunks2 single rest
    pure (c1 :: c2 :: out)

/-- Models `CrossoverOperator::apply` of all ten operators (e.g. single_point.rs:103-115,
two_point.rs:125-137, multi_point.rs:139-151, fixed_point.rs:76-88, uniform.rs:109-121,
uniform_parameterized.rs:111-123, shuffle.rs:114-126, ordered.rs:166-178, pmx.rs:210-222,
ppx.rs:169-181): assert an even number of parents, then cross neighbours pairwise. -/
def applyPairs (single : I → I → M G (I × I)) (selected : List I) : M G (List I) := do
  M.assert (selected.length % 2 == 0)
  chunks2 single selected

/-- Lift a chromosome-level `apply_single` whose children are built with `IndividualT::from`. -/
def liftSingle (X : ChromOps I A) (single : List A → List A → M G (List A × List A))
    (a b : I) : M G (I × I) := do
  let (c1, c2) ← single (X.ch a) (X.ch b)
  pure (X.ofCh c1, X.ofCh c2)

/-- `for locus in lo..hi { child_1.push(s1[locus]); child_2.push(s2[locus]) }`, returning the pushed
pairs. -/
def pushLoci (s1 s2 : List A) (lo hi : Nat) : M G (List (A × A)) :=
  M.forEach (fun i => do
    let a ← idx s1 i
    let b ← idx s2 i
    pure (a, b)) (List.range' lo (hi - lo))

end

section
variable {G U I A : Type} [LinearOrder U] [Zero U] [One U] (R : Rng G U)

/-- Models `SinglePoint::apply_single` (single_point.rs:52-80). -/
def singlePoint (p1 p2 : List A) : M G (List A × List A) := do
  let cut ← R.genRange 0 p1.length
  let s1 ← pushLoci p1 p2 0 cut
  let s2 ← pushLoci p2 p1 cut p1.length
  pure ((s1 ++ s2).map Prod.fst, (s1 ++ s2).map Prod.snd)

/-- Models `TwoPoint::apply_single` (two_point.rs:53-102). -/
def twoPoint (p1 p2 : List A) : M G (List A × List A) := do
  M.assert (p1.length == p2.length)
  let x ← R.genRange 0 p1.length
  let y ← R.genRange 0 p1.length
  let c := if x ≤ y then (x, y) else (y, x)
  let s1 ← pushLoci p1 p2 0 c.1
  let s2 ← pushLoci p2 p1 c.1 c.2
  let s3 ← pushLoci p1 p2 c.2 p1.length
  pure ((s1 ++ s2 ++ s3).map Prod.fst, (s1 ++ s2 ++ s3).map Prod.snd)

/-- Models the first loop of `MultiPoint::apply_single` (multi_point.rs:96-102): the parents are
pushed unswapped, but the *current parents are swapped after every single locus*; the result carries
whether they end up swapped. -/
def multiFirst (p1 p2 : List A) : List Nat → M G (List (A × A) × Bool)
  | [] => pure ([], false)
  | i :: is => do
    let a ← idx p1 i
    let b ← idx p2 i
    let (rest, sw) ← multiFirst p1 p2 is
    pure ((a, b) :: rest, !sw)

/-- Models the remaining loops of `MultiPoint::apply_single` (multi_point.rs:104-115) on the sorted
cut points: between consecutive cuts push from the current parents, then swap them; after the last
cut push the tail.  Simplification: the index loop over `cut_points[idx], cut_points[idx+1]` is a
recursion over consecutive elements. `cur1`, `cur2` are `curr_parent_1`, `curr_parent_2`. -/
def multiRest (cur1 cur2 : List A) (len : Nat) : List Nat → M G (List (A × A))
  | [] => M.fail .indexOob
  | [c] => pushLoci cur1 cur2 c len
  | c :: c' :: cs => do
    let s ← pushLoci cur1 cur2 c c'
    let rest ← multiRest cur2 cur1 len (c' :: cs)
    pure (s ++ rest)

/-- Models `MultiPoint::apply_single` (multi_point.rs:65-118) given the sampled cut points, already
sorted (lines 93-117). -/
def multiPointCuts (p1 p2 : List A) (cuts : List Nat) : M G (List A × List A) := do
  let c0 ← idx cuts 0
  let (s1, sw) ← multiFirst p1 p2 (List.range c0)
  let s2 ← multiRest (if sw then p2 else p1) (if sw then p1 else p2) p1.length cuts
  pure ((s1 ++ s2).map Prod.fst, (s1 ++ s2).map Prod.snd)

/-- Models `MultiPoint::apply_single` (multi_point.rs:65-118); `sort_unstable` on distinct indices is
sorting. -/
def multiPoint (k : Nat) (p1 p2 : List A) : M G (List A × List A) := do
  M.assert (p1.length == p2.length)
  M.assert (decide (k ≤ p1.length))
  M.assert (decide (1 ≤ k))
  let cuts ← R.indexSample p1.length k
  multiPointCuts p1 p2 (cuts.mergeSort (· ≤ ·))

/-- Models `MultiPoint::with_rng` (multi_point.rs:50-53): the constructor's assertion. -/
def multiPointNew (k : Nat) : M G Nat := do
  M.assert (decide (1 ≤ k))
  pure k

/-- One write `child[i] = v`, panicking out of bounds. -/
def setIdx (l : List A) (i : Nat) (v : A) : M G (List A) :=
  if i < l.length then pure (l.set i v) else M.fail .indexOob

/-- Models the loop of `FixedPoint::apply_single` (fixed_point.rs:48-56) on the cloned chromosomes. -/
def fixedPointCh (cut : Nat) (p1 p2 : List A) : M G (List A × List A) :=
  M.fold (fun (c : List A × List A) i => do
    let b ← idx p2 i
    let c1 ← setIdx c.1 i b
    let a ← idx p1 i
    let c2 ← setIdx c.2 i a
    pure (c1, c2)) (p1, p2) (List.range' cut (p1.length - cut))

/-- Models `FixedPoint::apply_single` (fixed_point.rs:37-57): children are *clones* of the parents with
genes overwritten, so everything but the chromosome (cached fitness included) is inherited. -/
def fixedPoint (X : ChromOps I A) (cut : Nat) (a b : I) : M G (I × I) := do
  let (c1, c2) ← fixedPointCh cut (X.ch a) (X.ch b)
  pure (X.setCh a c1, X.setCh b c2)

/-- `for (locus, from_first) in mask.enumerate()`: push `(p1,p2)` or `(p2,p1)` (uniform.rs:78-86,
uniform_parameterized.rs:80-88, shuffle.rs:78-86), starting at locus `i`. -/
def maskLoci (p1 p2 : List A) : Nat → List Bool → M G (List (A × A))
  | _, [] => pure []
  | i, m :: ms => do
    let a ← idx p1 i
    let b ← idx p2 i
    let rest ← maskLoci p1 p2 (i + 1) ms
    pure ((if m then (a, b) else (b, a)) :: rest)

/-- Models `Uniform::apply_single` (uniform.rs:50-89); `half` is the literal `0.5`.  The mask is drawn
from a clone of the operator's generator. -/
def uniform (half : U) (p1 p2 : List A) : M G (List A × List A) := do
  M.assert (p1.length == p2.length)
  let vals ← R.onClone (M.replicate p1.length R.genUnit)
  let s ← maskLoci p1 p2 0 (vals.map fun v => decide (half ≤ v))
  pure (s.map Prod.fst, s.map Prod.snd)

/-- Models `UniformParameterized::apply_single` (uniform_parameterized.rs:56-91). -/
def uniformParameterized (bias : U) (p1 p2 : List A) : M G (List A × List A) := do
  M.assert (p1.length == p2.length)
  let vals ← R.onClone (M.replicate p1.length R.genUnit)
  let s ← maskLoci p1 p2 0 (vals.map fun v => decide (v ≤ bias))
  pure (s.map Prod.fst, s.map Prod.snd)

/-- Models `Shuffle::apply_single` (shuffle.rs:57-89). -/
def shuffle (p1 p2 : List A) : M G (List A × List A) := do
  let cut ← R.genRange 0 p1.length
  let shuffled ← R.genShuffle p1.length
  let s ← maskLoci p1 p2 0 (shuffled.map fun x => decide (x < cut))
  pure (s.map Prod.fst, s.map Prod.snd)

variable [DecidableEq A]

/-- Models the first `while` of `OrderedCrossover::create_child` (ordered.rs:72-78): walk `p2` (here
its unread suffix) pushing genes outside the substring set until `need` genes were pushed; running
off the end is an index panic.  Returns the pushed genes and the unread suffix. -/
def orderedFill (subset : List A) : Nat → List A → M G (List A × List A)
  | 0, rest => pure ([], rest)
  | _ + 1, [] => M.fail .indexOob
  | need + 1, g :: rest =>
    if g ∈ subset then orderedFill subset (need + 1) rest
    else do
      let (out, rest') ← orderedFill subset need rest
      pure (g :: out, rest')

/-- `p[begin..end]` read gene by gene. -/
def readRange (p : List A) (lo hi : Nat) : M G (List A) :=
  M.forEach (idx p) (List.range' lo (hi - lo))

/-- Models `OrderedCrossover::create_child` (ordered.rs:49-92).  The hash set is the list of its
elements; the last `while` (lines 84-90) pushes the remaining genes outside the set. -/
def orderedChild (p1 p2 : List A) (b e : Nat) : M G (List A) := do
  let sub ← readRange p1 b e
  let (pre, rest) ← orderedFill sub b p2
  pure (pre ++ sub ++ rest.filter (· ∉ sub))

/-- Models `OrderedCrossover::apply_single` (ordered.rs:110-136). -/
def ordered (p1 p2 : List A) : M G (List A × List A) := do
  M.assert (p1.length == p2.length)
  let b ← R.genRange 0 p1.length
  let e ← R.genRangeIncl b p1.length
  let c1 ← orderedChild p1 p2 b e
  let c2 ← orderedChild p2 p1 b e
  pure (c1, c2)

/-- Models `Pmx::to_val_index_map` followed by `.get(val).unwrap()` (pmx.rs:53-66, 108): the *last*
index holding the value (later insertions overwrite earlier ones). -/
def lastIndexOf (p : List A) (v : A) : M G Nat :=
  match (List.range p.length).reverse.find? (fun i => p[i]? = some v) with
  | some i => pure i
  | none => M.fail .unwrapNone

/-- Models the inner `loop` of `Pmx::create_child` (pmx.rs:105-114) started at `j`.  The Rust loop has
no bound; `fuel` bounds the model and running out of it is reported as `Panic.outOfFuel`, which is
shown unreachable for permutations and is genuine divergence otherwise. -/
def pmxExit (p1 p2 : List A) (b e : Nat) : Nat → Nat → M G Nat
  | 0, _ => M.fail .outOfFuel
  | fuel + 1, j => do
    let v ← idx p1 j
    let c ← lastIndexOf p2 v
    if b ≤ c ∧ c < e then pmxExit p1 p2 b e fuel c else pure c

/-- Models the second loop of `Pmx::create_child` (pmx.rs:99-115) over the segment positions. -/
def pmxPlace (fuel : Nat) (p1 p2 : List A) (b e : Nat) (sub : List A) :
    List (Option A) → List Nat → M G (List (Option A)) :=
  M.fold fun ch i => do
    let gene ← idx p2 i
    if gene ∈ sub then pure ch
    else do
      let c ← pmxExit p1 p2 b e fuel i
      setIdx ch c (some gene)

/-- One arm of the match at pmx.rs:119-122. -/
def pmxGene (p2 : List A) (i : Nat) : Option A → M G A
  | some g => pure g
  | none => idx p2 i

/-- Models the final loop of `Pmx::create_child` (pmx.rs:117-123): unfilled positions take `p2`'s
gene. -/
def pmxFinish (p2 : List A) : Nat → List (Option A) → M G (List A)
  | _, [] => pure []
  | i, o :: os => do
    let g ← pmxGene p2 i o
    let rest ← pmxFinish p2 (i + 1) os
    pure (g :: rest)

/-- Models `Pmx::create_child` (pmx.rs:75-125). -/
def pmxChild (fuel : Nat) (p1 p2 : List A) (b e : Nat) : M G (List A) := do
  let sub ← readRange p1 b e
  let init : List (Option A) := List.replicate p1.length none
  let ch0 ← M.fold (fun ch i => do
      let g ← idx p1 i
      setIdx ch i (some g)) init (List.range' b (e - b))
  let ch1 ← pmxPlace fuel p1 p2 b e sub ch0 (List.range' b (e - b))
  pmxFinish p2 0 ch1

/-- Models `Pmx::apply_single` (pmx.rs:149-175). -/
def pmx (fuel : Nat) (p1 p2 : List A) : M G (List A × List A) := do
  M.assert (p1.length == p2.length)
  let b ← R.genRange 0 p1.length
  let e ← R.genRangeIncl b p1.length
  let c1 ← pmxChild fuel p1 p2 b e
  let c2 ← pmxChild fuel p2 p1 b e
  pure (c1, c2)

/-- Models the inner `while` of `Ppx::create_child` (ppx.rs:79-87): advance the chosen parent's cursor
(here its unread suffix) past already taken genes; running off the end is an index panic. -/
def ppxNext (taken : List A) : List A → M G (A × List A)
  | [] => M.fail .indexOob
  | g :: rest => if g ∈ taken then ppxNext taken rest else pure (g, rest)

/-- Models the outer `while` of `Ppx::create_child` (ppx.rs:75-88): `mask` holds the not yet consumed
entries of `take_from_p1`; `rem1`, `rem2` are the unread suffixes of the parents; `taken` is both
`already_taken` and the child built so far. -/
def ppxGo : List Bool → List A → List A → List A → M G (List A)
  | [], taken, _, _ => pure taken
  | true :: ms, taken, rem1, rem2 => do
    let (g, rem1') ← ppxNext taken rem1
    ppxGo ms (taken ++ [g]) rem1' rem2
  | false :: ms, taken, rem1, rem2 => do
    let (g, rem2') ← ppxNext taken rem2
    ppxGo ms (taken ++ [g]) rem1 rem2'

/-- Models `Ppx::create_child` (ppx.rs:56-90) for a mask as long as the chromosome. -/
def ppxChild (p1 p2 : List A) (mask : List Bool) : M G (List A) := ppxGo mask [] p1 p2

/-- Models `Ppx::apply_single` (ppx.rs:110-138): one mask serves both children. -/
def ppx (p1 p2 : List A) : M G (List A × List A) := do
  M.assert (p1.length == p2.length)
  let mask ← M.replicate p1.length R.genCoin
  let c1 ← ppxChild p1 p2 mask
  let c2 ← ppxChild p2 p1 mask
  pure (c1, c2)

/-- The ten crossover operators exported by src/ga/operators/crossover/impls.rs:1-23, with their
constructor parameters. -/
inductive Crossover (U : Type)
  | singlePoint
  | twoPoint
  | multiPoint (cutPoints : Nat)
  | fixedPoint (cutPoint : Nat)
  | uniform
  | uniformParameterized (bias : U)
  | shuffle
  | ordered
  | pmx
  | ppx

/-- `CrossoverOperator::apply` of each shipped operator; `half` is the literal `0.5` of
uniform.rs:80, `fuel` bounds PMX's mapping loop. -/
def Crossover.apply (X : ChromOps I A) (half : U) (fuel : Nat) : Crossover U → List I → M G (List I)
  | .singlePoint => applyPairs (liftSingle X (Ga.singlePoint R))
  | .twoPoint => applyPairs (liftSingle X (Ga.twoPoint R))
  | .multiPoint k => applyPairs (liftSingle X (Ga.multiPoint R k))
  | .fixedPoint cut => applyPairs (Ga.fixedPoint X cut)
  | .uniform => applyPairs (liftSingle X (Ga.uniform R half))
  | .uniformParameterized bias => applyPairs (liftSingle X (Ga.uniformParameterized R bias))
  | .shuffle => applyPairs (liftSingle X (Ga.shuffle R))
  | .ordered => applyPairs (liftSingle X (Ga.ordered R))
  | .pmx => applyPairs (liftSingle X (Ga.pmx R fuel))
  | .ppx => applyPairs (liftSingle X (Ga.ppx R))

end
end Ecrs.Ga
