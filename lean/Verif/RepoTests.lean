import Verif.Ga.Overflow
import Verif.Ga.Individual
import Verif.Ga.Boltzmann
import Verif.Ga.Builder
import Verif.Ga.Mutation
import Verif.Ga.Population
import Verif.Ga.Replacement

/-!
# The repository's own tests, run on the model

Each `#[test]` that draws random numbers is a program of the model; a failed `assert!` is a panic. `thread_rng()` is one generator for
the whole thread, so one state is passed through a test. The tests without random numbers are in `Props/RepoTests.lean`, as closed equations.
-/

namespace Ecrs.RepoTests
open Ecrs Ecrs.Ga

section
variable {G K : Type} [Field K] [LinearOrder K] [IsStrictOrderedRing K] (R : FRng G K) (lowest : K)

/-- The individuals of the tests, `Individual<Vec<A>>`; `lowest` is `f64::MIN`, the fitness `Individual::from` sets. -/
abbrev Ind (A K : Type) := Individual (List A) K

/-- `Individual<Vec<A>>` as individual type of the operators. -/
abbrev X (A : Type) : ChromOps (Ind A K) A := Individual.chromOps A (.num lowest)

/-! ## tests/selection_tests.rs -/

/-- The common body of the tests on bit strings (tests/selection_tests.rs:14-37 with `Random`, 39-62 `RouletteWheel`, 64-87 `Rank`, 89-112
`RankR`, 114-137 `Tournament`, 139-167 `StochasticUniversalSampling` after setting all fitness values to 1): `prepare` is what is done to the
population first, `select` the operator asked for 21 individuals. -/
def selectionSize (prepare : Ind Bool K → Ind Bool K) (select : List (Ind Bool K) → M G (List (Ind Bool K))) : M G Unit := do
  let dim ← bitStringsNew 21
  let made ← bitStringsGenerate R.toRng (X lowest Bool) dim 42
  let pop := made.map prepare
  M.assert (pop.length == 42)
  let selected ← select pop
  M.assert (selected.length == 21)

/-- The fitness as `f64` with infinities. -/
def fitF {A : Type} (i : Ind A K) : Ext K :=
  match i.fitness with
  | .num v => .fin v
  | .nan => .nan

/-- The fitness as a number (it is never NaN in the tests). -/
def fitN {A : Type} (i : Ind A K) : K :=
  match i.fitness with
  | .num v => v
  | .nan => 0

/-- Models `random_selection_returns_demanded_size` (tests/selection_tests.rs:14-37). -/
def randomSize : M G Unit := selectionSize R lowest id (selRandom R.toRng 21)

/-- Models `roulette_whell_returns_demanded_size` (tests/selection_tests.rs:39-62), in `f64` arithmetic. -/
def rouletteSize (A : Rounding K) : M G Unit := selectionSize R lowest id (selRouletteF A (-lowest) R.toRng fitF 21)

/-- Models `rank_returns_demanded_size` (tests/selection_tests.rs:64-87). -/
def rankSize : M G Unit := selectionSize R lowest id (selRank R.toRng (Individual.trait _ K) 21)

/-- Models `rankr_returns_demanded_size` (tests/selection_tests.rs:89-112). -/
def rankRSize : M G Unit := selectionSize R lowest id fun pop => do
  let r ← rankRNew (1 / 2)
  selRankR R.toRng r 21 pop

/-- Models `tournament_returns_demanded_size` (tests/selection_tests.rs:114-137). -/
def tournamentTest [FloorSemiring K] : M G Unit := selectionSize R lowest id fun pop => do
  let f ← tournamentNew (1 / 5)
  selTournament R.toRng (Individual.trait _ K) f 21 pop

/-- Models `sus_returns_demanded_size_when_fitness_positive` (tests/selection_tests.rs:139-167), in exact arithmetic. -/
def susSize (fuel : Nat) : M G Unit :=
  selectionSize R lowest (fun i => { i with fitness := .num 1 }) (selSus R fitN fuel 21)

/-- Models `boltzmann_returns_demanded_size` (tests/selection_tests.rs:169-204): generation 40, `max_gen_count` 300. -/
noncomputable def boltzmannSize {G : Type} (R : Rng G ℝ) (H : HeapOrder) (lowest : ℝ) : M G Unit := do
  let rp ← RandomPoints.withConstraints 21 (List.replicate 21 (-1, 1))
  let pop ← rp.generate R (X lowest ℝ) 42
  M.assert (pop.length == 42)
  let (alpha, temp0) ← boltzmannNew 5 100 (1 / 5) 6
  let selected ← boltzmannApply R H alpha temp0 300 21 fitF ⟨40, 42, none⟩ pop
  M.assert (selected.length == 21)

/-- Models `random_returns_whole_population_in_order` (tests/selection_tests.rs:206-218): `mock` is the generator of the operator, with a
state of its own. `zip` compares as many individuals as the shorter list has. -/
def randomInOrder {H : Type} (mock : Rng H K) (seed : H) : M G Unit := do
  let rp ← RandomPoints.new 21
  let pop ← rp.generate R.toRng (X lowest K) 42
  match selRandom mock 42 pop seed with
  | .error e => M.fail e
  | .ok (selected, _) => M.assert ((pop.zip selected).all fun p => p.1.eq p.2)

/-! ## tests/crossover_tests.rs -/

/-- Models `operator_takes_values_from_parents` (tests/crossover_tests.rs:13-24). -/
def takesFromParents (op : List (Ind K K) → M G (List (Ind K K))) : M G Unit := do
  let rp ← RandomPoints.new 30
  let parents ← rp.generate R.toRng (X lowest K) 2
  M.assert (parents.length == 2)
  let a ← idx parents 0
  let b ← idx parents 1
  let children ← op [a, b]
  let c ← idx children 0
  let d ← idx children 1
  M.fold (fun _ p => do
    let x ← idx a.chromosome p.2
    let y ← idx b.chromosome p.2
    M.assert (decide (x = p.1.1) || decide (y = p.1.1))
    M.assert (decide (x = p.1.2) || decide (y = p.1.2))) () (c.chromosome.zip d.chromosome).zipIdx

/-- Models `single_point_takes_values_from_parents`, `two_point_takes_values_from_parents` and `uniform_takes_values_from_parents`
(tests/crossover_tests.rs:26-34, 43-46). -/
def crossoverTest (op : Crossover K) : M G Unit := takesFromParents R lowest (op.apply R.toRng (X lowest K) (1 / 2) 0)

/-- Models `multi_point_takes_values_from_parents` (tests/crossover_tests.rs:36-41). -/
def multiPointTest : M G Unit := M.fold (fun _ n => do
  let k ← multiPointNew n
  crossoverTest R lowest (.multiPoint k)) () [4, 5, 6, 7, 8]

/-- Models `ppx_test` (tests/crossover_tests.rs:48-63). -/
def ppxTest : M G Unit := do
  let children ← Crossover.apply R.toRng (X lowest Nat) (1 / 2 : K) 0 .ppx [⟨List.range 10, .num lowest⟩, ⟨(List.range 10).reverse, .num lowest⟩]
  let c ← idx children 0
  let d ← idx children 1
  M.fold (fun _ p => M.assert (p.1 + p.2 == 9)) () (c.chromosome.zip d.chromosome)

/-- Models `shuffle_gives_appropriate_len` (src/ga/operators/crossover/impls.rs:62-74). -/
def shuffleLen : M G Unit := do
  let children ← Crossover.apply R.toRng (X lowest Nat) (1 / 2 : K) 0 .shuffle
    [⟨[8, 4, 7, 3, 6, 2, 5, 1, 9, 0], .num lowest⟩, ⟨[0, 1, 2, 3, 4, 5, 6, 7, 8, 9], .num lowest⟩]
  let c ← idx children 0
  let d ← idx children 1
  M.assert (c.chromosome.length == 10)
  M.assert (d.chromosome.length == 10)

/-- Models `shuffle_fulfills_conditions` (src/ga/operators/crossover/impls.rs:76-90). -/
def shuffleConditions : M G Unit := do
  let children ← Crossover.apply R.toRng (X lowest Nat) (1 / 2 : K) 0 .shuffle
    [⟨[1, 0, 0, 1, 0, 1, 0, 1, 0, 0], .num lowest⟩, ⟨[0, 1, 1, 0, 1, 0, 1, 0, 1, 1], .num lowest⟩]
  let c ← idx children 0
  let d ← idx children 1
  M.fold (fun _ p => do
    M.assert (p.1 * p.2 == 0)
    M.assert (p.1 + p.2 == 1)) () (c.chromosome.zip d.chromosome)

/-! ## src/ga/operators/mutation/impls.rs -/

/-- `sample_iter(Uniform::from(-1.0..1.0)).take(n)` (src/ga/operators/mutation/impls.rs:271-274 and in the other tests). -/
def sampled (n : Nat) : M G (List K) := M.replicate n (R.genHalfOpen (-1) 1)

/-- The same with `.map(|val| val > 0.)` (src/ga/operators/mutation/impls.rs:290-294 and in the other tests). -/
def sampledBits (n : Nat) : M G (List Bool) := do
  let c ← sampled R n
  pure (c.map fun v => decide (0 < v))

/-- Models `identity_does_not_change_chromosome` (src/ga/operators/mutation/impls.rs:269-286). -/
def identityTest : M G Unit := do
  let c ← sampled R 30
  let i ← applyMutation (X lowest K) (Mutation.run R.toRng .identity) ⟨c, .num 0⟩
  M.assert (decide (c = i.chromosome))

/-- Models `flipbit_negates_chromosome` (src/ga/operators/mutation/impls.rs:288-310). -/
def flipBitNegates : M G Unit := do
  let c ← sampledBits R 30
  let i ← applyMutation (X lowest Bool) (flipBit R.toRng 1) ⟨c, .num 0⟩
  M.fold (fun _ p => M.assert (p.1 == !p.2)) () (c.zip i.chromosome)

/-- Models `flipbit_does_not_mutate_rate_0` (src/ga/operators/mutation/impls.rs:312-334). -/
def flipBitZero : M G Unit := do
  let c ← sampledBits R 30
  let i ← applyMutation (X lowest Bool) (flipBit R.toRng 0) ⟨c, .num 0⟩
  M.fold (fun _ p => M.assert (p.1 == p.2)) () (c.zip i.chromosome)

/-- Models `interchange_introduces_changes` (src/ga/operators/mutation/impls.rs:336-358) for the sampled chromosome `c`. -/
def interchangeChanges (c : List Bool) : M G Unit := do
  let i ← applyMutation (X lowest Bool) (Mutation.run R.toRng (.interchange 1)) ⟨c, .num 0⟩
  M.assert (decide (0 < ((c.zip i.chromosome).filter fun p => p.1 != p.2).length))

/-- Models `interchange_does_not_mutate_rate_0` (src/ga/operators/mutation/impls.rs:360-382). -/
def interchangeZero : M G Unit := do
  let c ← sampledBits R 30
  let i ← applyMutation (X lowest Bool) (Mutation.run R.toRng (.interchange 0)) ⟨c, .num 0⟩
  M.fold (fun _ p => M.assert (p.1 == p.2)) () (c.zip i.chromosome)

/-- Models `reversing_bubbles_first_gene_when_rate_1` (src/ga/operators/mutation/impls.rs:384-408). -/
def reversingTest : M G Unit := do
  let c ← sampled R 40
  let first ← idx c 0
  let i ← applyMutation (X lowest K) (Mutation.run R.toRng (.reversing 1)) ⟨c, .num 0⟩
  let last ← idx i.chromosome (i.chromosome.length - 1)
  M.assert (decide (first = last))

/-! ## src/ga/population/tools.rs, src/ga/population/impls.rs -/

/-- `range.contains(x)` for `start..end`. -/
def contains (c : K × K) (x : K) : Bool := decide (c.1 ≤ x) && decide (x < c.2)

/-- Models the five tests of src/ga/population/tools.rs:66-130, one after the other. -/
def pointTools : M G Unit := do
  let a ← generatePoints R.toRng 40 100
  M.fold (fun _ p => M.assert (p.length == 40)) () a
  let b ← generatePoints R.toRng 20 100
  M.fold (fun _ p => M.fold (fun _ x => M.assert (contains (0, 1) x)) () p) () b
  let c ← generateWithSingleConstraint R.toRng 20 100 (-5, 15)
  M.fold (fun _ p => M.fold (fun _ x => M.assert (contains (-5, 15) x)) () p) () c
  let _ ← generateWithConstraints R.toRng 20 100 (List.replicate 10 (-2, 3) ++ List.replicate 10 (3, 40))
  let e ← generatePoints R.toRng 20 100
  M.assert (e.length == 100)
  let f ← generateWithConstraints R.toRng 20 100 (List.replicate 20 (-1, 1))
  M.assert (f.length == 100)
  let h ← generateWithSingleConstraint R.toRng 20 100 (-2, 2)
  M.assert (h.length == 100)

/-- The constraints of the tests in src/ga/population/impls.rs:252-253, 264. -/
def fourConstraints : List (K × K) := [(0, 2), (-1, 1), (3, 10), (-5, -4)]

/-- Models the tests `points_have_appropriate_len`, `points_follow_explicit_constraints` and `points_follow_implicit_constraints`
(src/ga/population/impls.rs:249-288), one after the other. -/
def pointTests : M G Unit := do
  let rp ← RandomPoints.withConstraints 4 fourConstraints
  let a ← rp.generate R.toRng (X lowest K) 30
  M.fold (fun _ p => M.assert (p.chromosome.length == 4)) () a
  let rp ← RandomPoints.withConstraints 4 fourConstraints
  let b ← rp.generate R.toRng (X lowest K) 30
  M.fold (fun _ p => M.fold (fun _ q => M.assert (contains q.2 q.1)) () (p.chromosome.zip fourConstraints)) () b
  let rp ← RandomPoints.new 30
  let c ← rp.generate R.toRng (X lowest K) 100
  M.fold (fun _ p => M.fold (fun _ x => M.assert (contains (0, 1) x)) () p.chromosome) () c

/-- Models the tests `bistrings_have_appropriate_len`, `permutations_have_appropriate_len` and `permutations_have_every_gene`
(src/ga/population/impls.rs:290-323), one after the other. -/
def discreteTests : M G Unit := do
  let dim ← bitStringsNew 30
  let a ← bitStringsGenerate R.toRng (X lowest Bool) dim 30
  M.fold (fun _ p => M.assert (p.chromosome.length == 30)) () a
  let b ← permutationsGenerate R.toRng (X lowest Nat) (List.range 30) 30
  M.fold (fun _ p => M.assert (p.chromosome.length == 30)) () b
  let c ← permutationsGenerate R.toRng (X lowest Nat) (List.range' 1 30) 10
  M.fold (fun _ p => M.assert (p.chromosome.sum == (30 + 1) * 30 / 2)) () c

/-! ## tests/replacement_tests.rs -/

/-- Models `noop_does_nothing` (tests/replacement_tests.rs:9-24) and `both_parents_returns_children` (lines 26-42); `expected` picks the list
compared with the result. -/
def replacementTest (op : Replacement) (expected : List (Ind K K) → List (Ind K K) → List (Ind K K)) : M G Unit := do
  let rp ← RandomPoints.new 4
  let pop ← rp.generate R.toRng (X lowest K) 40
  let children ← rp.generate R.toRng (X lowest K) 40
  let result ← op.apply (Individual.trait _ K) true pop children
  M.assert (Individual.eqAll result (expected pop children))

end
end Ecrs.RepoTests
