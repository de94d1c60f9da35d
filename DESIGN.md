# Formal model of ecrs-org/ecrs in Lean 4 — design

(Generated by `tools/design.py` from `tools/design_head.md`, `tools/methods.json`, `properties.jsonl` and `MANIFEST.json`.)

## 1. Trusted base

* Lean 4.33.0's kernel. No axioms of our own; every property theorem depends on at most `propext`, `Classical.choice` and
  `Quot.sound`. AXIOMS.md lists the axioms of each theorem (from `#print axioms`). Concrete cases are closed by `rfl`, `decide` or
  `decide +kernel` (kernel reduction); no `native_decide`, no `bv_decide`.
* The reading of /repo: the code is not executed here; each model definition cites the file and lines it models.
* Contracts of external code, taken as *parameters with law fields* or as hypotheses, not as axioms:
  * `rand`: `gen_range` stays in its range, `gen::<f64>` in [0, 1), `index::sample` gives distinct positions, `shuffle` a
    permutation, weighted sampling distinct positions (`Rng`, `FRng` in `Basic.lean`, `FRng.lean`). Nothing is assumed about
    distributions or periods. A cloned generator either shares its state (`ThreadRng`) or not (seeded generators).
    The theorems about what *can* happen (C127–) additionally assume that the generator excludes no answer its
    contract allows (`Rng.Full`, `Verif/Scripted.lean`, where such a generator is constructed). The theorems about
    probabilities (C133–) assume that its draws are uniform and independent (`Ideal`, `Verif/Prob.lean`; such a
    generator is constructed in `Verif/ProbTape.lean`).
  * `Instant`: an arbitrary oracle. `rayon`: an arbitrary order of independent updates. `HashSet` iteration: an arbitrary
    permutation. `sort_unstable_by`: some sorted permutation when the comparison is a total order, anything otherwise.
  * the file system, clap, serde, log4rs: parameters, or left out (section 4).

## 2. Modelling conventions

* `&mut self` becomes returning the new value. Every panic (`assert!`, index out of bounds, `unwrap` on `None`, `gen_range` on an
  empty range, integer underflow, `unimplemented!`) is an explicit value of `Panic`; a computation is `M W α`: world in, result or panic
  and world out (`Basic.lean`). `Returns`, `IfReturns` and `Panics` are the total, partial and divergent Hoare triples over
  *all* worlds, that is for all seeds and all clocks.
* An RNG is any type `G` with an `Rng G U` structure. All theorems quantify over `G`, the structure and the state.
* `f64`: where only the order matters the model takes an arbitrary linear order with an explicit NaN (`Fl`); where arithmetic matters
  it is an ordered field, ℝ, or (fireflies, ants) an interface `Arith` of operations. Rounding is modelled for the
  sampling selections, the point generator and the ants (`Float/Rounding`: an arbitrary monotone idempotent rounding after every operation, with binary64
  round-to-nearest-even as an instance; exponent range unbounded except in `Ga/Overflow` and `Ga/RoundedPoints`). Elsewhere rounding, overflow to infinity and -0.0 are not
  modelled, unless a comment says so: theorems about sums, distances and thresholds hold for exact arithmetic.
* `usize` is `Nat` (no overflow; underflow is a panic where reachable; `usize::MAX` as a marker is `none`).
* Rust `while` loops without an obvious bound take fuel; running out is `Panic.outOfFuel`, and theorems say "for all
  sufficiently large fuel" (`Evaluates`), or prove the divergence for all fuel.
* Debug and release builds differ in `debug_assert!`; where this matters the model has a flag.
* Where a property is false of the code, the statement stays in properties.jsonl, the negation is proved on a witness (or for all
  inputs of a class), and what does hold is proved under the missing hypothesis (suffix `_partial` where it is a
  restriction of the claim, none at present; such a claim has status `partial` in MANIFEST.json).
* Beside each theorem (or group of theorems) an `example` instantiates its hypotheses on concrete data.

## 3. What each module models

| Module (lean/Verif) | Code |
|---|---|
| Basic, FRng, CounterRng, Scripted, Exc | panics, worlds, random numbers; concrete generators for examples; possible outcomes |
| Prob, ProbTape, ProbRun, ProbExpect, ProbCount, Ga/ProbSolver | probabilities of outcomes, expected values, binomial counts; an ideal generator; lower bounds for runs; probability that a GA run misses a fitness |
| Ga/Timed | src/ga.rs, src/ga/timer.rs: `run` with all readings of the clock and all durations of `Metrics` |
| Ga/Solver, Ga/SolverLemmas, Ga/Closed, Ga/Staged | src/ga.rs: `GeneticSolver::run`, metrics, callbacks (lemmas: invariants of runs) |
| Ga/Crossover (+Lemmas, LocusLemmas, PermLemmas) | src/ga/operators/crossover/impls/*.rs |
| Ga/Mutation, Ga/Selection, Ga/Replacement, Ga/Population | src/ga/operators/{mutation,selection,replacement}/impls.rs, src/ga/population/{impls,tools}.rs |
| Ga/Builder, Ga/Assemble, Ga/RealAssemble | src/ga/builder.rs, builder/{generic,bitstring,realvalued}.rs; whole solvers from shipped operators |
| Ga/Probe, Ga/Stdout | src/ga/probe/{probing_policy,policy_driven_probe,aggregated_probe,stdout_probe}.rs |
| Pso/Pso | src/pso.rs, pso/{particle,swarm,builder,termination_condition}.rs, pso/probe/*.rs |
| Ff/Arith, Ff/Ff | src/ff.rs, ff/{population,auxiliary,builder}.rs, ff/probe/*.rs |
| Aco/Matrix, Aco/Tsp, Aco/Aco | src/aco.rs, aco/{builder,pheromone,solution,termination_condition}.rs, aco/tsp/*.rs, aco/probe/*.rs |
| Jssp/Model (+ Instance, Graph, Schedule, Swap, LocalSearch, Evaluate, Determinism, Bounds, Arises: lemmas; Shop, Spec: vocabulary) | examples/jssp/problem.rs, parse.rs, problem/{individual,population,fitness}.rs |
| Jssp/Operators | examples/jssp/problem/{crossover,replacement,selection}.rs, main.rs |
| Jssp/Report, Jssp/Config | examples/jssp/problem/probe.rs, util.rs, config.rs, cli.rs, main.rs |
| TestFunctions/Core, Model, Lemmas | src/test_functions/mod.rs (all functions) |
| TestFunctions/Published | specification only: the published formulas of the benchmark functions |
| TestFunctions/Gulf, Interval, Trefethen, Trig | lemmas and a verified interval arithmetic for the test functions |
| Float/Rounding, Ga/Rounded | f64 rounding; src/ga/operators/selection/impls.rs (RouletteWheel, StochasticUniversalSampling) with rounding |
| Ga/Overflow | the same two operators with overflow to infinity, infinities and NaN |
| Ga/Integer | RouletteWheel on integer fitness values: wrapping or overflow-checked arithmetic of a signed or unsigned type |
| Text/Csv | the text of the CSV files: src/aco/tsp/util.rs `write_cities_csv`, what the CSV probes of aco, ff and pso write at the end (behaviour of the csv crate written down, text of a float a parameter) |
| Text/Json | the text of the JSON files of aco (`into_vec`, `Solution::serialize`, `IterationData::serialize`, `flush`), ff and pso (behaviour of serde_json's pretty printer written down, digits of a finite float a parameter, `null` for others) |
| Jssp/Logs | what the job shop example logs: examples/jssp/problem/probe.rs callbacks, `OutputData` and the log targets of examples/jssp/logging.rs (behaviour of log4rs written down) |
| Text/InstanceFile | the text of job shop instance files: examples/jssp/parse.rs `try_from` (behaviour of `str::lines`, `split_whitespace`, `parse::<usize>` written down) |
| Ga/RoundedPoints | src/ga/population/tools.rs and RandomPoints with rounding; one coordinate with overflow |
| Ga/Individual | creation, equality and order of individuals: src/ga/individual.rs, examples/jssp/problem/individual.rs, src/aco/solution.rs |
| Aco/Sampled | src/aco/tsp/{ant,ants_behaviour}.rs with the random number generator instead of given draws |
| Ga/Boltzmann | src/ga/operators/selection/impls.rs (Boltzmann::apply) with temperature, weights and rand 0.8.5's weighted sampling |
| Ga/Examples | examples/ga.rs, ga_bsc.rs, ga_rvc.rs, ga_ackley_test_function.rs (main without logging, probes and printing) |
| Aco/SampledRun | src/aco.rs (run, iterate) and src/aco/tsp/pheromone.rs for TSP with Ant System and the random number generator |
| Console | src/ff/probe/stdout_probe.rs, src/pso/probe/stdout_probe.rs (with the `Display` of swarm and particle), src/aco/probe/stdout_probe.rs; how an `f64` is printed is a parameter |
| Ff/Auxiliary | `rastrigin` of src/ff/auxiliary.rs |
| Ff/Examples | examples/ff.rs, examples/ff_logging.rs, examples/pso_multiple_probes.rs (printing and file writing are lists of callbacks and records) |
| Benches | benches/aco_bench.rs, benches/ff_bench.rs: what one iteration of each benchmark executes (criterion is not modelled) |
| RepoTests | the randomised `#[test]`s of tests/ and src/, as programs (the others are closed equations in Props/RepoExamples) |
| Coco/Model | coco/src/main.rs, coco/src/adapter.rs (the COCO library itself, suites, observers and logging are external: a record of calls with a contract) |
| Aco/Rounded | the arithmetic of src/aco with rounding after every operation |

## 4. Not modelled

Rounding of `f64` outside the sampling selections, the point generator and the ants; its exponent range outside the sampling selections and the point generator (there overflow is modelled in Ga/Overflow and Ga/RoundedPoints, underflow is not); exact text of stdout output and its encoding (csv, json and the job shop log files are modelled: Text/Csv, Text/Json, Jssp/Logs); file I/O errors; serde;
log4rs; MD5; performance and memory; the criterion measurements of benches/ and the plotting scripts. The GA `CsvProbe` and `JsonProbe` implement no trait in the pinned commit (their
`impl Probe` is commented out) and have no behaviour to model.

## 5. Each property: model, proof, status

| Property | Model and proof | Theorems in Props/ | Status |
|---|---|---|---|
| C01 GA result is the best individual ever evaluated | `Ga/Solver`: `run` with arbitrary operators and a trace of probe callbacks; loop invariant relating (population, best, trace), induction on generations | GaSolver (2) | proved |
| C02 on_new_best announces a strictly improving sequence ending in the result | same trace; the announced bests are a chain, by the loop invariant | GaSolver (1) | proved |
| C03 GA probe callback protocol | same trace; the shape of the callback sequence by induction on the loop | GaSolver (1) | proved |
| C04 GA termination and iteration budget | same; number of iterations from the loop condition, elapsed time an arbitrary oracle | GaSolver (2) | proved |
| C05 GA population size is constant | same; length invariant, under hypotheses on the replacement operator only | GaSolver (2) | proved |
| C06 GA fitness is up to date whenever it is observed | same; every shown individual was written by the last evaluation or is unchanged since | GaSolver (2) | proved |
| C07 NaN fitness is never silently accepted by the GA | same; NaN is an explicit fitness value, comparisons on it panic (`partial_cmp().unwrap()`) | GaSolver, Generalised (4) | proved |
| C08 Selection pressure against the optimisation direction | negations proved on runs of the operators in `Ga/Selection`, `Ga/Replacement` | Generalised, Replacement (4) | proved: Violation of the expected direction, proved for every population (not only a witness): C08_tournament_selects_worst, C08_rank_selects_worst, C08_weak_parent_drops_minimum. That run minimises is C01. |
| C09 Crossover arity | `Ga/Crossover`: `apply_pairs`; induction on chunks of two | CrossoverPerm (2) | proved |
| C10 Single-point crossover exchanges exactly one suffix | locus lemmas for one pair, for every cut point an RNG may draw | CrossoverLocus (3) | proved |
| C11 Two-point crossover exchanges exactly one middle segment | as C10 | CrossoverLocus (2) | proved |
| C12 Multi-point crossover: which loci are exchanged | as C10; parity of the first cut decides, both cases proved | CrossoverLocus (4) | proved: The expected alternation is false of the code for even first cuts; the statement is the exact behaviour, C12_multi_point_operator (whole operator, all draws). |
| C13 Multi-point crossover is locus-wise and complementary | as C10, complementary masks | CrossoverLocus (3) | proved |
| C14 Fixed-point crossover | as C10 | CrossoverLocus (2) | proved |
| C15 Uniform crossovers are locus-wise and complementary | as C10; the seeded-clone case shares the generator state | CrossoverLocus (5) | proved: Also proved: with a seeded generator the uniform crossovers reuse the same mask for ever (C15_seeded_uniform_never_advances). |
| C16 Shuffle crossover takes a fixed number of loci from each parent | as C10; counting in the shuffled mask | CrossoverLocus (2) | proved |
| C17 Ordered crossover preserves permutations | `Ga/Crossover`: segment + rotation; `List.Perm` by counting | CrossoverPerm (3) | proved |
| C18 Ordered crossover keeps the segment in place and the order of the rest | same, positions by index arithmetic | CrossoverPerm (1) | proved |
| C19 PMX terminates and preserves permutations | PMX chain following as a partial function on the mapping; termination by injectivity on duplicate-free segments, divergence shown on duplicates | CrossoverPerm (5) | proved |
| C20 PMX keeps the segment and inherits every other position by the mapping | same, closed form of the inherited position | CrossoverPerm, PossiblePmx (2) | proved |
| C21 PPX preserves permutations | PPX as a walk over two queues; `Perm` invariant | CrossoverPerm (2) | proved |
| C22 PPX preserves common precedence | same, sublist invariant | CrossoverPerm (1) | proved |
| C23 Pairwise gene conservation | per-pair conservation from the locus lemmas | CrossoverLocus (1) | proved |
| C24 Mutation never changes chromosome length | `Ga/Mutation`: folds over positions; length invariant | Mutation (2) | proved |
| C25 Reordering mutations preserve the gene multiset | `Perm` invariant; Interchange additionally as a chain of exchanges position by position | Mutation, Mutation2 (8) | proved |
| C26 FlipBit flips exactly the drawn positions | mask of drawn positions | Mutation (2) | proved |
| C27 Inversion reverses exactly one contiguous segment or does nothing | explicit segment | Mutation (3) | proved |
| C28 Selection returns the requested number of population members | `Ga/Selection`: `replicate`/`forEach` combinators over an arbitrary RNG; RankR by the next three draws | PermGa, Selection, Selection2 (10) | proved |
| C29 Roulette wheel returns members, exactly count of them for positive fitness | cumulative sums over an ordered field | Selection (3) | proved |
| C30 When RouletteWheel returns count individuals | equivalence: running sums of the spin; a generator drawing zero shows necessity | Selection, Selection3 (4) | proved: The expected unconditional count is false of the code (C30_roulette_negative_selects_nothing, C30_roulette_zero_draw_selects_nothing); the exact condition is C30_exact_count_iff. |
| C31 UniqueRandom and Boltzmann never select one position twice | `Nodup` of `index::sample` positions | Selection (3) | proved |
| C32 Tournament winner dominates its tournament | fold maximum of the drawn contenders | Selection (4) | proved |
| C33 SUS selects proportionally with minimal spread | pointer/cumulative-sum invariant, floor/ceil bounds | Selection (1) | proved |
| C34 When StochasticUniversalSampling returns count individuals | equivalence on the start pointer; the zero pointer picks count+1 individuals | Selection, Selection3 (4) | proved: The expected absence of panics is false of the code at the zero pointer; the exact condition is C34_sus_returns_iff. |
| C35 WeakParent keeps the two largest-fitness members of each family | `Ga/Replacement`: induction on pairs, debug and release builds | Replacement, Replacement2 (5) | proved |
| C36 Replacement size and content | case analysis | Replacement (1) | proved |
| C37 Random point populations respect dimension and bounds | `Ga/Population` over draws in half-open ranges | PointGenerator, Population (5) | proved |
| C38 Permutation and bit-string populations | shuffle is a permutation; coin flips | Population (2) | proved |
| C39 Permutation GA stays in permutation space | `Ga/Closed`: invariant of a run closed under all operators, instantiated at permutations | PermGa (3) | proved |
| C40 Builder defaults and completeness | `Ga/Builder`: builder state machine, case analysis | Builder (4) | proved |
| C41 Real-valued and bit-string presets run without panicking | composition of the builder with the solver theorem | Builder, Presets (3) | proved |
| C42 Preset GAs and odd population sizes | negation for every odd size | Presets (1) | proved: Violation proved for all odd sizes and all draws; together with C41 this settles every population size. |
| C43 GA generation-interval probing policy | `Ga/Probe`: policy as a function of the trace, induction | Probe (1) | proved |
| C44 Aggregated probes see every callback in registration order | list of probes, induction over callbacks | Probe (3) | proved |
| C45 PSO global best is the best position ever visited | `Pso`: history of visited positions, invariant; NaN explicit | Pso (4) | proved: Also proved: with a NaN at particle 0's start the best never changes (C45_nan_start_is_never_left). |
| C46 PSO best value never worsens | same | Pso (1) | proved |
| C47 PSO parallel update is schedule independent | rayon `par_iter_mut` as an arbitrary permutation of independent updates; order does not matter | Pso (2) | proved |
| C48 PSO iteration count and callbacks | trace shape | Pso (3) | proved |
| C49 PSO particles start inside the bounds and remain dimension-correct | dimension invariant | Pso (3) | proved |
| C50 PSO particles and the bounds | admissible draws that leave the box; convexity argument and induction on iterations when inertia is zero | Pso, Pso2 (2) | proved: The expected confinement is false of the code for every positive inertia weight (C50_particles_can_leave_the_bounds); where it does hold is C50_stays_without_inertia. |
| C51 PSO interval policy logs the final generation exactly once | policy state machine over the trace | Pso (3) | proved |
| C52 Firefly positions stay in the search box | `Ff` over an arithmetic interface `Ff/Arith`; box invariant | Ff (2) | proved |
| C53 What the firefly algorithm reports as best | invariant on the reported index, counterexamples | Ff (3) | proved: The expected agreement is false of the code (C53_position_not_value, C53_negative_objective); C53_reported_best is what holds. |
| C54 Firefly population setters | builder state machine; negation | Ff (3) | proved: Violation proved for all setter sequences. |
| C55 ACO ants build Hamiltonian tours | `Aco/Tsp`: ant state machine; visited list invariant, Hamiltonicity | AcoAnts (1) | proved |
| C56 ACO ants never get stuck with positive goodness | totality of the roulette for positive goodness | AcoAnts (2) | proved: Also: a stuck ant silently ends the iteration for all ants after it (C56_stuck_ant_drops_the_rest). |
| C57 ACO pheromone symmetry | matrix update formulas, symmetry invariant; counterexample for asymmetric start | AcoHistory, AcoPheromone (9) | proved: The local ACS update rules (not part of the claim) break symmetry: C57_local_update_breaks_symmetry. |
| C58 ACO pheromone non-negativity | non-negativity invariant | AcoHistory, AcoPheromone (7) | proved |
| C59 Max-Min ant system and the pheromone bounds | bounds after an update; negation for entries off the best path | AcoHistory, AcoPheromone (4) | proved: The expected lower bound is false of the code off the best path (C59_lower_bound_violated); C59_max_min_update is the exact effect of an update. |
| C60 ACO best solution is monotone | best-so-far fold | AcoBest (3) | proved: The batch-best part assumes no NaN fitness; C61_nan_hides_best shows that a NaN can hide the best. |
| C61 ACO run performs exactly the configured iterations and reports the batch best | loop unrolling over the trace | AcoBest, AcoRun, Generalised (7) | proved: The maximality part assumes no NaN fitness (C61_nan_hides_best is the counterexample otherwise); an iteration without paths panics. |
| C62 Tour fitness depends only on the cycle | rotation and reversal of the cycle sum | AcoBest (5) | proved |
| C63 PartFromEval assigns every solution to exactly one pheromone | `PartFromEval` buckets: partition by index | AcoParts (7) | proved: Finding: if all fitness values are equal, all solutions go to the part for the worst (C63_equal_fitness_all_worst). |
| C64 JSSP machine never double-books | `Jssp/Model`: machine reservations, interval disjointness invariant | Jssp (2) | proved |
| C65 JSSP replacement is elitist and size preserving | `JsspReplacement` as sort + swaps + splice; elitism through the sorted prefix | JsspRun (4) | proved: C65_replacement, C65_best_survives; over whole runs C65_generations_never_worsen; the panicking configurations are C65_replacement_panics. |
| C66 JSSP schedules are feasible | schedule generation as nested loops with fuel; invariant `SInv` on finish times, reservations and machine chains | Jssp (2) | proved: C66_construction_feasible for every well-formed instance; C66_evaluated_feasible for evaluation including the local search assumes that no job uses one machine twice in a row and that durations are positive (without it evaluation may not return at all, see C97). |
| C67 Benchmark functions have the documented minimum | `TestFunctions`: every function over an interface of real operations, evaluated in ℝ; sums of squares and explicit bounds | TestFunctions, TestFunctions2 (58) | proved: Real arithmetic (f64 rounding is not modelled). hosaki holds only on the nonnegative quadrant and up to a tolerance (C67_hosaki). Functions whose documented minimum the code contradicts are in C107; functions documented by rounded decimals in C122. |
| C68 RandomPoints repeats its points | negation: the generator is cloned | Population (1) | proved: Violation proved for all seeded generators. |
| C69 Real-valued preset never creates gene values | membership of genes in the initial population is preserved by the preset's operators | Generalised, Presets (2) | proved |
| C70 Families seen by the replacement operator | trace statement; the documented alignment refuted on a run | GaRuns2 (2) | proved: The documented family invariant is false of the code: C70_families_are_not_aligned exhibits a run of shipped operators; what holds for all runs is C70_replacement_receives_population. |
| C71 GA elapsed-time probing policy | policy on elapsed times | Probe (3) | proved |
| C72 Metrics at the start of a second run | second run from the metrics of the first | GaRuns (3) | proved: The stale start-of-run metrics contradict the expected reset (C72_second_run_is_stale); everything else about a second run is proved equal to a fresh run. |
| C73 PSO time limit is measured from the creation of the condition | time oracle; negation | Pso (2) | proved: Violation proved for all limits and times. |
| C74 PSO csv/json record files | records as a list, one per probed generation | Pso (1) | proved |
| C75 A converged PSO swarm is a fixed point | fixed point of the velocity/position update | Pso (1) | proved |
| C76 PSO vector printing | string of a vector | Pso (1) | proved |
| C77 PSO builder honours every setter | builder state machine | Pso (2) | proved |
| C78 Firefly bounds test | closed form of the bounds test; negation on the upper bound | Ff, Generalised (4) | proved: C78_bounds_test and C78_upper_bound_teleports cover every candidate; the teleport also happens in a run (C78_run_teleports). |
| C79 Firefly moves in generation 0 | step 0 unfolded; zero alfa makes the step NaN | Ff, Ff2 (2) | proved |
| C80 Firefly run: callbacks and absence of panics | trace shape; totality | Ff (2) | proved |
| C81 Firefly reported value never gets worse | minimum over generations | Ff (1) | proved |
| C82 Firefly generation interval policy | policy state machine | Ff (1) | proved |
| C83 Firefly CSV/JSON probes record each generation once | record list | Ff (1) | proved |
| C84 Which fireflies attract | brightness comparison; sign analysis for all finite values | Ff, Ff2 (3) | proved: The expected rule is false of the code for mixed signs; C84_all_signs covers all finite values. |
| C85 Firefly distances | distance matrix: symmetry, zero diagonal | Ff, FfInfinity (5) | proved |
| C86 Which fireflies attract a firefly | index set of attracting fireflies | Ff (2) | proved |
| C87 Firefly elapsed time policy | policy on elapsed times | Ff, Generalised (4) | proved: The documentation says first_threshold is the time of the first logging iteration; C87_first_log_late shows it is later. |
| C88 Goodness combines pheromone and heuristic entrywise | matrix entrywise | AcoAcs (3) | proved |
| C89 Paths returned by an Ant Colony System iteration | ACS ants; the last-step case analysis | AcoAcs, AcoAnts (4) | proved: The expected completeness is false of the code without positivity (C89_acs_returns_non_tour); C89_acs_paths and C89_acs_complete are what holds. |
| C90 Pheromone update formulas | closed form of evaporation and deposit | AcoPheromone, Generalised (6) | proved |
| C91 A whole TSP run keeps its promises | composition of C55-C61 | AcoRun (3) | proved |
| C92 ACO builder uses the last value of every component | builder state machine | AcoParts (2) | proved |
| C93 ACO file probes record every iteration | record list | AcoParts (3) | proved |
| C94 Generated TSP instances | distance matrix of generated instances | AcoBest, AcoMetric (5) | proved |
| C95 JSSP fitness is an achievable makespan | longest paths in the disjunctive graph; depth-first search with fuel proved equal to the longest path; local search keeps an acyclic selection | Jssp (1) | proved |
| C96 JSSP evaluation depends on the chromosome only | evaluation as a function of the chromosome: two runs of the loops related step by step | Jssp (1) | proved |
| C97 When JSSP evaluation returns | termination measure of decoding and local search; divergence: invariant of the depth-first search on a cyclic graph | Jssp, JsspZero (3) | proved: C97_evaluation_returns; the endless loops are C97_reentrant_job_diverges and C97_zero_duration_diverges. |
| C98 JSSP fitness respects the trivial lower bounds | job length and machine load bounds for feasible schedules | Jssp (1) | proved |
| C99 Resetting a JSSP individual | reset removes exactly the machine edges | Jssp (1) | proved |
| C100 Loading a JSSP instance | parser on token lines; totality on well-formed files | Jssp (2) | proved: C100_loading for well-formed files (positive number of jobs, no empty job); C100_empty_job_panics shows what happens for an empty job line. |
| C101 The graph the JSSP local search starts from | decoding as a fold over the scheduled operations; invariant linking machine edges to that list | Jssp, JsspGraph (2) | proved: C101_machine_edges is the general statement, C101_machine_edges_follow_decoding_order a case in which the orders differ. |
| C102 What the stored JSSP finish times are | finish times determine the start times; comparison of the two makespans | Jssp, JsspGraph (2) | proved: C102_finish_times is the general statement, C102_finish_times_do_not_realise_fitness a case in which they differ. |
| C103 When a whole JSSP run solves the instance | `Ga/Staged`: two-stage invariant of a run (known / shown individuals) | JsspRun (3) | proved: C103_solver_run; the panics are C103_odd_population_panics and C103_small_population_panics. Other instances: see C97. |
| C104 JSSP crossover | locus-wise crossover of random keys | JsspCrossover, JsspRun (4) | proved |
| C105 JSSP random search run | as C103 | JsspRun (1) | proved |
| C106 Dimension contract of the benchmark functions | all functions of the file, list vectors over ℝ: case analysis on the length, per-function definedness sets | TestFunctions3, TestFunctions5 (26) | proved: All functions of the file (quartic and xin_she_yang_1 are commented out in the source). forrester_et_al and gramacy_lee take a scalar and are total. Real arithmetic; for vss the vectors with a non-positive cosine of the second entry are not classified. |
| C107 Benchmark functions whose documented minimum the code contradicts | values in ℝ contradicting the documentation | TestFunctions4, TestFunctions5, TestFunctions6 (59) | proved: Exact characterisation of the violated expectation: each theorem proves that the code contradicts the documented minimum of one function. Real arithmetic, no domain restriction (the documentation states none). |
| C108 Benchmark functions that never return | functions that never return | TestFunctions3 (11) | proved: Exact characterisation of the violated expectation: each theorem proves that one function never returns. |
| C109 Metrics passed to the GA probe | metrics threaded through the loop | GaRuns (2) | proved |
| C110 GA evaluation budget | counting evaluations in the trace | GaRuns2 (1) | proved |
| C111 Seeded operators are reproducible | two runs from equal generator states; the thread-local generator as a separate component | GaRuns2 (6) | proved: False for Interchange (C111_interchange_not_reproducible); proved for every other shipped random operator and for whole permutation-GA runs without Interchange. |
| C112 GAs on real vectors and the box | box invariant of a run; counterexample for reordering mutations | RealGa (5) | proved: Leaving the box for different ranges with Interchange, Reversing or Inversion is C112_leaves_box. |
| C113 GA StdoutProbe log | log lines as a function of the trace | GaRuns2 (2) | proved |
| C114 JSSP: command line overrides configuration file overrides defaults | `Jssp/Config`: configuration as option overriding; iff characterisation | JsspConfig (5) | proved |
| C115 JSSP: the delay constant option is ignored | the option does not reach the fitness: equality of launches | JsspConfig (1) | proved: Violation proved for all command lines and file systems (C115_delay_const_ignored). |
| C116 JSSP: the logged average distance is the mean pairwise distance | `Jssp/Report`: double loop equals the sum over pairs; ℝ and `Real.sqrt` | JsspDistance (6) | proved |
| C117 JSSP: the reported solution string | `Jssp/Report`: contract of `sort_unstable_by`, comparison shown total on evaluated individuals, uniqueness of the sorted order | JsspReport (6) | proved: The failure for durations zero is C117_zero_durations_not_ordered; the rest is proved for positive durations and instances on which evaluation returns (C97). |
| C118 Best of each generation | trace statement about the best of each population | GaRuns2 (1) | proved |
| C119 PSO: how a particle moves | movement formula of an iteration unfolded per coordinate; triangle inequality | Pso2 (2) | proved |
| C120 Firefly: what each generation starts from | induction on generations: state of every generation in terms of the previous one | Ff2 (2) | proved |
| C121 Firefly builder: the last setter wins | fold over the setter calls; last relevant call by induction | Ff3 (1) | proved |
| C122 Minima documented as rounded decimals | values in ℝ: tangent polynomials, sums of squares and Taylor enclosures of sin, cos, exp; verified interval bisection in the kernel for trefethen | TestFunctions10, TestFunctions7, TestFunctions8, TestFunctions9 (6) | proved: Real arithmetic (f64 rounding is not modelled). The lower bounds of trefethen rest on a verified interval arithmetic evaluated by the kernel (Verif/TestFunctions/Interval.lean), which covers the whole plane: bisection inside a disc, an estimate outside. |
| C123 The job shop decoder follows its rule | trace of the main loop (induction on steps): specification of the feasible set, least fitting start on the machine | JsspDecode (1) | proved |
| C124 The job shop local search ends in a local optimum | rejected exchanges keep the longest path; longest path = shortest makespan of the schedules following a machine order (rank induction) | JsspLocalOpt (1) | proved |
| C125 Sampling selections under f64 rounding | rounding as an arbitrary monotone idempotent map; induction over the population; failures by exact evaluation of binary64 round-to-nearest-even | FloatSelection (9) | proved |
| C126 Ant colonies under f64 rounding | law-free ant model instantiated with rounded arithmetic; induction over the roulette remainders and running sums, relative error bounds; failures by exact evaluation of binary64 | FloatAco (13) | proved |
| C127 Crossovers exclude no outcome that their rule allows | possible outcomes of a full generator characterised by iff: the operator's return lemma one way, a script of draws the other | Possible, PossiblePmx (10) | proved |
| C128 What one mutation can turn a chromosome into | as C127; induction over the loci (FlipBit, Interchange), over the pieces (Reversing) | Possible2 (5) | proved |
| C129 Selections and population generators exclude nobody they should not | as C127; induction over the selection, the winner's position drawn last (Tournament), explicit draw (RouletteWheel) | Possible3 (9) | proved |
| C130 No population is out of reach of a genetic algorithm with mutation | induction over the generations: each step scripted through selection, crossover and mutation (C127-C129 lemmas), operators' generators as lawful lenses; the converse from C41 | Possible4 (3) | proved |
| C131 An ant colony never rules out a tour: every tour stays constructible, whatever the history | per step a draw inside the wanted vertex's slice of the roulette, lifted by induction over steps, ants and iterations ('draws that matter only from index k on'); positivity of the pheromone is the invariant of the run | AcoPossible (6) | proved: Exact arithmetic (under f64 rounding small goodness can be absorbed, C126). |
| C132 Symmetries of the benchmark landscapes | fold over a permutation with commuting steps (List.Perm induction), coordinatewise evenness through Forall₂, two-coordinate functions by ring and trigonometric identities | TestFunctions11 (12) | proved: Stated on the model over the real numbers; failures (panics on empty input, operations without a real value) are part of the compared result. |
| C133 With which probability the selection operators select | random initial state of the generator (Mathlib measure theory); laws of programs composed by a sequencing rule (countable disjoint unions), replicate as product; Lebesgue measure of the draws selecting a member by induction over the population; counting lists without repetition | ProbSelection, RankNan (8) | proved: Exact arithmetic (rounding: C125). `Ideal` (Verif/Prob.lean) is the assumption on the generator; Verif/ProbTape.lean constructs one, so it can be met. RankR: C133_rank_r is a finding. |
| C134 Probabilities of mutation, crossover and generation | program equalities reducing each operator to draws followed by a computation; laws of independent bits; uniform draw lemmas; counting orderings with a given pattern and lists with a given set; lower-bound rule for sequencing (Interchange) | ProbVariation, ProbVariation2, ProbVariation3, ProbVariation4 (15) | proved: Exact laws (Interchange: a lower bound for every ordering). The generator is ideal: real draws uniform on [0,1), integer draws, samples and shuffles uniform, all independent; ProbTape constructs one. RandomPoints is not covered (its results are not countable). |
| C135 Runs find the global optimum with probability tending to one | upper-bound rules for sequencing (failure only through missing mutations); invariant of the solver loop (evaluated population, best never forgotten); induction over generations; squeeze to the limit | ProbConverge (4) | proved: Exact real arithmetic and an ideal generator (Ideal, realised by tapeRng); all operators share one generator (ThreadRng); the clock is a program with a law that never reaches max_duration. StochasticUniversalSampling and Boltzmann are not covered (their draws are not part of Ideal). |
| C136 The probabilities of the tours of ants: the random proportional rule | measurability of the roulette by induction over the candidates; laws of draws; exact sequencing rule (an event that can happen through one prefix only); induction over the tour, the ants and the steps; refinement to the model with given draws | ProbAco (10) | proved: Exact real arithmetic, gen_range(0.0..=s) as s times a uniform draw; all ants share one generator. For exploiting ants the goodness has no ties within a row (with ties the hash order decides which best vertex is taken). |
| C137 Ant System can stagnate forever, also with Max-Min bounds | combinatorics of cycles (an ant that left the cycle is the complement of two straight walks); exponential lower bound per step; invariant of the pheromone (a floor on the cycle, geometric decay elsewhere) for each update rule; induction over iterations with a geometric series; refinement to the model of run | ProbAcoRun (3) | proved: Exact real arithmetic and real powers on nonnegative arguments; AntSystemAB only (Ant Colony System's behaviour is not covered, its pheromone update is). |
| C138 Boltzmann selection: cooling, the law of the sample, and what it favours | joint law of the n uniform draws (measure preserving map); marginal integrals of decreasing powers, by induction over the sequence of selected indices; ties have measure zero by squeezing between < and <=; analysis of powers and exponentials for the temperature; case analysis over infinities and NaN for the panics | ProbBoltzmann (9) | proved: Exact reals with infinities and NaN: no rounding and no underflow of the weights. The weighted sampling is modelled from the source of rand 0.8.5 (a BinaryHeap over keys u^(1/w)), the order of equal keys left open. |
| C139 What the GA example programs find | evaluation of the builder chains; totality of every operator on the invariant (lengths, box); C01 and C06 for the minimum; invariant relative to the initial population for the loci; C135 for the limit | GaExamples (6) | proved: Exact real arithmetic; logging, probes and the final println! left out. |
| C140 GAs on real vectors do not converge | invariant 'no gene in A' kept by every operator after the generator; law of the initial draws by induction over the list of draws; volumes of intervals and countable sets | ProbStuck (5) | proved: Ideal source of randomness, one generator, exact real arithmetic. |
| C141 What the COCO benchmark harness measures | Hoare logic for programs that log the points they evaluate; invariant of the solver loop counting 3 n evaluations a generation; induction over the restarts | Coco (6) | proved: The COCO library is external: assumed to count evaluations and return numbers (structure Contract, instance in the example). |
| C142 What the firefly and PSO example programs compute | the generation-0 jump (C79) for all but the best firefly, then equality of the runs; invariant 'finite and in the box'; records of the interval policies computed from the callback lists; PSO history invariant (C45) | FfExamples (5) | proved: Exact real arithmetic (firefly: with infinities and NaN). The samples of the firefly's flight distribution are assumed non-zero in generation 0 (otherwise C79's NaN case). |
| C143 The firefly search cools down geometrically | invariant 'coordinate within the remaining noise of [a,b]': one generation moves between existing coordinates plus bounded noise (C86), geometric series for the rest | FfCooling (2) | proved: Exact arithmetic (linearly ordered field with inf/nan); the numbers used must be finite, collected in the structure Moderate. Rounding errors are not included. |
| C144 The time measurements of a GA run | `Ga/Timed`: run with every clock reading; loop invariants over a monotone clock; simulation (16 readings an iteration) between the timed and the untimed run | FreshTimes, GaTimed (5) | proved: Time in natural numbers of nanoseconds; operators see the fields of Metrics without durations (no shipped operator reads them). |
| C145 Searches that only compare objective values do not depend on their scale | relational logic `Rel2` (`Relational`): two runs panic alike or return related results in the same world; operators shown to preserve 'same chromosome, transformed fitness'; loop induction; PSO and firefly by direct equality of transformed runs | FfSymmetry, OrderInvariance, Symmetry (7) | proved: GA: permutation, real-vector and bit-string configurations of shipped operators; PSO in arbitrary coordinate arithmetic; firefly in exact arithmetic (Ext) |
| C146 Searches do not depend on the units of the coordinates (where they do) | transport of particles/fireflies along an affine map commutes with every step; induction over the run | FfSymmetry, Symmetry (4) | proved: exact arithmetic over an ordered field; rounding breaks exact equivariance |
| C147 Which benchmark functions are the published ones, and the exact error of the others | independent specification file `TestFunctions/Published` with sums over `Fin n`; loops rewritten to sums, then ring identities; a running-sum lemma for `sargan` | FfAuxiliary, Published, Published2 (30) | proved: Published.lean is an independent specification (big sums over Fin n); agreement and exact error proved at every real point. Real arithmetic: f64 rounding is not modelled here. The published formulas are those of Jamil & Yang 2013 and of Surjanovic & Bingham as remembered by the author; the sandbox has no network to compare with the papers. Not compared: functions that always panic (C108), holder_table3, devilliers_glasser2, gulf_research, ursem/ripple variants whose published form is disputed, biggs_exp5/6. |
| C148 The console shows every iteration, completely and in order | the callbacks of every returning run (C48, C80, C61) mapped through the printing functions; lists of equal blocks for the line numbers | Console (4) | proved: Lines of text; the decimal rendering of an f64 is a parameter assumed to contain no line break. |
| C149 Genes are opaque names: renaming them renames the run | relational logic `Rel2` with the relation 'is the image under phi', loop by loop; driver shown to commute with any map of individuals that keeps the fitness | Relabel (4) | proved: Hash sets and maps of OrderedCrossover, Pmx and Ppx are modelled by their contents, so the claim includes that no result depends on hash iteration order only as far as the code never iterates over them (it does not). |
| C150 Job shop example: some optima are out of reach for every chromosome | decoder trace (C123) with the delay bound gives the rule; explicit instance family; positions on the machines along the trace (C101 edges); no exchange of the local search (C124 descent) touches both halves of the instance; run by the staged-run argument of C116/C117 | JsspUnreachable (3) | proved: Exact arithmetic for the genes (ordered field or reals); hypotheses on the evaluation operations (sane, ordered, delay at most 1.5 times the longest duration) are shown to hold for every chromosome of genes in [0,1). The run theorem inherits the hypotheses of the JSSP run model (C116). |
| C151 Which parameters the ACO constructors accept | case analysis on the extended numbers | AcoRanges (2) | proved: Comparisons of numbers are exact; no rounding is involved in these checks. |
| C152 StochasticUniversalSampling is unbiased | closed form of the pointer loop by floors (`ticks`), the pointers giving one copy more are an interval or the complement of one of length frac(share); volume, then the sum of two terms | ProbSus (2) | proved: Real numbers; the draw of the start pointer is assumed uniform on the closed interval (shown for a constructed generator). |
| C153 PSO: which coefficients let particles settle once the bests stop changing | stagnation is invariant, so one coordinate follows a second-order recurrence with multiplicative noise; samples of later iterations are independent of what earlier ones determine (independent sigma-algebras), which gives linear recurrences for the first and second moments; a quadratic Lyapunov function decreases below the bound and grows above it; summable mean squares give almost sure convergence | PsoStability (5) | proved: Exact real arithmetic, ideal independent uniform samples (constructed in the example). (3) is divergence in mean square, not of almost every path; nothing is claimed for equality in the bound. |
| C154 How often a gene is exchanged and two genes are separated by crossover | the laws of C134; counting cut points; sums over masks split at the positions in question (`sum_masks_at`), binomial sums for Shuffle | Linkage (10) | proved: Corollaries of the laws of C134, i.e. for an ideal generator (constructed in Verif/ProbTape.lean). MultiPoint is not included: its parity quirk (C12) leaves no closed form. |
| C155 Schema theorem for a generation of the textbook bit-string configuration | expected value as a sum over outcomes (`expected`, Verif/ProbExpect.lean), its calculus (sequence, loop, Markov); RouletteWheel's slots (C133), FlipBit's masks (C134), SinglePoint's cut points; chained through the loop body of `run` | Schema (6) | proved: About Ga.iteration, the loop body of run, for an ideal generator shared by all operators (constructed in Verif/ProbTape.lean); fitness values are real numbers. A generation that panics would count as zero carriers; under the hypotheses none does. |
| C156 What the benchmark programs run | Model of the benchmark closures (Benches). Prefix: induction over the generations, the configuration's generation limit is used by the loop only. Too few fireflies: the inner loop indexes the brightness list up to population_size. ACO: C91 (run), C94 (Euclidean matrix), C88 (positive goodness); the city lists are checked for duplicates by kernel computation on rationals. | Benches (7) | proved: Exact real arithmetic; city and firefly constants are the decimal numbers of the source. Criterion is not modelled. |
| C157 Sampling selection with infinite, overflowing or undefined fitness | Model of both operators on extended values (Ga/Overflow). NaN and infinity are absorbing for the running sum (induction over the population); case analysis on the threshold; probability one from the law of the unit draw; agreement with the rounded model without overflow by induction, for SUS along the pointer loop. | Overflow (9) | proved: Signed zeros are not distinguished. |
| C158 Copies stay copies: a converged population never moves again | Crossover: each operator's exact description (C10-C22) instantiated with equal parents; ordered by splitting the parent into prefix, segment and suffix, PMX by uniqueness of its result, PPX because a permutation preserving all precedences is the identity. Run: invariant over the trace 'after an all-c population only c occurs', by induction over the loop. Takeover: C157. | Copies (4) | proved |
| C159 Equality and order of individuals look at the fitness only | Model of the comparison traits (Ga/Individual); case analysis on NaN; induction over the populations; the minimum of a list containing a least element (C01 lemmas); rotations of duplicate-free lists. | Individual (9) | proved |
| C160 The repository's own randomised tests, judged for every generator | Each randomised #[test] is a program of the model in which a failed assert! is a panic; it is composed from the contracts of the generators and operators (C16, C25, C26, C28, C32, C34, C37, C38, C138, C149, C157, C159). The deterministic #[test]s are closed equations checked by the kernel. | RepoTests (11) | proved: the tests are programs of the model (Verif/RepoTests.lean); the tests without random numbers are closed equations in Props/RepoExamples.lean. RouletteWheel in f64 arithmetic with overflow, SUS in exact arithmetic. |
| C161 Random points in f64 arithmetic | Model of the generator with a rounding after every operation (Ga/RoundedPoints; with exact arithmetic it is definitionally Ga/Population). A rounded number shrunk by one part in 2^53 rounds strictly below it (case split on the binade), so width times draw stays below the width; monotonicity and idempotence of rounding give the closed box; integers below 2^53 times powers of two are representable; the counterexamples by the binade and tie lemmas of Float/Rounding; overflow by case analysis on extended values. | RoundedPoints (6) | proved: rounding with unbounded exponent (no underflow to subnormal numbers); overflow modelled for the single coordinate. The 2^-52 grid of rand 0.8.5's unit draw is a hypothesis on the generator. |
| C162 Genetic drift: a GA with Random or RankR selection is blind to fitness | Locus-wise crossover keeps the count at a locus (C10-C16 by cases); blind selection is a replicate of one uniform draw (C133), so the count after a generation is that of n independent draws. Binomial law and expected product of successes and failures by induction on n (ProbCount); mean and diversity over a run by induction on the generations; fixation by Markov's inequality and a squeeze. | Drift (6) | proved: probabilities over an ideal generator shared by all operators (C133 setting). |
| C163 Missing roads as infinite distances | Edge cost sums that meet infinity stay infinite, so the grade is 1/infinity = 0; a roulette over non-negative goodness stops at a positive edge unless the draw is 0 (induction over the hash set order), the exploitation loop finds a maximum because f64::MIN is below 0; the run by the loop invariant of C91 with the weaker matrix condition; probability 0 as a finite union of null events of C136; pheromone by the deposit formula of C90. | MissingEdges (9) | proved: Exact arithmetic; pow only assumed positive on positive numbers and 0 at 0 for beta; f64::MAX positive; the run is Ant System with IterationCond, the step theorem covers both kinds of ants. |
| C164 RouletteWheel with integer fitness selects next to nobody | `Ga/Integer`: RouletteWheel in the arithmetic of a Rust integer type (wrapping or checked, signed or unsigned, any word length); the residues `S u mod 2^w` of uniform draws are counted exactly (each multiple of gcd(S, 2^w) equally often), the pool by independence of the spins, a run by reduction to the first generation: no parents, no children, failed size assertion or index panic | IntegerRoulette (14) | proved: random integers are modelled as uniform numbers below 2^w read in the type; w is arbitrary; a sum of fitness values that itself overflows is not covered by the probability statements |
| C165 Position bias of the reordering mutations | `Props/MutationBias`: Reversing by the recursion of the carried gene (one bit at a time), Inversion by counting the ends for each start in the exact law of C134, Interchange by induction over the positions into a count of choices over n^n; not 1/n! because n-1 divides n! and is coprime to n^n | MutationBias (12) | proved: probabilities over an ideal generator (Ideal, an instance of which is constructed); rates in [0,1]; model of the operators as in C134 |
| C166 The random steps of the firefly algorithm favour the upper bounds | `Props/FfBias`: the new coordinate in closed form from C86 and the bounds test of C78; its mean by linearity of the integral; the probability by Fubini over the product of the two laws (a firefly exactly on the upper bound, which teleports, is a null event) and an interval integral; the total by the logarithmic series | FfBias (6) | proved: exact real arithmetic (no rounding); the draws are real-valued random variables with the law of gen_range(0.01..0.99) and Standard idealised as Lebesgue measure; generation 0 (division by 0) is C79 |
| C167 The CSV files can be read back | `Text/Csv` is the text of the files, `Props/CsvText` a separate reader (split at line feeds and commas, decimal numbers): round trip by induction over the records with `List.splitOn`, digits by `Nat.ofDigits_digits`; composed with C74, C83, C93 | CsvText (4) | proved: the behaviour of the csv crate (separators, quoting, header with the first record) is written down in Text/Csv.lean; the text of a float is a parameter with the stated round trip; opening and writing the file are taken to succeed |
| C168 No genetic algorithm of the library finds a needle faster than blind guessing | invariant over the generations (`iteration_blind`, `loop_blind`): the set of chromosomes evaluated so far, of bounded size, determines the state; per fixed draws a counting argument, then exchange of finite sum and integral over the law of the draws; bounds on waiting times by double counting and, from above, a geometric series over C135 | BlackBox (11) | proved: the individual type of the per-needle theorems is the shipped Individual (it always asks to be evaluated); the concrete bounds are for the bit-string preset and permutation GAs with the selections of C135; expected waiting time is stated as the sum over k of the probability that a run limited to k generations has not found it |
| C169 The swarms cannot find what they do not look at either | invariant over the iterations: every remembered best position is among the points visited, so replacing the objective function elsewhere changes nothing; counting of disjoint sets by an injection into the visited points; sum of probabilities as an integral of a finite count | SwarmBlackBox (7) | proved: the probabilistic form assumes that the event 'the set matters' is measurable (always so for finitely many outcomes); draws are oracles fixed before the run, as in all PSO and firefly theorems |
| C170 The JSON files can be read back, except numbers that are not finite | mutual structural induction over JSON values, arrays and objects: an independent recursive-descent reader inverts the pretty printer in any context that does not continue a number; records looked up by name | JsonText (5) | proved: serde_json's pretty printer is written down as library behaviour (Text/Json); creating and writing the file is taken to succeed |
| C171 Which files the job shop example accepts | strong induction on the text: splitting into lines and words agrees with the relational grammar of the specification, hence loading a text is loading its unique reading; panics through C100's loading | InstanceText (8) | proved: str::lines, str::split_whitespace and str::parse::<usize> are written down as library behaviour; opening and decoding the file is not modelled; where several panics are possible another one may be reported first |
| C172 The job shop log files tell the run | the callbacks' lines are rendered rows (case analysis), files of rendered rows are read back (C167, C170's round trips), and the rows are those of the run by C02, C109, C116, C117, C118 and C144 via C144's erasure of the clock | JsspLogs (3) | proved: log4rs (target to file, pattern {m}{n}) and serde_json are written down as library behaviour; real numbers for f64, how they are printed and the MD5 hash are parameters; a first run of a new solver and probe (a second run panics: C116) |
| C173 The job shop searches find, with probability tending to one, the best makespan that any chromosome describes | two chromosomes the decoder cannot tell apart give the same run of the decoder (simulation); around every chromosome a box of such chromosomes of positive volume is constructed; the run moves the generator's state by measure-preserving maps between the draws of the samples, so missing the box every time has probability (1 - volume)^(samples × generations) | JsspConverge (6) | proved: an ideal generator (independent uniform draws of real numbers), real numbers for f64; the time limit does not strike |
| C174 How far the job shop results can be from the optimum | induction on the decoder's steps (C123): each operation ends by the durations scheduled so far; work = sum of machine loads = sum of job lengths (C98's bounds); C150's instances for the lower bound | JsspGuarantee (6) | proved: the order of priorities is a total preorder and delays behave as in exact arithmetic (Sane, Ordered; proved for real and rational numbers) |
| C175 How long the searches wait for the optimum | waiting time = least number of generations after which a run from the same random state succeeds; its integral is at most the sum of the failure probabilities, which C135 and C173 bound by a geometric series; Bernoulli's inequality for the closed form | Waiting (5) | proved: generator ideal (Ideal R mu), as in C135 and C173 |
| C176 A larger budget only continues a run | induction on the number of generations, coupling the two loops step by step; the stop test of the larger budget implies that of the smaller | Anytime (7) | proved: the model passes the random state explicitly; real thread_rng runs never start twice from the same state |
| C177 Calling run again on the same object | the closed form of a run with a generation limit (C48) and induction on the second length; unfolding of the first generation of a second firefly run; kernel-evaluated counterexamples | Again (4) | proved: stated for swarms whose termination condition is the generation limit; ant colonies consume their object (run(mut self)) |
| C178 The numbering of coordinates, cities, individuals and (where the operators have no position bias) loci does not matter | swarms: equivariance of every step, induction on the iterations; fireflies: likewise; genetic operators: the closed forms C134 summed over renumbered masks; selections: the closed forms C133 count members only; ants: the closed form of the tour probabilities (C136) is invariant under renaming; pheromones: the closed form C90 | FfNumbering, LocusNumbering, Numbering, PopulationOrder (15) | proved: ants in exact arithmetic; exploiting ants for goodness without ties in a row (ties are broken by hash order) |

## 6. Testing the theorems

`tools/mutate.py` edits one definition of the model in a scratch copy, rebuilds and lists the property theorems that fail; every attempt
is a line of seeded/LOG.jsonl, with the theorems that were tightened because of it.
