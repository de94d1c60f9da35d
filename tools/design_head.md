# Formal model of ecrs-org/ecrs in Lean 4 — design

(Generated by `tools/design.py` from `tools/design_head.md`, `tools/methods.json`, `properties.jsonl` and `MANIFEST.json`.)

## 1. Trusted base

* Lean 4.33.0's kernel. No axioms of our own; every property theorem depends on at most `propext`, `Classical.choice` and
  `Quot.sound`. AXIOMS.md lists the axioms of each theorem (from `#print axioms`). Concrete cases are closed by `rfl`, `decide` or
  `decide +kernel` (kernel reduction); no `native_decide`, no `bv_decide`.
* The reading of /repo: the code is not executed here; each model definition cites the file and lines it models.
* Contracts of external code, taken as *parameters with law fields* or as hypotheses, not as axioms:
  * `rand`: `gen_range` stays in its range, `gen::<f64>` in [0, 1), `index::sample` gives distinct positions, `shuffle` a
    permutation, weighted sampling distinct positions (`Rng`, `FRng` in `Basic.lean`, `FRng.lean`). Nothing is assumed about
    distributions or periods. A cloned generator either shares its state (`ThreadRng`) or not (seeded generators).
    The theorems about what *can* happen (C127–) additionally assume that the generator excludes no answer its
    contract allows (`Rng.Full`, `Verif/Scripted.lean`, where such a generator is constructed). The theorems about
    probabilities (C133–) assume that its draws are uniform and independent (`Ideal`, `Verif/Prob.lean`; such a
    generator is constructed in `Verif/ProbTape.lean`).
  * `Instant`: an arbitrary oracle. `rayon`: an arbitrary order of independent updates. `HashSet` iteration: an arbitrary
    permutation. `sort_unstable_by`: some sorted permutation when the comparison is a total order, anything otherwise.
  * the file system, clap, serde, log4rs: parameters, or left out (section 4).

## 2. Modelling conventions

* `&mut self` becomes returning the new value. Every panic (`assert!`, index out of bounds, `unwrap` on `None`, `gen_range` on an
  empty range, integer underflow, `unimplemented!`) is an explicit value of `Panic`; a computation is `M W α`: world in, result or panic
  and world out (`Basic.lean`). `Returns`, `IfReturns` and `Panics` are the total, partial and divergent Hoare triples over
  *all* worlds, that is for all seeds and all clocks.
* An RNG is any type `G` with an `Rng G U` structure. All theorems quantify over `G`, the structure and the state.
* `f64`: where only the order matters the model takes an arbitrary linear order with an explicit NaN (`Fl`); where arithmetic matters
  it is an ordered field, ℝ, or (fireflies, ants) an interface `Arith` of operations. Rounding is modelled for the
  sampling selections, the point generator and the ants (`Float/Rounding`: an arbitrary monotone idempotent rounding after every operation, with binary64
  round-to-nearest-even as an instance; exponent range unbounded except in `Ga/Overflow` and `Ga/RoundedPoints`). Elsewhere rounding, overflow to infinity and -0.0 are not
  modelled, unless a comment says so: theorems about sums, distances and thresholds hold for exact arithmetic.
* `usize` is `Nat` (no overflow; underflow is a panic where reachable; `usize::MAX` as a marker is `none`).
* Rust `while` loops without an obvious bound take fuel; running out is `Panic.outOfFuel`, and theorems say "for all
  sufficiently large fuel" (`Evaluates`), or prove the divergence for all fuel.
* Debug and release builds differ in `debug_assert!`; where this matters the model has a flag.
* Where a property is false of the code, the statement stays in properties.jsonl, the negation is proved on a witness (or for all
  inputs of a class), and what does hold is proved under the missing hypothesis (suffix `_partial` where it is a
  restriction of the claim, none at present; such a claim has status `partial` in MANIFEST.json).
* Beside each theorem (or group of theorems) an `example` instantiates its hypotheses on concrete data.

## 3. What each module models

| Module (lean/Verif) | Code |
|---|---|
| Basic, FRng, CounterRng, Scripted, Exc | panics, worlds, random numbers; concrete generators for examples; possible outcomes |
| Prob, ProbTape, ProbRun, ProbExpect, ProbCount, Ga/ProbSolver | probabilities of outcomes, expected values, binomial counts; an ideal generator; lower bounds for runs; probability that a GA run misses a fitness |
| Ga/Timed | src/ga.rs, src/ga/timer.rs: `run` with all readings of the clock and all durations of `Metrics` |
| Ga/Solver, Ga/SolverLemmas, Ga/Closed, Ga/Staged | src/ga.rs: `GeneticSolver::run`, metrics, callbacks (lemmas: invariants of runs) |
| Ga/Crossover (+Lemmas, LocusLemmas, PermLemmas) | src/ga/operators/crossover/impls/*.rs |
| Ga/Mutation, Ga/Selection, Ga/Replacement, Ga/Population | src/ga/operators/{mutation,selection,replacement}/impls.rs, src/ga/population/{impls,tools}.rs |
| Ga/Builder, Ga/Assemble, Ga/RealAssemble | src/ga/builder.rs, builder/{generic,bitstring,realvalued}.rs; whole solvers from shipped operators |
| Ga/Probe, Ga/Stdout | src/ga/probe/{probing_policy,policy_driven_probe,aggregated_probe,stdout_probe}.rs |
| Pso/Pso | src/pso.rs, pso/{particle,swarm,builder,termination_condition}.rs, pso/probe/*.rs |
| Ff/Arith, Ff/Ff | src/ff.rs, ff/{population,auxiliary,builder}.rs, ff/probe/*.rs |
| Aco/Matrix, Aco/Tsp, Aco/Aco | src/aco.rs, aco/{builder,pheromone,solution,termination_condition}.rs, aco/tsp/*.rs, aco/probe/*.rs |
| Jssp/Model (+ Instance, Graph, Schedule, Swap, LocalSearch, Evaluate, Determinism, Bounds, Arises: lemmas; Shop, Spec: vocabulary) | examples/jssp/problem.rs, parse.rs, problem/{individual,population,fitness}.rs |
| Jssp/Operators | examples/jssp/problem/{crossover,replacement,selection}.rs, main.rs |
| Jssp/Report, Jssp/Config | examples/jssp/problem/probe.rs, util.rs, config.rs, cli.rs, main.rs |
| TestFunctions/Core, Model, Lemmas | src/test_functions/mod.rs (all functions) |
| TestFunctions/Published | specification only: the published formulas of the benchmark functions |
| TestFunctions/Gulf, Interval, Trefethen, Trig | lemmas and a verified interval arithmetic for the test functions |
| Float/Rounding, Ga/Rounded | f64 rounding; src/ga/operators/selection/impls.rs (RouletteWheel, StochasticUniversalSampling) with rounding |
| Ga/Overflow | the same two operators with overflow to infinity, infinities and NaN |
| Ga/Integer | RouletteWheel on integer fitness values: wrapping or overflow-checked arithmetic of a signed or unsigned type |
| Text/Csv | the text of the CSV files: src/aco/tsp/util.rs `write_cities_csv`, what the CSV probes of aco, ff and pso write at the end (behaviour of the csv crate written down, text of a float a parameter) |
| Text/Json | the text of the JSON files of aco (`into_vec`, `Solution::serialize`, `IterationData::serialize`, `flush`), ff and pso (behaviour of serde_json's pretty printer written down, digits of a finite float a parameter, `null` for others) |
| Jssp/Logs | what the job shop example logs: examples/jssp/problem/probe.rs callbacks, `OutputData` and the log targets of examples/jssp/logging.rs (behaviour of log4rs written down) |
| Text/InstanceFile | the text of job shop instance files: examples/jssp/parse.rs `try_from` (behaviour of `str::lines`, `split_whitespace`, `parse::<usize>` written down) |
| Ga/RoundedPoints | src/ga/population/tools.rs and RandomPoints with rounding; one coordinate with overflow |
| Ga/Individual | creation, equality and order of individuals: src/ga/individual.rs, examples/jssp/problem/individual.rs, src/aco/solution.rs |
| Aco/Sampled | src/aco/tsp/{ant,ants_behaviour}.rs with the random number generator instead of given draws |
| Ga/Boltzmann | src/ga/operators/selection/impls.rs (Boltzmann::apply) with temperature, weights and rand 0.8.5's weighted sampling |
| Ga/Examples | examples/ga.rs, ga_bsc.rs, ga_rvc.rs, ga_ackley_test_function.rs (main without logging, probes and printing) |
| Aco/SampledRun | src/aco.rs (run, iterate) and src/aco/tsp/pheromone.rs for TSP with Ant System and the random number generator |
| Console | src/ff/probe/stdout_probe.rs, src/pso/probe/stdout_probe.rs (with the `Display` of swarm and particle), src/aco/probe/stdout_probe.rs; how an `f64` is printed is a parameter |
| Ff/Auxiliary | `rastrigin` of src/ff/auxiliary.rs |
| Ff/Examples | examples/ff.rs, examples/ff_logging.rs, examples/pso_multiple_probes.rs (printing and file writing are lists of callbacks and records) |
| Benches | benches/aco_bench.rs, benches/ff_bench.rs: what one iteration of each benchmark executes (criterion is not modelled) |
| RepoTests | the randomised `#[test]`s of tests/ and src/, as programs (the others are closed equations in Props/RepoExamples) |
| Coco/Model | coco/src/main.rs, coco/src/adapter.rs (the COCO library itself, suites, observers and logging are external: a record of calls with a contract) |
| Aco/Rounded | the arithmetic of src/aco with rounding after every operation |

## 4. Not modelled

Rounding of `f64` outside the sampling selections, the point generator and the ants; its exponent range outside the sampling selections and the point generator (there overflow is modelled in Ga/Overflow and Ga/RoundedPoints, underflow is not); exact text of stdout output and its encoding (csv, json and the job shop log files are modelled: Text/Csv, Text/Json, Jssp/Logs); file I/O errors; serde;
log4rs; MD5; performance and memory; the criterion measurements of benches/ and the plotting scripts. The GA `CsvProbe` and `JsonProbe` implement no trait in the pinned commit (their
`impl Probe` is commented out) and have no behaviour to model.

