{"id": "C01", "title": "GA result is the best individual ever evaluated", "statement": "When GeneticSolver::run returns Some(best), best is one of the individuals of a population that was evaluated during the run, and no individual of any evaluated population (the initial one and the one after each generation) has a smaller fitness.", "quantifier": "every fitness function, every choice of operators, population factory, RNG behaviour, clock behaviour and generation limit for which run returns", "why_tests_cant": "The space of operator behaviours, random streams and run lengths is unbounded; a test sees one trajectory.", "anchors": ["src/ga.rs::GeneticSolver::run", "src/ga.rs::find_best_individual"]}
{"id": "C02", "title": "on_new_best announces a strictly improving sequence ending in the result", "statement": "The fitness values passed to Probe::on_new_best strictly decrease over a run, and the last announced individual is the one returned.", "quantifier": "every run that returns", "why_tests_cant": "Needs an invariant over an unbounded history of generations.", "anchors": ["src/ga.rs::GeneticSolver::run", "src/ga/probe.rs::Probe::on_new_best"]}
{"id": "C03", "title": "GA probe callback protocol", "statement": "The callbacks of a GA run form exactly: on_start, on_initial_population_created, on_new_best, then for each generation on_iteration_start, on_new_generation, on_best_fit_in_generation, optionally on_new_best, on_iteration_end, and finally on_end exactly once.", "quantifier": "every run that returns, every number of generations", "why_tests_cant": "A regular-language claim over traces of any length.", "anchors": ["src/ga.rs::GeneticSolver::run", "src/ga/probe.rs::Probe"]}
{"id": "C04", "title": "GA termination and iteration budget", "statement": "A run performs at most generation_limit generations, numbered 1,2,3,... consecutively in the metrics; it stops at the first generation at whose end the elapsed time has reached max_duration, and otherwise performs exactly generation_limit; with limit >= 1 at least one generation is run even if max_duration is zero.", "quantifier": "every clock behaviour, limit and max_duration", "why_tests_cant": "Clock schedules cannot be enumerated by tests.", "anchors": ["src/ga.rs::GeneticSolver::run"]}
{"id": "C05", "title": "GA population size is constant", "statement": "Every population handed to on_new_generation has exactly params.population_size individuals; a replacement operator that returns any other number makes the run panic instead of continuing silently.", "quantifier": "every replacement operator and run", "why_tests_cant": "Quantifies over arbitrary user supplied operators.", "anchors": ["src/ga.rs::GeneticSolver::run"]}
{"id": "C06", "title": "GA fitness is up to date whenever it is observed", "statement": "If individuals report requires_evaluation truthfully, then every individual handed to the selection operator, to on_initial_population_created, on_new_generation, on_best_fit_in_generation and on_new_best carries fitness equal to the fitness function at its chromosome; children handed to a replacement operator that asks for children fitness do too.", "quantifier": "every fitness function, operators that keep the truthful-flag contract, and run lengths", "why_tests_cant": "An invariant over all reachable populations.", "anchors": ["src/ga.rs::GeneticSolver::run", "src/ga.rs::eval_pop", "src/ga/individual.rs::IndividualTrait::requires_evaluation"]}
{"id": "C07", "title": "NaN fitness is never silently accepted by the GA", "statement": "If a population of at least two individuals handed to best-individual search contains a NaN fitness, the run panics; it never returns a best individual chosen from such a population.", "quantifier": "every population with a NaN at any position", "why_tests_cant": "NaN can occur at any index of any population.", "anchors": ["src/ga/individual.rs::Ord for Individual", "src/ga.rs::GeneticSolver::run"]}
{"id": "C08", "title": "Selection pressure against the optimisation direction", "statement": "A GA minimises: run returns an individual of least fitness. A user expects the fitness-based operators to prefer smaller fitness. In fact they prefer larger fitness: a full Tournament selects only individuals of largest fitness, Rank keeps the larger of each two individuals it draws, and WeakParent never keeps a parent whose fitness is strictly below that of the other three members of its family.", "quantifier": "every population without NaN fitness, all random draws", "why_tests_cant": "Directional claim over all populations; shipped tests check operators in isolation.", "anchors": ["src/ga/operators/selection/impls.rs::Rank, Tournament", "src/ga/operators/replacement/impls.rs::WeakParent", "src/ga.rs::GeneticSolver::run"]}
{"id": "C09", "title": "Crossover arity", "statement": "Every shipped crossover operator, given an even number of selected individuals, either panics or returns exactly as many children as were selected; given an odd number it always panics.", "quantifier": "all operators, all selected lists, all RNG behaviours", "why_tests_cant": "Any list length and random stream.", "anchors": ["src/ga/operators/crossover/impls/*.rs::CrossoverOperator::apply"]}
{"id": "C10", "title": "Single-point crossover exchanges exactly one suffix", "statement": "For parents of equal non-zero length single-point crossover never panics and there is a cut c < len such that child1 = p1[..c] ++ p2[c..] and child2 = p2[..c] ++ p1[c..]; for an empty first parent or a shorter second parent with cut reached it panics.", "quantifier": "all parents and RNG behaviours", "why_tests_cant": "All chromosome lengths and cut points.", "anchors": ["src/ga/operators/crossover/impls/single_point.rs::SinglePoint"]}
{"id": "C11", "title": "Two-point crossover exchanges exactly one middle segment", "statement": "For parents of equal non-zero length two-point crossover never panics and there are cuts b <= e < len with child1 = p1[..b] ++ p2[b..e] ++ p1[e..] and child2 the mirror image; unequal lengths panic.", "quantifier": "all parents and RNG behaviours", "why_tests_cant": "All lengths and cut pairs.", "anchors": ["src/ga/operators/crossover/impls/two_point.rs::TwoPoint"]}
{"id": "C12", "title": "Multi-point crossover: which loci are exchanged", "statement": "With k cut points c1<...<ck drawn from the loci, a user expects child1 to take its genes from p1 before c1, from p2 in [c1,c2), from p1 in [c2,c3) and so on, child2 being complementary. This is what happens when c1 is odd. When c1 is even (in particular when c1 = 0) the first exchange is lost: a locus is exchanged exactly if a positive even number of cut points lies at or before it; with one even cut point the children are copies of the parents.", "quantifier": "all parents of equal length >= k >= 1 and all cut sets the generator may draw", "why_tests_cant": "All cut sets of any size.", "anchors": ["src/ga/operators/crossover/impls/multi_point.rs::MultiPoint"]}
{"id": "C13", "title": "Multi-point crossover is locus-wise and complementary", "statement": "For parents of equal length n and 1 <= k <= n cut points multi-point crossover never panics, both children have length n, and at every locus the two children hold the two parents' genes of that locus, one each; unequal lengths, k=0 and k>n panic.", "quantifier": "all parents, k and RNG behaviours", "why_tests_cant": "All lengths and cut sets.", "anchors": ["src/ga/operators/crossover/impls/multi_point.rs::MultiPoint"]}
{"id": "C14", "title": "Fixed-point crossover", "statement": "For equal-length parents fixed-point crossover with cut c yields child1 = p1[..c] ++ p2[c..], child2 = p2[..c] ++ p1[c..] and, when c >= len, copies of the parents; it is deterministic and uses no randomness.", "quantifier": "all parents and cut points", "why_tests_cant": "All lengths and cuts.", "anchors": ["src/ga/operators/crossover/impls/fixed_point.rs::FixedPoint"]}
{"id": "C15", "title": "Uniform crossovers are locus-wise and complementary", "statement": "Uniform and parameterized-uniform crossover of equal-length parents never panic; at every locus the children hold the two parents' genes, one each; bias >= 1 copies the parents, bias < 0 swaps them.", "quantifier": "all parents, biases and RNG behaviours", "why_tests_cant": "All lengths and masks.", "anchors": ["src/ga/operators/crossover/impls/uniform.rs", "src/ga/operators/crossover/impls/uniform_parameterized.rs"]}
{"id": "C16", "title": "Shuffle crossover takes a fixed number of loci from each parent", "statement": "Shuffle crossover of equal non-empty parents never panics, is locus-wise complementary and there is c < len such that exactly c loci of child1 come from p1.", "quantifier": "all parents and RNG behaviours", "why_tests_cant": "All permutations of all lengths.", "anchors": ["src/ga/operators/crossover/impls/shuffle.rs::Shuffle"]}
{"id": "C17", "title": "Ordered crossover preserves permutations", "statement": "Given two parents that are permutations of one duplicate-free gene set, ordered crossover never panics and both children are permutations of that gene set.", "quantifier": "all gene sets, permutations and RNG behaviours", "why_tests_cant": "n! permutations times cut pairs.", "anchors": ["src/ga/operators/crossover/impls/ordered.rs::OrderedCrossover"]}
{"id": "C18", "title": "Ordered crossover keeps the segment in place and the order of the rest", "statement": "Each child carries p1[begin..end] at the same positions, and the remaining genes appear in the relative order they have in the other parent.", "quantifier": "all duplicate-free parents and cut pairs", "why_tests_cant": "As above.", "anchors": ["src/ga/operators/crossover/impls/ordered.rs::create_child"]}
{"id": "C19", "title": "PMX terminates and preserves permutations", "statement": "Given two parents that are permutations of one duplicate-free gene set, PMX never panics, its mapping loop terminates, and both children are permutations of that gene set.", "quantifier": "all gene sets, permutations and cut pairs", "why_tests_cant": "Termination of the cycle-following loop is not testable.", "anchors": ["src/ga/operators/crossover/impls/pmx.rs::Pmx"]}
{"id": "C20", "title": "PMX keeps the segment and inherits every other position by the mapping", "statement": "The PMX child equals p1 on [begin,end), and outside the segment every position whose p2 gene is not in the segment keeps p2's gene.", "quantifier": "all duplicate-free parents and cut pairs", "why_tests_cant": "As above.", "anchors": ["src/ga/operators/crossover/impls/pmx.rs"]}
{"id": "C21", "title": "PPX preserves permutations", "statement": "Given two parents that are permutations of one duplicate-free gene set, precedence-preservative crossover never panics and both children are permutations of it.", "quantifier": "all gene sets, permutations and RNG masks", "why_tests_cant": "n! permutations times 2^n masks.", "anchors": ["src/ga/operators/crossover/impls/ppx.rs::Ppx"]}
{"id": "C22", "title": "PPX preserves common precedence", "statement": "If gene a precedes gene b in both parents then a precedes b in both children.", "quantifier": "all duplicate-free parents, genes and masks", "why_tests_cant": "As above.", "anchors": ["src/ga/operators/crossover/impls/ppx.rs::Ppx"]}
{"id": "C23", "title": "Pairwise gene conservation", "statement": "For every locus-wise crossover (single, two, multi, fixed point, uniform, parameterized uniform, shuffle) the multiset of genes of the two children equals that of the two parents.", "quantifier": "all equal-length parents and RNG behaviours", "why_tests_cant": "All lengths and masks.", "anchors": ["src/ga/operators/crossover/impls/"]}
{"id": "C24", "title": "Mutation never changes chromosome length", "statement": "Every shipped mutation operator that returns leaves the chromosome length unchanged.", "quantifier": "all operators, chromosomes, rates and RNG behaviours", "why_tests_cant": "All lengths and streams.", "anchors": ["src/ga/operators/mutation/impls.rs"]}
{"id": "C25", "title": "Reordering mutations preserve the gene multiset", "statement": "Interchange, Reversing and Inversion leave the multiset of genes unchanged, hence permutations stay permutations; Identity changes nothing.", "quantifier": "all chromosomes, rates and RNG behaviours", "why_tests_cant": "All lengths and streams.", "anchors": ["src/ga/operators/mutation/impls.rs::Interchange, Reversing, Inversion, Identity"]}
{"id": "C26", "title": "FlipBit flips exactly the drawn positions", "statement": "FlipBit negates exactly the loci whose draw is below the rate: rate <= 0 changes nothing and rate >= 1 negates every bit.", "quantifier": "all bit strings, rates and RNG behaviours", "why_tests_cant": "All lengths and streams.", "anchors": ["src/ga/operators/mutation/impls.rs::FlipBit"]}
{"id": "C27", "title": "Inversion reverses exactly one contiguous segment or does nothing", "statement": "Inversion either returns the chromosome unchanged or reverses one inclusive segment [from,to]; it panics exactly on an empty chromosome when a mutation is drawn.", "quantifier": "all chromosomes, rates and RNG behaviours", "why_tests_cant": "All lengths and streams.", "anchors": ["src/ga/operators/mutation/impls.rs::Inversion"]}
{"id": "C28", "title": "Selection returns the requested number of population members", "statement": "Random, Rank, RankR, Tournament, UniqueRandom and Boltzmann selection, when they return, return exactly the requested count, each a member of the population.", "quantifier": "all populations, counts and RNG behaviours", "why_tests_cant": "All sizes and streams.", "anchors": ["src/ga/operators/selection/impls.rs"]}
{"id": "C29", "title": "Roulette wheel returns members, exactly count of them for positive fitness", "statement": "RouletteWheel always returns at most count individuals, all members; if every fitness is non-negative (exact arithmetic) it returns exactly count from a non-empty population, and individuals of zero weight are chosen only when the threshold is exactly reached.", "quantifier": "all populations, counts and RNG behaviours", "why_tests_cant": "All weights and streams.", "anchors": ["src/ga/operators/selection/impls.rs::RouletteWheel"]}
{"id": "C30", "title": "When RouletteWheel returns count individuals", "statement": "A user expects RouletteWheel to return exactly the requested number of individuals whatever the signs of the fitness values. In fact one spin with threshold t selects an individual iff the running fitness sum reaches t, and for count >= 1 the exact count is guaranteed for every generator iff the running sum is non-negative at some position (so never if all fitness values are negative).", "quantifier": "all populations, fitness functions, counts and generators (exact arithmetic)", "why_tests_cant": "Any real fitness values.", "anchors": ["src/ga/operators/selection/impls.rs::RouletteWheel"]}
{"id": "C31", "title": "UniqueRandom and Boltzmann never select one position twice", "statement": "UniqueRandom and Boltzmann select pairwise distinct population positions, and UniqueRandom panics exactly when more individuals are requested than exist.", "quantifier": "all populations, counts and RNG behaviours", "why_tests_cant": "All samples.", "anchors": ["src/ga/operators/selection/impls.rs::UniqueRandom, Boltzmann"]}
{"id": "C32", "title": "Tournament winner dominates its tournament", "statement": "Each individual returned by Tournament selection has the largest fitness of a set of max(floor(n*size_factor),1) distinct population positions; a size_factor outside [0,1] is rejected at construction.", "quantifier": "all populations, factors, RNG behaviours", "why_tests_cant": "All samples.", "anchors": ["src/ga/operators/selection/impls.rs::Tournament"]}
{"id": "C33", "title": "SUS selects proportionally with minimal spread", "statement": "With positive total fitness and non-negative fitness values, when StochasticUniversalSampling returns, each individual of fitness f is selected floor(f/d) or ceil(f/d) times, d = total/count (exact arithmetic), in population order.", "quantifier": "all populations, counts, start offsets", "why_tests_cant": "All real weights and offsets.", "anchors": ["src/ga/operators/selection/impls.rs::StochasticUniversalSampling"]}
{"id": "C34", "title": "When StochasticUniversalSampling returns count individuals", "statement": "With non-negative fitness values of positive total and count >= 1, StochasticUniversalSampling returns exactly count individuals iff the start pointer drawn from [0, total/count] is not exactly zero; on zero it panics (a user expects no panic at all). With total zero it panics as well.", "quantifier": "all populations, fitness functions, counts and pointers the generator may draw (exact arithmetic)", "why_tests_cant": "Measure-zero boundary draw.", "anchors": ["src/ga/operators/selection/impls.rs::StochasticUniversalSampling"]}
{"id": "C35", "title": "WeakParent keeps the two largest-fitness members of each family", "statement": "WeakParent returns a population of the same size in which positions 2k,2k+1 hold the two individuals of largest fitness among parents 2k,2k+1 and children 2k,2k+1.", "quantifier": "all even-sized populations and children of the same size", "why_tests_cant": "All fitness assignments.", "anchors": ["src/ga/operators/replacement/impls.rs::WeakParent"]}
{"id": "C36", "title": "Replacement size and content", "statement": "BothParents returns exactly the children, Noop exactly the population; neither requires children fitness.", "quantifier": "all populations", "why_tests_cant": "Trivial but any size.", "anchors": ["src/ga/operators/replacement/impls.rs"]}
{"id": "C37", "title": "Random point populations respect dimension and bounds", "statement": "RandomPoints generates exactly count individuals of exactly dim genes, gene i within [start_i, end_i] of constraint i; construction panics when dim = 0 or the number of constraints differs from dim. PointGenerator used on its own: generate_with_single_constraint gives the requested number of points with all coordinates in [a,b) (a for the empty range a..a, and (b,a] for a reversed one, which is not rejected); generate gives coordinates in [0,1).", "quantifier": "all dims, constraints, counts and RNG behaviours", "why_tests_cant": "All streams.", "anchors": ["src/ga/population/impls.rs::RandomPoints", "src/ga/population/tools.rs::PointGenerator"]}
{"id": "C38", "title": "Permutation and bit-string populations", "statement": "RandomPermutations generates exactly count individuals each a permutation of the genes; BitStrings generates exactly count strings of exactly dim bits.", "quantifier": "all gene vectors, dims, counts", "why_tests_cant": "All streams.", "anchors": ["src/ga/population/impls.rs::RandomPermutations, BitStrings"]}
{"id": "C39", "title": "Permutation GA stays in permutation space", "statement": "A GA built from RandomPermutations, any of PMX/Ordered/PPX, any of Interchange/Reversing/Inversion/Identity, any selection returning members and any shipped replacement only ever evaluates permutations of the gene set.", "quantifier": "all runs", "why_tests_cant": "Invariant over unbounded runs.", "anchors": ["src/ga.rs::GeneticSolver::run"]}
{"id": "C40", "title": "Builder defaults and completeness", "statement": "GenericBuilder::build succeeds exactly when all seven components are supplied; unspecified numeric parameters take the documented defaults (100, usize::MAX, Duration::MAX) and specified ones are kept; the error names the first missing component.", "quantifier": "all combinations of supplied components", "why_tests_cant": "2^10 combinations and all values.", "anchors": ["src/ga/builder.rs", "src/ga/builder/generic.rs"]}
{"id": "C41", "title": "Real-valued and bit-string presets run without panicking", "statement": "The preset real-valued and bit-string GAs with even population size, dim > 0 and NaN-free fitness run to completion and every evaluated individual has exactly dim genes.", "quantifier": "all fitness functions, sizes, limits, RNG and clock behaviours", "why_tests_cant": "Unbounded runs.", "anchors": ["src/ga/builder/realvalued.rs", "src/ga/builder/bitstring.rs"]}
{"id": "C42", "title": "Preset GAs and odd population sizes", "statement": "The preset GA builders accept every population size >= 1, so a user expects all of them to work. In fact every run of at least one generation with an odd population size panics (even sizes return, C41).", "quantifier": "all odd population sizes, fitness functions, dimensions, random draws", "why_tests_cant": "All sizes; odd ones are untested.", "anchors": ["src/ga/builder/realvalued.rs", "src/ga/operators/crossover/impls/single_point.rs"]}
{"id": "C43", "title": "GA generation-interval probing policy", "statement": "With GenerationInterval{interval,threshold} a wrapped probe receives iteration callbacks exactly for the generations g >= threshold with (g - threshold) divisible by interval, and always on_start, on_initial_population_created, on_new_best and on_end. (When the threshold is 0, generation 1 is logged too; interval 0 logs every generation g >= threshold.)", "quantifier": "all intervals, thresholds, run lengths, operators and random draws", "why_tests_cant": "Unbounded runs.", "anchors": ["src/ga/probe/probing_policy.rs::GenerationInterval", "src/ga/probe/policy_driven_probe.rs"]}
{"id": "C44", "title": "Aggregated probes see every callback in registration order", "statement": "AggregatedProbe forwards every callback to every added probe, in insertion order, and each single probe observes exactly the run's callback sequence.", "quantifier": "all probe lists and callback sequences", "why_tests_cant": "Any number of probes and callbacks.", "anchors": ["src/ga/probe/aggregated_probe.rs", "src/pso/probe/aggregated_probe.rs", "src/ff/probe/aggregated_probe.rs"]}
{"id": "C45", "title": "PSO global best is the best position ever visited", "statement": "At every moment of the life of a PSO object (construction plus any number of runs) whose objective is a number at the initial positions, the swarm's best value equals the objective at the swarm's best position, that position has been visited, and no visited position has a smaller value; each particle's own best is the minimum over its own trajectory and attained on it. (A NaN where particle 0 starts makes the best stay there for ever.)", "quantifier": "all objective functions (including NaN results), coefficients, arithmetic, random draws, termination conditions, iteration counts, numbers of runs", "why_tests_cant": "Invariant over unbounded histories.", "anchors": ["src/pso.rs", "src/pso/swarm.rs", "src/pso/particle.rs"]}
{"id": "C46", "title": "PSO best value never worsens", "statement": "The best value reported to probes is non-increasing over iterations.", "quantifier": "all runs", "why_tests_cant": "Unbounded histories.", "anchors": ["src/pso/swarm.rs::update_best_position"]}
{"id": "C47", "title": "PSO parallel update is schedule independent", "statement": "Updating particles under any interleaving of the parallel tasks' steps yields the same swarm, given each task's random draws.", "quantifier": "all schedules (permutations of particle updates)", "why_tests_cant": "Thread schedules cannot be enumerated.", "anchors": ["src/pso/swarm.rs::update_velocities, update_positions"]}
{"id": "C48", "title": "PSO iteration count and callbacks", "statement": "For every termination condition a returning run calls on_begin once, on_new_generation with 1..n in order and the swarm after that many iterations, on_end once with n; with GenerationLimit(n) it always returns after exactly n iterations; construction panics iff the particle count is 0.", "quantifier": "all n", "why_tests_cant": "All n.", "anchors": ["src/pso.rs::run", "src/pso/termination_condition.rs"]}
{"id": "C49", "title": "PSO particles start inside the bounds and remain dimension-correct", "statement": "Initially every coordinate lies within its bounds; dimension is invariant under updates.", "quantifier": "all bounds, draws, iterations", "why_tests_cant": "All streams.", "anchors": ["src/pso/particle.rs"]}
{"id": "C50", "title": "PSO particles and the bounds", "statement": "A user expects the positions evaluated by PSO to stay inside the configured bounds. In fact, for every configuration with positive inertia weight there are admissible draws with which a particle leaves the box in the first iteration (positions are never clamped). With inertia weight zero and non-negative cognitive and social coefficients of sum at most one no particle ever leaves the box.", "quantifier": "all objectives, bounds, dimensions, particle counts, coefficients; all draws and iterations for the positive part", "why_tests_cant": "Unbounded histories.", "anchors": ["src/pso/particle.rs::update_position"]}
{"id": "C51", "title": "PSO interval policy logs the final generation exactly once", "statement": "With the PSO GenerationInterval policy (interval >= 1, fresh), the wrapped probe sees on_new_generation exactly for multiples of the interval plus the final generation, each once, in order; with ElapsedTime an increasing sequence of generations ending with the final one, whatever the clock shows. Interval 0 panics.", "quantifier": "all intervals >= 1 and run lengths", "why_tests_cant": "All run lengths.", "anchors": ["src/pso/probe/probing_policy.rs", "src/pso/probe/policy_driven_probe.rs"]}
{"id": "C52", "title": "Firefly positions stay in the search box", "statement": "After every generation every coordinate of every firefly lies in [lower_bound, upper_bound] (or is NaN only if a NaN arose in the arithmetic).", "quantifier": "all runs", "why_tests_cant": "Unbounded histories.", "anchors": ["src/ff.rs"]}
{"id": "C53", "title": "What the firefly algorithm reports as best", "statement": "A user expects the best value reported in a generation to be the minimum objective of the current population and the reported position to attain it. For objectives with finite non-negative values the reported position is a best one of the current population, while the reported value is the least value found in all generations so far (never above f64::MAX), so the position need not have the reported value. For objectives negative everywhere firefly 0 is reported.", "quantifier": "all configurations, populations, random draws and generations (exact arithmetic)", "why_tests_cant": "All populations.", "anchors": ["src/ff.rs"]}
{"id": "C54", "title": "Firefly population setters", "statement": "A user expects set_population_size(n), set_dimensions and the bound setters to determine the population of a run. In fact the population is made when the builder is created, from the default configuration: no sequence of setters other than set_population changes it, and asking for more fireflies than the default makes the first generation panic.", "quantifier": "all setter sequences, objectives, distances and draws", "why_tests_cant": "All settings.", "anchors": ["src/ff/builder.rs", "src/ff.rs"]}
{"id": "C55", "title": "ACO ants build Hamiltonian tours", "statement": "A path returned by an ant that was never stuck visits every vertex of 0..n exactly once, whatever the random draws.", "quantifier": "all n, goodness matrices, RNG behaviours, set iteration orders", "why_tests_cant": "All streams and hash orders.", "anchors": ["src/aco/tsp/ant.rs", "src/aco/tsp/ants_behaviour.rs"]}
{"id": "C56", "title": "ACO ants never get stuck with positive goodness", "statement": "If all off-diagonal goodness values are positive, no ant gets stuck and each colony iteration yields one full tour per ant.", "quantifier": "all n, goodness matrices, draws", "why_tests_cant": "All streams.", "anchors": ["src/aco/tsp/ant.rs", "src/aco/tsp/ants_behaviour.rs"]}
{"id": "C57", "title": "ACO pheromone symmetry", "statement": "Ant System, Elitist Ant System, Max-Min and the global Ant Colony System pheromone updates never panic on paths over the matrix' vertices and keep a symmetric pheromone matrix symmetric.", "quantifier": "all matrices, solutions, iteration counts", "why_tests_cant": "All histories.", "anchors": ["src/aco/tsp/pheromone.rs"]}
{"id": "C58", "title": "ACO pheromone non-negativity", "statement": "The pheromone updates keep a non-negative matrix non-negative for evaporation rates in [0,1] and non-negative fitness.", "quantifier": "all matrices, solutions, iteration counts", "why_tests_cant": "All histories.", "anchors": ["src/aco/tsp/pheromone.rs"]}
{"id": "C59", "title": "Max-Min ant system and the pheromone bounds", "statement": "A user expects every pheromone entry to lie in [lower_bound, upper_bound] after a Max-Min update. In fact the entries of the edges of the best path do, in both directions, and every other entry is just evaporated, (1 - rate) times its old value: it may fall below the lower bound, and stays in [0, upper_bound] if it was there.", "quantifier": "all finite pheromone matrices, rates, bounds lower < upper, policies and solutions (exact arithmetic)", "why_tests_cant": "All histories.", "anchors": ["src/aco/tsp/pheromone.rs::MMAntSystemPU"]}
{"id": "C60", "title": "ACO best solution is monotone", "statement": "OverallBest never returns a solution worse than any solution it has been shown with positive fitness, and the returned fitness is non-decreasing.", "quantifier": "all histories of solution batches", "why_tests_cant": "Unbounded histories.", "anchors": ["src/aco/tsp/pheromone/best_policy.rs"]}
{"id": "C61", "title": "ACO run performs exactly the configured iterations and reports the batch best", "statement": "With IterationCond(n) run performs exactly n iterations with callbacks in the documented order, and on_current_best receives a solution with maximal fitness of that iteration.", "quantifier": "all n and behaviours", "why_tests_cant": "Unbounded runs.", "anchors": ["src/aco.rs", "src/aco/termination_condition.rs"]}
{"id": "C62", "title": "Tour fitness depends only on the cycle", "statement": "The fitness of a path is the inverse of the length of its closed tour; the length is invariant under rotation of the path, and under reversal for symmetric weights, and of two paths the shorter one is the fitter.", "quantifier": "all paths and weight matrices", "why_tests_cant": "All n.", "anchors": ["src/aco/tsp.rs::PathLengthInverse::grade_solution", "src/aco/solution.rs"]}
{"id": "C63", "title": "PartFromEval assigns every solution to exactly one pheromone", "statement": "Every solution influences exactly one of the pheromone matrices, chosen by its evaluation bucket; number of matrices is preserved.", "quantifier": "all batches and numbers of matrices", "why_tests_cant": "All batches.", "anchors": ["src/aco/pheromone.rs"]}
{"id": "C64", "title": "JSSP machine never double-books", "statement": "If every reservation was preceded by a successful idle query for its range, the reserved ranges of a machine are pairwise disjoint.", "quantifier": "all reservation histories", "why_tests_cant": "Unbounded histories.", "anchors": ["examples/jssp/problem.rs::Machine"]}
{"id": "C65", "title": "JSSP replacement is elitist and size preserving", "statement": "JsspReplacement returns a population of the same size containing the elite floor(er*n) best individuals, hence the best fitness never worsens.", "quantifier": "all populations and rates for which it does not panic", "why_tests_cant": "All populations.", "anchors": ["examples/jssp/problem/replacement.rs"]}
{"id": "C66", "title": "JSSP schedules are feasible", "statement": "Decoding or evaluating an individual gives every operation exactly one finish time; no operation starts before the earlier operations of its job finish, and operations on one machine never overlap.", "quantifier": "all instances, all chromosomes, and every individual that can occur in a run (fresh, evaluated, or a child)", "why_tests_cant": "Unboundedly many instances, chromosomes and evaluation histories.", "anchors": ["examples/jssp/problem/fitness.rs::JsspFitness", "examples/jssp/problem/individual.rs", "examples/jssp/problem.rs"]}
{"id": "C67", "title": "Benchmark functions have the documented minimum", "statement": "For the benchmark functions whose documentation agrees with the code (the n-dimensional sphere, ackley, rastrigin, rosenbrock, griewank, levy, zakharov, ... and the fixed-dimension booth, beale, himmelblau, matyas, easom, goldstein_price, ...), the value at the documented minimiser is the documented minimum and no point of the right dimension has a smaller value (real arithmetic).", "quantifier": "all real points, and all dimensions for the n-dimensional functions", "why_tests_cant": "Uncountably many points and infinitely many dimensions.", "anchors": ["src/test_functions/mod.rs"]}
{"id": "C68", "title": "RandomPoints repeats its points", "statement": "A user expects two successive RandomPoints::generate calls on one generator to use fresh randomness. In fact, for every generator whose clones do not share state (any seeded generator), generate leaves the operator's random state unchanged and a second call returns the same population.", "quantifier": "all such generators, dimensions, constraints and counts", "why_tests_cant": "With ThreadRng, whose clones share state, the bug is invisible; it needs the clone semantics of every generator.", "anchors": ["src/ga/population/impls.rs::RandomPoints::generate"]}
{"id": "C69", "title": "Real-valued preset never creates gene values", "statement": "In every run of the real-valued preset each gene of each individual ever evaluated or shown already occurs in the initial population; hence the search never leaves the unit cube [0,1)^dim.", "quantifier": "all runs, fitness functions, draws, sizes and limits", "why_tests_cant": "Ranges over all histories of the run.", "anchors": ["src/ga/builder/realvalued.rs::build"]}
{"id": "C70", "title": "Families seen by the replacement operator", "statement": "The population given to the replacement operator is, in every generation, the population the selection operator chose from, in that order. The documented invariant that indices i, i+1 of it hold the parents of children i, i+1 would follow only if selection kept the order; for GAs made of shipped operators it fails: the first two children may share no gene with the first two members.", "quantifier": "all operators, runs, draws", "why_tests_cant": "An invariant documented for every generation of every run; refuted by an explicit run.", "anchors": ["src/ga.rs::run", "src/ga/operators/replacement/impls.rs::WeakParent, BothParents (documentation)"]}
{"id": "C71", "title": "GA elapsed-time probing policy", "statement": "With ElapsedTime{interval, first} a wrapped probe receives the callbacks of a generation exactly when its start time is at least first + interval * (number of generations logged before it), besides on_start, on_initial_population_created, on_new_best and on_end. Hence at most (t - first)/interval + 1 generations are logged up to time t; but consecutive logs may be arbitrarily close together (a slow generation is followed by a burst).", "quantifier": "all intervals, start offsets, clock readings, run lengths", "why_tests_cant": "Depends on all possible timings of the generations.", "anchors": ["src/ga/probe/probing_policy.rs::ElapsedTime", "src/ga/probe/policy_driven_probe.rs"]}
{"id": "C72", "title": "Metrics at the start of a second run", "statement": "A new solver reports generation 0 until its first generation. When run is called again the callbacks before the first generation report the last generation number and duration of the previous run; apart from that the second run behaves exactly like a run of a new solver from the same operator states.", "quantifier": "all solvers, all operators, all histories of earlier runs", "why_tests_cant": "Compares complete histories of consecutive runs.", "anchors": ["src/ga.rs::run, Metrics"]}
{"id": "C73", "title": "PSO time limit is measured from the creation of the condition", "statement": "A user expects TimeLimit(t) to measure from the start of run. In fact it measures from the creation of the condition object: a run started t seconds or more after that performs no iteration at all.", "quantifier": "all creation times, limits t > 0, start times, swarms, objectives and draws", "why_tests_cant": "Depends on wall-clock history outside the run.", "anchors": ["src/pso/termination_condition.rs::TimeLimit", "src/pso.rs::run", "src/pso/builder.rs::set_time_limit"]}
{"id": "C74", "title": "PSO csv/json record files", "statement": "After a returning run of n iterations the CSV and JSON probes have recorded exactly one line per generation 0..n in order, each with the swarm's best value (and position) after that many iterations.", "quantifier": "all runs, termination conditions, draws", "why_tests_cant": "Unbounded runs.", "anchors": ["src/pso/probe/csv_probe.rs", "src/pso/probe/json_probe.rs"]}
{"id": "C75", "title": "A converged PSO swarm is a fixed point", "statement": "When all particles rest (zero velocity) at the swarm's best position with their own best there, no further iteration changes the swarm, whatever the coefficients and draws.", "quantifier": "all swarms, objectives, coefficients, draws (exact arithmetic)", "why_tests_cant": "All coefficients and random streams.", "anchors": ["src/pso/particle.rs::update_velocity, update_position"]}
{"id": "C76", "title": "PSO vector printing", "statement": "print_generic_vector prints '[', the elements' texts separated by ', ' and ']', for every vector including the empty one.", "quantifier": "all vectors", "why_tests_cant": "All lengths.", "anchors": ["src/pso/util.rs::print_generic_vector"]}
{"id": "C77", "title": "PSO builder honours every setter", "statement": "For every sequence of setter calls the configuration used by build has, per field, the last value set or the default; the built swarm has exactly the configured particle count and dimension.", "quantifier": "all setter sequences and orders", "why_tests_cant": "Unboundedly many call sequences.", "anchors": ["src/pso/builder.rs", "src/pso.rs::new"]}
{"id": "C78", "title": "Firefly bounds test", "statement": "A candidate coordinate strictly inside (lower, upper) is kept, one above is replaced by the upper bound, one below or on the lower bound by the lower bound, NaN is kept. A candidate exactly on the upper bound is sent to the lower bound (a user expects it to be kept).", "quantifier": "all candidate values including NaN and infinities, all bounds lower < upper that are numbers", "why_tests_cant": "boundary equality cases have probability zero under random moves except after a clamp", "anchors": ["src/ff.rs::FireflyAlgorithm::run"]}
{"id": "C79", "title": "Firefly moves in generation 0", "statement": "What happens in the first generation: the flight length sample is divided by the generation number 0, so every firefly with a brighter one jumps to the upper bound in every coordinate when its samples are positive.", "quantifier": "all objectives, distances, finite initial positions, positive samples, bounds lower<upper, alfa0>0", "why_tests_cant": "statement about all initial populations and draws", "anchors": ["src/ff.rs::FireflyAlgorithm::run"]}
{"id": "C80", "title": "Firefly run: callbacks and absence of panics", "statement": "A run on a non-empty population with at least population_size fireflies of equal dimension never panics, calls on_start, then (on_iteration_start, on_current_best, on_iteration_end) for generations 0..max_generations in order, then on_end; the randomness coefficient decays geometrically.", "quantifier": "all configurations, objectives, distances that do not panic, draws and arithmetic", "why_tests_cant": "unbounded number of generations and all draws", "anchors": ["src/ff.rs::FireflyAlgorithm::run", "src/ff/probe.rs"]}
{"id": "C81", "title": "Firefly reported value never gets worse", "statement": "The value passed to on_current_best is non-increasing over the generations of a run.", "quantifier": "all runs, objectives (including NaN values), draws", "why_tests_cant": "all histories", "anchors": ["src/ff.rs::FireflyAlgorithm::run"]}
{"id": "C82", "title": "Firefly generation interval policy", "statement": "A probe wrapped with GenerationInterval::new(interval, first) receives on_start, on_end and the callbacks of exactly the iterations g >= first with interval dividing g - first.", "quantifier": "all runs, intervals >= 1, first thresholds", "why_tests_cant": "all run lengths", "anchors": ["src/ff/probe/probing_policy.rs", "src/ff/probe/policy_driven_probe.rs"]}
{"id": "C83", "title": "Firefly CSV/JSON probes record each generation once", "statement": "The records of the probe are one entry per generation in order with that generation's reported value (and position).", "quantifier": "all runs", "why_tests_cant": "all run lengths and values", "anchors": ["src/ff/probe/csv_probe.rs", "src/ff/probe/json_probe.rs"]}
{"id": "C84", "title": "Which fireflies attract", "statement": "A user expects firefly i to be attracted by firefly j iff j has the strictly smaller objective value. This holds when both values are non-negative and when both are negative; if i's value is negative and j's is not, i is attracted although j is worse; if j's value is negative and i's is not, i is not attracted although j is better.", "quantifier": "all finite objective values (exact arithmetic, 1/0 = infinity)", "why_tests_cant": "all pairs of values; holds only for one sign", "anchors": ["src/ff.rs::FireflyAlgorithm::run"]}
{"id": "C85", "title": "Firefly distances", "statement": "taxi_measure_distance is the l1 metric and cartesian_distance the root of the sum of squares of the differences; both panic if the first vector is longer. Points that differ by an infinity in some coordinate, without being at the same infinity in another, have infinite distances of both kinds; at the same infinity both distances are NaN.", "quantifier": "all vectors", "why_tests_cant": "all vectors and dimensions", "anchors": ["src/ff/auxiliary.rs"]}
{"id": "C86", "title": "Which fireflies attract a firefly", "statement": "In each generation a firefly with brighter ones moves by exactly one attraction step, towards the brighter firefly of largest index (the others have no effect); a firefly without a brighter one makes a random step.", "quantifier": "all generations, populations, draws", "why_tests_cant": "all populations and draws", "anchors": ["src/ff.rs::FireflyAlgorithm::run"]}
{"id": "C87", "title": "Firefly elapsed time policy", "statement": "ElapsedTime::new(interval, first) logs no iteration before first+interval seconds after construction and logged iterations are at least interval seconds apart.", "quantifier": "all clock readings", "why_tests_cant": "all timings", "anchors": ["src/ff/probe/probing_policy.rs"]}
{"id": "C88", "title": "Goodness combines pheromone and heuristic entrywise", "statement": "The canonical goodness of an edge is pheromone^alpha times heuristic^beta of the same edge, for square matrices of any size, and is positive on edges where both are.", "quantifier": "all sizes, matrices and exponents", "why_tests_cant": "All sizes and entries; an index mix-up may be invisible for symmetric examples.", "anchors": ["src/aco/tsp/goodness.rs"]}
{"id": "C89", "title": "Paths returned by an Ant Colony System iteration", "statement": "Every path returned by an Ant Colony System iteration on n >= 2 vertices has length n and either visits every vertex exactly once or ends with the same vertex twice (an ant stuck in its last step; a user expects only tours). With positive pheromone, a goodness that is positive on positive pheromone and a local rule that keeps pheromone positive there is exactly one tour per ant and no panic. On one vertex no path is returned.", "quantifier": "all sizes, matrices, goodness functions, local rules, orders and random draws", "why_tests_cant": "All draws and histories.", "anchors": ["src/aco/tsp/ants_behaviour.rs", "src/aco/tsp/ant.rs"]}
{"id": "C90", "title": "Pheromone update formulas", "statement": "An Ant System update sets every entry to (1-rate)*old plus the fitness of each solution per use of the edge; the elitist update adds the fitness of the best solution per use by that solution. The Ant Colony System update evaporates every entry in the same way and adds rate times the fitness of the best solution exactly on the edges of its tour (a user who knows the textbook algorithm expects the other edges to stay unchanged). On three or more vertices a tour uses each of its edges once; with two vertices it uses the only edge twice.", "quantifier": "all finite matrices, rates, solutions and best-solution policies (exact arithmetic)", "why_tests_cant": "The formula must hold for every matrix, rate and overlap of tours.", "anchors": ["src/aco/tsp/pheromone.rs"]}
{"id": "C91", "title": "A whole TSP run keeps its promises", "statement": "A run of the Ant System or ACS on a TSP with positive finite weights for any number of iterations never panics, reports in each iteration a best tour of that iteration, and keeps positive pheromone.", "quantifier": "all sizes >= 2, weights, draws and iteration counts", "why_tests_cant": "Unbounded runs and all random streams.", "anchors": ["src/aco.rs", "src/aco/tsp.rs", "src/aco/tsp/ants_behaviour.rs"]}
{"id": "C92", "title": "ACO builder uses the last value of every component", "statement": "build succeeds iff every component has been set, whatever the order and repetitions of the setter calls, and uses the last value given for each; otherwise it panics in an expect.", "quantifier": "all sequences of setter calls", "why_tests_cant": "Unbounded sequences.", "anchors": ["src/aco/builder.rs"]}
{"id": "C93", "title": "ACO file probes record every iteration", "statement": "CsvProbe writes the closed tour of each iteration's best and each entry of each iteration's pheromone, numbered from 1; JsonProbe one record per iteration with its pheromone and best.", "quantifier": "all runs", "why_tests_cant": "Unbounded runs.", "anchors": ["src/aco/probe/csv_probe.rs", "src/aco/probe/json_probe.rs"]}
{"id": "C94", "title": "Generated TSP instances", "statement": "The distance matrix built from city positions does not panic, is symmetric and holds the Euclidean distances of the cities in the plane: 0 exactly between cities at the same place, and a detour over a third city is never shorter; the heuristic is the inverse distance, and 0 for distance 0.", "quantifier": "all numbers of cities and positions", "why_tests_cant": "All positions.", "anchors": ["src/aco/tsp.rs", "src/aco/tsp/util.rs"]}
{"id": "C95", "title": "JSSP fitness is an achievable makespan", "statement": "The value an evaluation returns and stores is the makespan of some feasible schedule of the instance (the local search never reports an unachievable value).", "quantifier": "all instances, chromosomes and evaluation histories", "why_tests_cant": "The local search visits unboundedly many neighbouring graphs; an infeasible swap would understate the makespan on rare instances only.", "anchors": ["examples/jssp/problem/fitness.rs::JsspFitness::apply, local_search", "examples/jssp/problem/individual.rs"]}
{"id": "C96", "title": "JSSP evaluation depends on the chromosome only", "statement": "Two individuals with equal chromosomes receive equal fitness and become equal in every field, whatever was evaluated, reset or crossed over before.", "quantifier": "all pairs of histories leading to equal chromosomes", "why_tests_cant": "Stale machine reservations or edges would only matter after particular histories.", "anchors": ["examples/jssp/problem/individual.rs::reset", "examples/jssp/problem/crossover.rs"]}
{"id": "C97", "title": "When JSSP evaluation returns", "statement": "On every well-formed instance with positive durations in which no job uses one machine twice in a row, evaluating any individual that occurs in a run returns. Both conditions matter, though the loader checks neither: there are an accepted instance with a job that uses a machine twice in a row, and an accepted instance with durations zero in which every job uses every machine at most once, on which an evaluation never returns (a user expects it to return for every accepted instance).", "quantifier": "all such instances and all individuals of a run", "why_tests_cant": "Termination over all instances.", "anchors": ["examples/jssp/problem/fitness.rs::local_search, determine_makespan"]}
{"id": "C98", "title": "JSSP fitness respects the trivial lower bounds", "statement": "The fitness is at least the total duration of every job and at least the total load of every machine.", "quantifier": "all instances, machines, jobs and chromosomes", "why_tests_cant": "All instances.", "anchors": ["examples/jssp/problem/fitness.rs"]}
{"id": "C99", "title": "Resetting a JSSP individual", "statement": "Reset removes every machine edge, finish time and machine reservation, so that no trace of the earlier schedule is left.", "quantifier": "all individuals that can occur in a run", "why_tests_cant": "All histories.", "anchors": ["examples/jssp/problem/individual.rs::reset", "examples/jssp/problem.rs::Operation::reset, Machine::reset"]}
{"id": "C100", "title": "Loading a JSSP instance", "statement": "A well-formed instance file is loaded without panic, and every operation carries the machine, the duration and the predecessors the file gives.", "quantifier": "all instance files", "why_tests_cant": "All files.", "anchors": ["examples/jssp/parse.rs", "examples/jssp/problem/population.rs::JsspPopProvider"]}
{"id": "C101", "title": "The graph the JSSP local search starts from", "statement": "The graph given to the local search has a machine edge from one operation to another exactly if both are on the same machine and the second is the next one of that machine in the order in which the decoder scheduled them; that order contains every operation once and respects the jobs. A user expects the order of the decoded schedule; the two differ when the decoder fills a gap, and then the longest path of the graph may exceed the decoded makespan.", "quantifier": "all well-formed instances and chromosomes", "why_tests_cant": "Only violated when an operation is put into a gap.", "anchors": ["examples/jssp/problem/fitness.rs:104-121"]}
{"id": "C102", "title": "What the stored JSSP finish times are", "statement": "After an evaluation the stored finish times are those of the decoded feasible schedule, whose makespan is at least the fitness; they realise the fitness (as a user expects) iff the fitness equals that makespan. Otherwise the fitness is the makespan of another feasible schedule, found by the local search and not stored; this happens.", "quantifier": "all well-formed instances with positive durations in which no job uses one machine twice in a row, all individuals of a run", "why_tests_cant": "Only violated when the local search improves the schedule.", "anchors": ["examples/jssp/problem/fitness.rs::apply"]}
{"id": "C103", "title": "When a whole JSSP run solves the instance", "statement": "For every well-formed instance with positive durations in which no job uses one machine twice in a row, and every even population size for which the elite or the sample is non-empty, a run returns without panic an individual whose fitness is the makespan of a feasible schedule and at most the fitness of every individual of every generation. With an odd population size, or one so small that elite and sample are both empty, every run of at least one generation panics (a user expects every size to work).", "quantifier": "all such instances, population sizes, generation limits, random draws and clock readings", "why_tests_cant": "Unboundedly many instances and random histories.", "anchors": ["examples/jssp/main.rs::run_jssp_solver", "src/ga.rs::run", "examples/jssp/problem/fitness.rs"]}
{"id": "C104", "title": "JSSP crossover", "statement": "Each pair of children of the job shop crossover is a locus-wise complementary mix of its parents, is otherwise cloned from the respective parent, and is marked as needing evaluation; each gene is exchanged, independently, with probability 0.4. NoopCrossover returns exactly the parents, in order, and panics on an odd number of them.", "quantifier": "all selections of parents with equally long chromosomes and all random draws", "why_tests_cant": "All draws and chromosomes.", "anchors": ["examples/jssp/problem/crossover.rs::JsspCrossover"]}
{"id": "C105", "title": "JSSP random search run", "statement": "The random search configuration returns without panic, for every positive population size, the best of all individuals generated, with an achievable makespan.", "quantifier": "all instances, sizes, limits and draws", "why_tests_cant": "Unbounded.", "anchors": ["examples/jssp/main.rs::run_randomsearch", "examples/jssp/problem/replacement.rs::ReplaceWithRandomPopulation"]}
{"id": "C106", "title": "Dimension contract of the benchmark functions", "statement": "Every benchmark function with a dimension assertion yields a number on vectors of its dimension (for functions that divide or take roots, logarithms or powers: exactly on the stated subset of them) and panics on every vector of another length; every n-dimensional function without an assertion panics on no non-empty vector. (In fact: bartels_conn, documented as two-dimensional, accepts exactly the three-dimensional vectors; powell, documented for D > 4, panics whenever the dimension is a multiple of four; brown, deb1 and deb3 panic on the empty vector and pathological below length two, whose first and last entries it ignores. Functions that return for no vector at all are C108.)", "quantifier": "all real vectors of all lengths", "why_tests_cant": "Infinitely many lengths and values.", "anchors": ["src/test_functions/mod.rs"]}
{"id": "C107", "title": "Benchmark functions whose documented minimum the code contradicts", "statement": "Expected: for a benchmark function whose documentation states a minimum, the value at the documented point is that minimum and no point has a smaller value. In fact, for each function of this list (those documented with a minimum and not covered by C67, C108 or C122) the code contradicts the documentation, in the way stated by its theorem: another value or no value at the documented point, smaller values elsewhere, no lower bound, or every value above the documented one.", "quantifier": "all real points of the documented dimension", "why_tests_cant": "Uncountably many points; a lower bound cannot be sampled.", "anchors": ["src/test_functions/mod.rs"]}
{"id": "C108", "title": "Benchmark functions that never return", "statement": "Expected: every benchmark function returns a number for some vector of its documented dimension. In fact devilliers_glasser1, de_jong_n5, the three hartmann functions, shekel_default, pinter, rana, stretched_v_sine_wave and trid10 panic, and ackley2, perm_0_d_beta and perm_d_beta leave the real numbers, on every (non-empty) vector; shekel and langermann panic on all parameters of the documented shape. Every other function returns on the vectors given by C106.", "quantifier": "all real vectors of all lengths", "why_tests_cant": "That no input returns is a statement about all inputs.", "anchors": ["src/test_functions/mod.rs"]}
{"id": "C109", "title": "Metrics passed to the GA probe", "statement": "In the i-th generation of a run every callback carries generation number i, on_end carries the number of generations performed; every callback after the initial population carries the elapsed time; whenever a population is shown the metrics carry its size.", "quantifier": "all operators, limits, runs", "why_tests_cant": "Ranges over all runs and all callbacks of a run.", "anchors": ["src/ga.rs::run, Metrics", "src/ga/probe.rs"]}
{"id": "C110", "title": "GA evaluation budget", "statement": "For individuals that always require evaluation a run of k generations with population size n calls the fitness function exactly n(1+2k) times, plus once per child if the replacement asks for children's fitness.", "quantifier": "all operators, sizes, limits, runs", "why_tests_cant": "An exact count for every run length and population size.", "anchors": ["src/ga.rs::run, eval_pop"]}
{"id": "C111", "title": "Seeded operators are reproducible", "statement": "The outcome of an operator built with a given generator depends only on that generator's state: true for all crossovers, selections, population generators and Identity, Reversing, Inversion and FlipBit, and for whole runs made of them; false for Interchange, which draws the exchanged position from rand::thread_rng().", "quantifier": "all generators, generator states, thread generators, inputs and runs", "why_tests_cant": "Quantifies over two arbitrary sources of randomness.", "anchors": ["src/ga/operators/mutation/impls.rs::Interchange", "src/ga/operators/crossover/impls", "src/ga/operators/selection/impls.rs", "src/ga/population/impls.rs"]}
{"id": "C112", "title": "GAs on real vectors and the box", "statement": "A GA made of RandomPoints with one range per coordinate, any shipped selection and replacement, a locus-wise crossover and Identity never shows or evaluates a point outside the box; if all ranges are equal this holds for every shipped mutation. With different ranges and a mutation that moves genes (the coco configuration) the search leaves the box. With Tournament selection, an even population and a NaN-free fitness function such a GA never panics.", "quantifier": "all dimensions, ranges, operators, parameters, fitness functions, draws, sizes and limits", "why_tests_cant": "Ranges over all histories of all configurations.", "anchors": ["src/ga/population/impls.rs::RandomPoints", "src/ga/operators/crossover/impls", "src/ga/operators/mutation/impls.rs", "examples/ga.rs", "coco/src/main.rs::ecrs_ga_search"]}
{"id": "C113", "title": "GA StdoutProbe log", "statement": "Fed with the callbacks of any completed run, StdoutProbe never panics and writes START, NEW_BEST, one BEST_IN_GEN per generation numbered 1..k, each followed by NEW_BEST exactly when a new best was reported, then one END line. NEW_BEST lines have strictly decreasing fitness, and the last of them and the END line show the returned individual.", "quantifier": "all operators, limits, runs", "why_tests_cant": "Ranges over all runs.", "anchors": ["src/ga/probe/stdout_probe.rs", "src/ga.rs::run"]}
{"id": "C114", "title": "JSSP: command line overrides configuration file overrides defaults", "statement": "A configuration is built exactly when the configuration file (if named) can be read and an input file and an output directory are given on the command line or in the file; each option then has the command-line value if given and otherwise the file's; random search is off, the population is twice the number of operations and the number of generations is 400 unless configured.", "quantifier": "all command lines, configuration files and instances", "why_tests_cant": "All combinations of set and unset options and all file contents.", "anchors": ["examples/jssp/config.rs", "examples/jssp/main.rs"]}
{"id": "C115", "title": "JSSP: the delay constant option is ignored", "statement": "A user expects the solver to use the delay constant of the command line or configuration file, 1.5 if none is given. In fact every started solver uses 1.5, whatever the option says.", "quantifier": "all command lines and file systems", "why_tests_cant": "A claim about all configurations.", "anchors": ["examples/jssp/main.rs::run_jssp_solver", "examples/jssp/cli.rs::Args"]}
{"id": "C116", "title": "JSSP: the logged average distance is the mean pairwise distance", "statement": "For a population of at least two individuals with equally long, non-empty chromosomes the JSSP probe computes, without panic, the mean Euclidean distance over all unordered pairs: it is non-negative, does not depend on the order of the population, is zero exactly when all chromosomes are equal, and is at most the root of the chromosome length for genes in [0,1). A single individual gives NaN, an empty population or an empty chromosome panics; the probe cannot be used for a second run in debug builds.", "quantifier": "all populations and chromosomes", "why_tests_cant": "Unbounded population sizes and real vectors.", "anchors": ["examples/jssp/problem/probe.rs::estimate_avg_distance", "examples/jssp/util.rs::euclidean_distance"]}
{"id": "C117", "title": "JSSP: the reported solution string", "statement": "For every evaluated individual of a run the solution string is uniquely determined, although the sort is unstable; it lists every operation of the instance exactly once, ordered by finish time in a feasible schedule with ties broken by machine, hence the operations of each job and of each machine in processing order; different orders give different strings; no comparison panics. For an instance with operations of duration zero the comparison is not an order.", "quantifier": "all well-formed instances with positive durations in which no job uses one machine twice in a row, all chromosomes and runs", "why_tests_cant": "All instances, all evaluated individuals, all outcomes of an unstable sort.", "anchors": ["examples/jssp/problem/probe.rs::on_end"]}
{"id": "C118", "title": "Best of each generation", "statement": "In each generation exactly one individual is passed to on_best_fit_in_generation; it belongs to the population just passed to on_new_generation and no member of it has smaller fitness.", "quantifier": "all operators, limits, runs", "why_tests_cant": "Ranges over all runs and generations.", "anchors": ["src/ga.rs::run, find_best_individual"]}
{"id": "C119", "title": "PSO: how a particle moves", "statement": "In every iteration the new velocity of every particle in every coordinate is inertia*v + cognitive*r1*(own best - x) + social*r2*(swarm best - x) with the bests as they were before the iteration, the new position is the old position plus the new velocity, and the recorded value is the objective there; with samples in [0,1] the step length is bounded accordingly.", "quantifier": "all swarms, coefficients, objectives, samples, particles and coordinates, any arithmetic (bound: exact)", "why_tests_cant": "random samples; every coordinate of every particle in every iteration", "anchors": ["src/pso/particle.rs::update_velocity", "src/pso/particle.rs::update_position", "src/pso/swarm.rs::update_velocities"]}
{"id": "C120", "title": "Firefly: what each generation starts from", "statement": "Generation k starts from the population left by generation k-1 (generation 0 from the given one); at its start the brightness of every firefly is 1/f of its current position and the randomness coefficient is alfa0*delta^k, so the noise of an attraction step has amplitude alfa0^2*delta^k.", "quantifier": "all configurations, objectives, distances, draws and numbers of generations", "why_tests_cant": "unbounded number of generations, all draws", "anchors": ["src/ff.rs::FireflyAlgorithm::run"]}
{"id": "C121", "title": "Firefly builder: the last setter wins", "statement": "After any sequence of setter calls on the firefly builder every setting has the value given by the last call that concerns it (set_config concerns all numeric settings), and its initial value if no call does; no setter changes a setting it does not name.", "quantifier": "all sequences of setter calls, all initial builders", "why_tests_cant": "Unboundedly many call sequences.", "anchors": ["src/ff/builder.rs::FireflyAlgorithmBuilder"]}
{"id": "C122", "title": "Minima documented as rounded decimals", "statement": "For the benchmark functions whose documentation gives a minimiser and a minimum as decimals found numerically, the value at the documented point is the documented minimum, and no point has a smaller value, up to a tolerance: jennrich_sampson (0.002; the documented figure is in fact below every value), bird (0.002), shubert (0.0004), schaffer_n4 (0.00001), trefethen (0.00000001; no point is below the documented figure).", "quantifier": "all real points of the documented dimension", "why_tests_cant": "Uncountably many points; a lower bound cannot be sampled.", "anchors": ["src/test_functions/mod.rs::jennrich_sampson", "src/test_functions/mod.rs::bird", "src/test_functions/mod.rs::shubert", "src/test_functions/mod.rs::schaffer_n4", "src/test_functions/mod.rs::trefethen"]}
{"id": "C123", "title": "The job shop decoder follows its rule", "statement": "Decoding a chromosome of the job shop example schedules every operation exactly once, one after the other. Before each step the clock moves to the first time (its present value, or the end of a scheduled operation) at which some unscheduled operation's predecessor in its job finishes no later than the clock plus the delay given by the next delay gene and the longest duration. Among these operations the one with the highest priority gene is taken (the lowest numbered of equal ones), and it starts at the earliest time at or after its predecessor's end at which its machine is idle for its whole duration, gaps between already scheduled operations included. The finish times reported are those of the schedule built in this way.", "quantifier": "all well-formed instances and all chromosomes of twice as many genes as operations whose comparison is a strict weak order", "why_tests_cant": "Each test decodes one chromosome of one instance; the rule must hold at each step of every decoding.", "anchors": ["examples/jssp/problem/fitness.rs::JsspFitness::evaluate_individual", "examples/jssp/problem/fitness.rs::JsspFitness::delay_for_g", "examples/jssp/problem/fitness.rs::JsspFitness::update_delay_feasibles_and_highest_prior_op", "examples/jssp/problem.rs::Machine"]}
{"id": "C124", "title": "The job shop local search ends in a local optimum", "statement": "After evaluating an individual of the job shop example, the edges stored with its operations describe an order of the operations on each machine such that, with l the shortest makespan of the schedules following these orders: a critical path of length l runs from the first operation of a job to the last operation of a job, and neither exchanging the first two operations of one of its machine blocks (other than the first block) nor exchanging the last two of one (other than the last) gives orders that permit a makespan below l. l does not exceed the shortest makespan for the machine orders the decoder produced, and the reported fitness is the smaller of l and the makespan of the decoded schedule. The final orders are reached from the decoded ones by a chain of exchanges of two operations on one machine, each of which strictly lowers the shortest makespan.", "quantifier": "all well-formed instances with positive durations and no job visiting a machine twice in a row; all individuals arising in a run; all schedules following the machine orders", "why_tests_cant": "Local optimality quantifies over all schedules of all neighbouring orders, for every instance and chromosome.", "anchors": ["examples/jssp/problem/fitness.rs::JsspFitness::local_search", "examples/jssp/problem/fitness.rs::JsspFitness::determine_critical_blocks", "examples/jssp/problem/fitness.rs::JsspFitness::calculate_critical_distance", "examples/jssp/problem/fitness.rs::JsspFitness::swap_ops"]}
{"id": "C125", "title": "Sampling selections under f64 rounding", "statement": "With every f64 operation rounded, RouletteWheel still never panics, and for a non-empty population with non-negative fitness it returns exactly the requested number of members, each being the one where the computed running fitness sum first reaches the drawn threshold; an individual whose fitness is lost in the rounding of that sum is never selected by a positive draw. StochasticUniversalSampling returns exactly the requested number, in population order, or fails: it returns iff the pointer obtained by count additions of the computed distance is the first one beyond the computed total. In f64 this does fail for positive fitness and a start pointer inside its range, in both directions (one individual too many, one too few), and then the operator's own assertion panics.", "quantifier": "all monotone idempotent roundings that fix 0 and 1 (round-to-nearest-even at 53 bits in particular), all populations, non-negative fitness values, counts and draws", "why_tests_cant": "The rounding error depends on every value and draw; the failing draws are isolated points that random testing practically never meets.", "anchors": ["src/ga/operators/selection/impls.rs::RouletteWheel", "src/ga/operators/selection/impls.rs::StochasticUniversalSampling"]}
{"id": "C126", "title": "Ant colonies under f64 rounding", "statement": "With every f64 operation rounded and finite non-negative goodness values off the diagonal, no step of an ant with unvisited vertices panics, and an ant can get stuck only if the number drawn exceeds the goodness of every unvisited vertex and lies within a factor (1+2^-53)^(2m) of the end of its range (m unvisited vertices); the step to the last vertex never gets stuck, so every path an Ant Colony System iteration returns is a tour. A user expects that positive goodness means no stuck ant: in fact on four cities at mutual distance 3 with pheromone 1 an ant whose draw is the end of its range gets stuck, and if it is the first ant the Ant System run panics. The pheromone updates and the local rules keep pheromone finite and non-negative and Max-Min keeps its upper bound. The computed length of a tour of n cities is within the factors (1-u)^n and (1+u)^n (u = 2^-53) of its length, so a clearly shorter tour is fitter; but the same cycle written from another city can get a different fitness (distances 0.1, 0.2, 0.3).", "quantifier": "all monotone idempotent roundings fixing 0 and 1 (the error bounds: all with relative error u; the failures: round-to-nearest-even at 53 bits), all matrices, draws in range, hash set orders, rates in [0,1]", "why_tests_cant": "The failing draws have probability about 2^-52 per step, and rounding depends on all values; tests with a few matrices cannot bound it.", "anchors": ["src/aco/tsp/ant.rs::CanonicalAnt::go_to_next_place", "src/aco/tsp/ant.rs::ExploitingAnt::go_to_next_place", "src/aco/tsp/ants_behaviour.rs::AntSystemAB", "src/aco/tsp/ants_behaviour.rs::AntColonySystemAB", "src/aco/tsp.rs::PathLengthInverse::grade_solution", "src/aco/tsp/pheromone.rs", "src/aco/tsp/local_update.rs"]}
{"id": "C127", "title": "Crossovers exclude no outcome that their rule allows", "statement": "For each crossover operator the outcomes that some behaviour of the random generator can bring about are exactly those of its rule, each pair of parents being treated independently: SinglePoint - every exchange of a suffix; TwoPoint - every exchange of a segment [lo, hi) with hi below the length (so the last gene is never exchanged); MultiPoint - every set of k cut points; Shuffle - every mask that takes at least one gene of the first child from the second parent; Uniform and UniformParameterized - every mask; OrderedCrossover - every segment; PMX - every segment; PPX - every mask, both children being built from the same mask.", "quantifier": "every crossover operator, every selection of parents admissible for it, every outcome, and every generator that excludes no answer allowed by its contract", "why_tests_cant": "A test can observe outcomes, but not that an outcome never observed is possible, nor that one never observed is impossible; both directions range over all generator behaviours.", "anchors": ["src/ga/operators/crossover/impls::SinglePoint, TwoPoint, MultiPoint, Uniform, UniformParameterized, OrderedCrossover, Ppx, Pmx, Shuffle (apply)"]}
{"id": "C128", "title": "What one mutation can turn a chromosome into", "statement": "The possible results of one mutation are exactly: FlipBit with a rate strictly between 0 and 1 - every bit string of the same length; Interchange with a positive rate - every ordering of the genes; Reversing with a rate strictly between 0 and 1 - the chromosome cut into pieces in any way with the first gene of each piece moved to its end (so a chromosome of three or more genes whose last gene is unique is never reversed); Inversion with a rate of at least 0, even exactly 0 - the reversal of any one segment. Every other part of the individual is unchanged.", "quantifier": "every individual, every mutation rate in the stated range, every result, and every generator that excludes no answer allowed by its contract", "why_tests_cant": "That every permutation or bit string remains reachable, and that others never are, ranges over all generator behaviours and all chromosome lengths.", "anchors": ["src/ga/operators/mutation/impls.rs::FlipBit, Interchange, Reversing, Inversion (apply)"]}
{"id": "C129", "title": "Selections and population generators exclude nobody they should not", "statement": "The possible selections are exactly: Random, Rank and RankR - every list of count members (even the worst individual can be selected by Rank); UniqueRandom - the members at any count different positions in any order; Tournament - every list of individuals each of which is a best one of some max(1, floor(factor n)) individuals at different positions; RouletteWheel with non-negative fitness of positive total - every list of members of positive fitness, or the first member (which a draw of exactly 0 selects even with fitness 0). The possible populations are exactly: BitStrings - all bit strings of the length; RandomPermutations - all orderings of the genes; RandomPoints - all points of the half-open boxes.", "quantifier": "every population, every count, every outcome, and every generator that excludes no answer allowed by its contract", "why_tests_cant": "An operator that silently never selects some individual, or never generates some point, passes every test of what it does return; completeness ranges over all generator behaviours.", "anchors": ["src/ga/operators/selection/impls.rs::Random, UniqueRandom, Rank, RankR, Tournament, RouletteWheel (apply)", "src/ga/population/impls.rs::RandomPoints, BitStrings, RandomPermutations (generate)"]}
{"id": "C130", "title": "No population is out of reach of a genetic algorithm with mutation", "statement": "For the bit-string preset (BitStrings, Tournament 0.2, SinglePoint, FlipBit 0.05, BothParents) with an even positive population size and a NaN-free fitness function, as long as time does not run out, a sequence of populations is a possible history of a run exactly when it has generation limit + 1 members, each made of population-size bit strings of the configured length carrying their fitness: every population can be followed by every other in one generation. So whatever happened before, the last generation can still consist of any given chromosome and the returned individual is then at least as good. The same holds for permutation problems with RandomPermutations, Tournament, Ordered/PMX/PPX crossover, Interchange with a positive rate and BothParents. (Contrast C69: the real-valued preset can never produce a gene value that the initial population lacks.)", "quantifier": "every fitness function, dimension, even population size, generation limit, history, placement of the operators' generators, and every generator that excludes no answer allowed by its contract", "why_tests_cant": "Reachability of all populations after any history ranges over all random behaviours and all lengths of run; tests sample a vanishing fraction of them.", "anchors": ["src/ga.rs::GeneticSolver::run", "src/ga/builder/bitstring.rs::BitStringBuilder::build", "src/ga/operators/mutation/impls.rs::FlipBit, Interchange", "src/ga/operators/replacement/impls.rs::BothParents"]}
{"id": "C131", "title": "An ant colony never rules out a tour: every tour stays constructible, whatever the history", "statement": "With exact arithmetic, positive goodness off the diagonal, and canonical ants or exploiting ants with a rate below 1: whatever the iteration orders of the hash sets, for every list of tours (one per ant) the generators have outcomes in their ranges for which AntSystemAB, and AntColonySystemAB with a positivity preserving local update, return exactly these tours. Hence for every instance with positive distances, every run length and every history of tours (one per ant and iteration) there are outcomes for which the whole run - Ant System with evaporation rate below 1, Ant Colony System with rate in [0,1) - reports in every iteration a shortest of the tours prescribed for it; in particular every sequence of tours can be the sequence of reported bests, and the pheromone, however concentrated, excludes none. Conversely a roulette with a positive draw never takes an edge without positive goodness.", "quantifier": "every number of vertices, colony, hash set order, goodness function that keeps matrices positive, local rule, best policy, pheromone, instance, run length and history of tours", "why_tests_cant": "It is a statement about which outcomes exist over all random behaviours, after histories of any length; a test sees one sampled outcome.", "anchors": ["src/aco/tsp/ant.rs::CanonicalAnt::go_to_next_place, ExploitingAnt::go_to_next_place", "src/aco/tsp/ants_behaviour.rs::AntSystemAB, AntColonySystemAB", "src/aco.rs::AntColonyOptimization::run"]}
{"id": "C132", "title": "Symmetries of the benchmark landscapes", "statement": "With exact arithmetic: the value (and the failure, where a call fails) of these benchmark functions does not depend on the order of the coordinates: alpine, chung_reynolds, cosine_mixture, exponential, quintic, salomon, schumer_steiglitz, qing, ackley, rastrigin, schwefel, sphere, styblinski_tang, xin_she_yang_2, alpine2, csendes, deb1, deb3, giunta, paviani, ripple1, ripple25 and 22 functions of two coordinates (chen_v, cross_in_tray, drop_wave, easom, ... brent); nor on the signs of the coordinates for chung_reynolds, ..., rastrigin, griewank, sum_squares and 23 functions of two coordinates; bohachevsky_n3, three_hump_camel, matyas, rotated_ellipse, rotated_ellipse2, rump and zakharov agree at a point and its mirror image; parsopoulos has period pi and shubert period 2 pi in each coordinate. So every minimum found has all its images as minima too.", "quantifier": "every point of every dimension, every permutation of it, every choice of signs, every shift by the period", "why_tests_cant": "A symmetry is an equation between values at all pairs of related points of an infinite domain; a test compares a few.", "anchors": ["src/test_functions/mod.rs::rastrigin, ackley, griewank, sphere, schwefel, alpine2, cross_in_tray, shubert, parsopoulos, zakharov, ..."]}
{"id": "C133", "title": "With which probability the selection operators select", "statement": "For every generator with uniform independent draws, and every population: the slots of a selection are independent, and each slot is (Random) every member with probability 1/n; (Rank) the member x with probability (number of members with smaller fitness + number of members with fitness at most that of x)/n^2; (RankR) every member with probability 1/n, whatever its fitness and whatever the parameter r - contrary to its documentation RankR exerts no selection pressure at all; (RouletteWheel, nonnegative fitness, not all zero) x with probability fitness(x)/sum of fitness; (Tournament) a member of fitness at most t with probability C(k,s)/C(n,s), where k members have fitness at most t and s = max(floor(n*factor),1). UniqueRandom returns every list of count different members with the same probability. (Members occurring several times count once per position.) With NaN among the fitness values Rank still has an exact law; a member with NaN fitness is selected in each slot with probability 1/n, whatever the others.", "quantifier": "every population, count, parameter, individual type, and every generator whose draws are uniform and independent (any probability space)", "why_tests_cant": "A probability is a statement about the measure of the set of all random behaviours; sampling gives an estimate with an error, not the value.", "anchors": ["src/ga/operators/selection/impls.rs::RouletteWheel, Random, UniqueRandom, Rank, RankR, Tournament"]}
{"id": "C134", "title": "Probabilities of mutation, crossover and generation", "statement": "With a generator whose draws are uniform and independent, every variation operator has the documented distribution. FlipBit flips each bit independently with the given rate (exact probability of every result); Interchange yields every ordering with probability at least (rate/n)^n; Inversion changes nothing with probability 1-rate and otherwise reverses a segment whose start is uniform and whose end is uniform from the start on; Reversing exchanges neighbouring genes, from the left, each time with probability rate. Single-, two- and multi-point crossover draw every cut point (pair of cut points, set of k cut points) with the same probability; Uniform makes every mask equally likely, UniformParameterized takes from the first parent with probability bias at each position independently; Shuffle leaves in place a uniform number of positions and every set of that size equally likely; ordered crossover and PMX draw the start of the segment uniformly and its end uniformly from the start to the length; PPX makes every sequence of parents equally likely. BitStrings generates every population of bit strings, RandomPermutations every population of orderings, with the same probability.", "quantifier": "every ideal generator, every chromosome, pair of parents (permutations where the operator needs them), rate, bias, number of cut points, size, and every predicate on the result", "why_tests_cant": "a distribution cannot be established by sampling; the probability of every possible result for every length is needed", "anchors": ["src/ga/operators/mutation/impls.rs", "src/ga/operators/crossover/impls", "src/ga/population/impls.rs"]}
{"id": "C135", "title": "Runs find the global optimum with probability tending to one", "statement": "With an ideal source of randomness shared by all operators, a NaN-free fitness function, an even positive population size and a clock that does not reach the limit, the bit-string preset returns an individual worse than a given bit string of the problem's length with probability at most (1 - 20^-dim)^(population size * generations); with more and more generations the probability that it returns a global optimum tends to one. The same holds for permutation GAs made of the shipped operators (six of the eight selections, ordered / PMX / PPX crossover, Interchange with a positive rate, BothParents), with (rate/len)^len in the place of 20^-dim.", "quantifier": "all fitness functions, problem sizes, population sizes, generation limits, mutation rates in (0,1], selections, permutation crossovers, ideal generators and clocks", "why_tests_cant": "The claim is about the probability, over all random histories, of a run of unbounded length; a test sees one history of a seeded generator.", "anchors": ["src/ga.rs::GeneticSolver::run", "src/ga/builder/bitstring.rs::BitStringBuilder::build", "src/ga/operators/mutation/impls.rs::FlipBit, Interchange", "src/ga/operators/replacement/impls.rs::BothParents", "src/ga/operators/selection/impls.rs"]}
{"id": "C136", "title": "The probabilities of the tours of ants: the random proportional rule", "statement": "With an ideal source of randomness, an ant starts at a uniform vertex; a canonical ant then moves to an unvisited vertex with a probability proportional to the goodness of the edge, an exploiting ant with rate q to the best one with probability q and otherwise by the same rule (if no two goodness values it compares are equal); none of this depends on the iteration order of the hash set. Hence the probability of a whole tour is 1/n times the product of the probabilities of its steps, the ants of Ant System are independent (the tours of the colony have the product of their probabilities, and a tour is missed by all ants with the product of the complements), the moves of one step of Ant Colony System are independent given the goodness at the beginning of the step, and every tour has an explicit positive probability when the goodness is bounded away from zero. Whatever a colony does with a generator is also an outcome of the model with given draws, for which the other colony properties are proved.", "quantifier": "all goodness matrices (finite, positive off the diagonal; non-negative for a single step), numbers of vertices and ants, exploitation rates, iteration orders of the hash sets, ideal generators", "why_tests_cant": "Probabilities of outcomes are not observable in a run; frequency tests only bound them for the sampled instances and seeds.", "anchors": ["src/aco/tsp/ant.rs::CanonicalAnt, ExploitingAnt (go_to_next_place, chose_staring_place)", "src/aco/tsp/ants_behaviour.rs::AntSystemAB, AntColonySystemAB"]}
{"id": "C137", "title": "Ant System can stagnate forever, also with Max-Min bounds", "statement": "With an ideal source of randomness, canonical goodness (alpha > 0), ants that never exploit, at least three vertices, positive distances, heuristic and initial pheromone, any of the four shipped pheromone updates (Ant System, Elitist, Max-Min with positive bounds, Ant Colony System; iteration best or overall best) and any evaporation rate strictly between 0 and 1: for every tour there is a positive probability, the same for all iteration limits, that every ant of every iteration runs along that tour and nowhere else. Hence, as soon as some tour is not a shortest one (in either direction), the probability that a run ever finds a shortest tour stays below a constant smaller than 1 however many iterations it is given; in particular the Max-Min variant does not have the convergence its lower bound is meant to guarantee. Whatever such a run returns is what run with IterationCond shows its probe for some draws the generators can make.", "quantifier": "all numbers of vertices (at least 3) and ants, distances, heuristics, exponents, pheromone updates, bounds, policies, evaporation rates, tours, iteration limits, hash set orders, ideal generators", "why_tests_cant": "Tests run finitely many iterations and seeds; a statement about the limit over all iteration counts is invisible to them.", "anchors": ["src/aco.rs::AntColonyOptimization::run, iterate", "src/aco/tsp/pheromone.rs::AntSystemPU, ElitistAntSystemPU, MMAntSystemPU, AntColonySystemPU", "src/aco/tsp/pheromone/best_policy.rs", "src/aco/tsp/ants_behaviour.rs::AntSystemAB", "src/aco/tsp/goodness.rs::CanonicalGoodness"]}
{"id": "C138", "title": "Boltzmann selection: cooling, the law of the sample, and what it favours", "statement": "With the accepted parameters (alpha in [0,1], temp_0 in [5,100]) and max_gen_count > 0, Boltzmann works in generation g with temperature temp_0 (1 - alpha)^(1 + 100 g / max_gen_count): for 0 < alpha < 1 it starts below temp_0, falls strictly and tends to 0, also beyond max_gen_count; for alpha = 0 it never falls and for alpha = 1 it is always 0. With an ideal source of randomness, the individuals at any given pairwise different positions are selected in that order with exactly the probability of drawing them one after another without replacement with weights exp(-fitness/T). Hence the smaller fitness is always the more likely one, by the factor exp(difference/T), which is the direction of the solver (unlike the operators of C08), and as generations pass the probability of selecting the single best individual, if one individual is selected, tends to 1. Selecting as many as the population has returns the whole population in some order, whatever the fitness (the setting of examples/ga.rs). The operator panics exactly when something is to be selected and there are too few individuals, a NaN fitness, a fitness 0 while alpha = 1, or max_gen_count = 0 in generation 0 (and in later generations with a fitness 0); otherwise it returns the requested number of individuals from pairwise different positions. For finite fitness and nonzero temperature it is the operator C28 and C31 speak about.", "quantifier": "all parameters, populations, fitness values (infinite and NaN included for the panics), generations, sample sizes, orders of equal keys in the heap, ideal generators", "why_tests_cant": "The law of a sample without replacement and a limit over generations cannot be observed on finitely many seeds; the panics depend on special values.", "anchors": ["src/ga/operators/selection/impls.rs::Boltzmann::with_rng, Boltzmann::apply", "examples/ga.rs"]}
{"id": "C139", "title": "What the GA example programs find", "statement": "examples/ga_bsc.rs, ga_rvc.rs, ga_ackley_test_function.rs and ga.rs never panic, whatever the draws and the clock. Since the solver minimises, each of them looks for the opposite of what it announces: what ga_bsc.rs prints as the 'Bitstring with most ones' has ten bits and no more ones than any individual it ever saw, and, bounded by generations and with an ideal source of randomness, it is the string without ones with probability tending to one (and the string of ones with probability tending to zero); what ga_rvc.rs and ga_ackley_test_function.rs print as a 'zero approximation' is a point of the unit cube where the Rastrigin / Ackley function is at least as large as at every individual they ever saw, and likewise ga.rs in its box. In ga.rs (no mutation) each coordinate of every individual ever seen is that coordinate of a member of the initial population; this and the absence of panics hold for every GA on real vectors with Boltzmann selecting the whole population, a locus-wise crossover and Identity, however many generations it runs beyond max_gen_count.", "quantifier": "all generators, places of the generators, clocks, heap orders, build modes; for the general part all parameters, boxes, fitness functions, replacements, even population sizes", "why_tests_cant": "The examples are not tested; statements over all draws and a limit over generations cannot be sampled.", "anchors": ["examples/ga_bsc.rs", "examples/ga_rvc.rs", "examples/ga_ackley_test_function.rs", "examples/ga.rs", "src/ga.rs::GeneticSolver::run, find_best_individual"]}
{"id": "C140", "title": "GAs on real vectors do not converge", "statement": "No operator of the library after the population generator creates a gene value: selection, replacement and the mutations (which reorder) and the locus-wise crossovers only recombine. So, with an ideal source of randomness, for every measurable set A of reals, with probability at least that of population*dim independent uniform draws all missing A, no individual of the whole run has a gene in A, however many generations the run has and whatever the fitness function. Consequences: the result of the real-valued preset has a gene within eps of a given number with probability at most 1 - (1 - 2 eps)^(dim*population), for every generation limit (it does not approach the optimum as the run gets longer, in contrast to the bit-string preset); it has a gene from a given countable set (such as a coordinate of the optimum, or any rational) with probability 0; minimising the squared distance from the centre of the cube, it comes within eps with no more than that probability; examples/ga.rs finds a coordinate within eps of a given number with probability at most 1 - (1 - 2 eps/10.24)^300.", "quantifier": "all fitness functions, generation and time limits, clocks, population sizes, dimensions, boxes, selections, mutations, replacements, locus-wise crossovers, measurable sets A, targets and tolerances", "why_tests_cant": "A bound on a probability uniform in the length of the run and in the fitness function cannot be sampled.", "anchors": ["src/ga/population/impls.rs::RandomPoints", "src/ga/operators/mutation/impls.rs", "src/ga/operators/crossover/impls", "src/ga/builder/realvalued.rs", "examples/ga.rs"]}
{"id": "C141", "title": "What the COCO benchmark harness measures", "statement": "coco/src/main.rs, on any continuous single-objective problem without constraints, from a freshly opened problem whose target is not hit: run_experiment with random_search makes exactly one search, which evaluates the initial solution first and then 10*dimension points of the box, i.e. one point more than the budget BUDGET_MULTIPLIER*dimension. With ecrs_ga_search neither the construction of the operators nor any generation panics; the budget passed is ignored: every search evaluates 100 + 300 k points (k generations, between 1 and 10000; population, then children and population again), so between 400 and 3000100 each; it is restarted only while fewer than the budget have been evaluated, so exactly once up to dimension 40, where it has then spent at least 400 evaluations against the 10*dimension+1 of random search. Every point evaluated has the right length and each coordinate from one of the ranges; if all ranges are equal it lies in the box. A problem whose target already counts as hit gets no search. Problems with constraints, several objectives or integer variables make the harness panic.", "quantifier": "all suites, problems, dimensions, ranges, objective functions returning numbers, generators, clocks, target states, both builds", "why_tests_cant": "The number of evaluations depends on the clock and on every draw, and the harness needs the external COCO library; the claims are about all problems, dimensions and runs.", "anchors": ["coco/src/main.rs::run_experiment, ecrs_ga_search, random_search", "coco/src/adapter.rs::CocoFitness", "src/ga.rs::GeneticSolver::run"]}
{"id": "C142", "title": "What the firefly and PSO example programs compute", "statement": "examples/ff.rs (FireflyAlgorithm::default on the sphere function): for every initial population in the box and all draws in their ranges it runs its 1000 generations without panic, all 25 fireflies stay finite and in [-5,5]^2, and the value reported in each generation is the least sum of squares of all fireflies of all generations so far. But generation 0 divides by its own number, so every firefly that is not a best one of the initial population is sent to the corner (5,5), and two initial populations with the same strictly best firefly give identical runs (for every objective and configuration): the initial population except one firefly has no influence. examples/ff_logging.rs writes exactly the 65 records of the generations 25, 40, ..., 985, each the best value at that moment; the final generation 999 is never recorded. examples/pso_multiple_probes.rs returns for all draws, keeps 30 particles of dimension 3, and writes to both files exactly the 41 records of the generations 0, 50, ..., 2000; each value is the least Rosenbrock value over all positions visited until then, attained at the recorded position, and the last record is the final result.", "quantifier": "all initial populations, all sequences of random draws; for the forgetting also all objectives, configurations, distance functions", "why_tests_cant": "The programs draw tens of thousands of random numbers from an unseeded generator; one run shows one sequence.", "anchors": ["examples/ff.rs::main", "examples/ff_logging.rs::main", "examples/pso_multiple_probes.rs::main", "src/ff.rs::FireflyAlgorithm::run, FireflyAlgorithmCfg::default", "src/pso.rs::PSOAlgorithm::run, PSOAlgorithmCfg::default", "src/ff/probe/probing_policy.rs::GenerationInterval", "src/pso/probe/probing_policy.rs::GenerationInterval"]}
{"id": "C143", "title": "The firefly search cools down geometrically", "statement": "The random part of every firefly step shrinks by the factor delta each generation and the attraction only pulls between existing fireflies. So for every objective and all draws: if after generation g all fireflies have coordinate d in [a,b], then in no later generation does any firefly have it outside [a-W, b+W], where W = alfa0^2 * max(1, (1/2+S)(upper-lower)) * delta^(g+1)/(1-delta) and S bounds the flight lengths, no matter how many generations follow (provided b+W is below the upper bound, where the algorithm would reset coordinates; attraction coefficient in [0,1], delta in [0,1)). For FireflyAlgorithm's default configuration (1000 generations, delta 0.97): from generation 299 on no coordinate leaves its range over the swarm by more than 0.06; an optimum outside this box cannot be found by the remaining 700 generations.", "quantifier": "all objectives, all draws, all initial populations, any generation g and any number of later generations, all moderate configurations", "why_tests_cant": "It bounds all later positions over all random draws and an unbounded number of generations; a run shows one path.", "anchors": ["src/ff.rs::FireflyAlgorithm::run, FireflyAlgorithmCfg::default", "src/ff/auxiliary.rs::cartesian_distance"]}
{"id": "C144", "title": "The time measurements of a GA run", "statement": "GeneticSolver::run fills the durations of Metrics as follows, for all operators, all clocks that do not run backwards, and also in a second run of the same solver. The generation and evaluation time are set when the initial population is shown, all phase times but iteration_dur when a new generation is shown, all at on_iteration_end, where evaluation + selection + crossover + mutation + replacement do not exceed iteration_dur; the iteration times and the generation of the initial population together do not exceed the total_dur of on_end. So the unwraps of the job shop example's probe never panic. At every other callback iteration_dur is the duration of the PREVIOUS iteration; in the first generation of a fresh solver it is None. pop_eval_dur covers only the last of the three evaluations of an iteration: if only evaluations take time and the replacement wants the children evaluated, each iteration reports n*c of evaluation, 0 for all else, and 3*n*c for the iteration. Measuring changes nothing else: for every sequence of clock readings the run with its measurements has the same result, panics, callbacks, populations and total times as the run about which the other GA properties speak.", "quantifier": "all operators, fitness functions, parameters, starting metrics, clocks and sequences of clock readings, all runs", "why_tests_cant": "Durations differ from run to run; the inequalities and the None cases must hold for every clock and every operator.", "anchors": ["src/ga.rs::GeneticSolver::run, Metrics", "src/ga/timer.rs::Timer", "examples/jssp/problem/probe.rs::on_iteration_end, on_initial_population_created"]}
{"id": "C145", "title": "Searches that only compare objective values do not depend on their scale", "statement": "Replace the objective f by phi(f) for a strictly increasing phi. With the same random draws and the same clock (a) a GA made of shipped operators whose selection is Random, UniqueRandom, Rank, RankR or Tournament, with any crossover, mutation and replacement, performs the same run: same panic or same final generator states, same returned chromosome, same callbacks in the same order with the same chromosomes, every reported fitness v now reading phi(v), NaN staying NaN, whatever the placeholder fitness of fresh individuals; (b) PSO builds the same swarm and makes the same moves, in any arithmetic; (c) the firefly algorithm does so for objectives with values in [0, f64::MAX) if phi keeps them there and does not move 0. RouletteWheel is invariant under scaling by a positive constant (exact arithmetic) but not under adding a constant.", "quantifier": "all strictly increasing phi, objectives, operators, generators, draws, populations, run lengths", "why_tests_cant": "Relates two runs for all transformations, objectives, seeds and histories.", "anchors": ["src/ga.rs::run, find_best_individual", "src/ga/operators/selection/impls.rs", "src/ga/operators/replacement/impls.rs::WeakParent", "src/pso/swarm.rs", "src/pso/particle.rs", "src/ff.rs::run"]}
{"id": "C146", "title": "Searches do not depend on the units of the coordinates (where they do)", "statement": "In exact arithmetic, with the same draws: restating a problem in the units a*x+b (a > 0), box included, makes PSO build the transformed swarm and perform the transformed run (positions a*x+b, velocities a*v, same values, callbacks and number of iterations); shifting a problem by b makes the firefly algorithm perform the shifted run, with either shipped distance (which are shift invariant). The firefly algorithm does not scale: a firefly without a brighter one moves by at most the square of the current step size per coordinate, however wide the box.", "quantifier": "all a > 0 and b, objectives, boxes, coefficients, draws, stopping rules that do not look at positions, run lengths", "why_tests_cant": "Relates two runs for all transformations, objectives, seeds and histories.", "anchors": ["src/pso/particle.rs::generate, update_velocity, update_position", "src/pso/swarm.rs", "src/ff.rs::run, move_firefly", "src/ff/auxiliary.rs"]}
{"id": "C147", "title": "Which benchmark functions are the published ones, and the exact error of the others", "statement": "A user who optimises `rastrigin` expects the function the literature calls Rastrigin. Written down independently from the literature with sums over coordinates, the following crate functions return exactly the published value at every point, in every admissible dimension: alpine, chung_reynolds, cosine_mixture, exponential, quintic, schumer_steiglitz, ackley, griewank, michalewicz, rastrigin, schwefel, sphere, styblinski_tang, sum_squares, xin_she_yang_2, zakharov, rotated_hyper_ellipsoid, brown, levy, rosenbrock, trid, 53 functions of the plane, and forrester_et_al, bartels_conn, colville, miele_cantrell, dolan, branin, keane, csendes (where defined). The others are not the published functions, and the error is known exactly at every point: e.g. six_hump_camel is off by (x^5-x^6)/3, quadratic by -180 y^2, branin_rcos and branin_default have the constants 5.1 pi^2/4 and pi/8, wolfe and giunta divide integers, salomon lacks a root, deb1/deb3 divide by n-1, dixon_price, trigonometric1, power_sum and powell_sum number their terms wrongly, pathological and powell2 leave out windows, powell reads its blocks one coordinate late, sargan adds a term per pair, paviani and alpine2 lose their product, the Biggs residuals are off by 5(e^i+e^-i), brad uses one datum only, ripple1 and ripple25 have a pole where the literature has a bell (so ripple1 is unbounded below on its box), langermann skips the first row of its tables and inverts a quotient; devilliers_glasser2 is the published function but its documented minimum is wrong.", "quantifier": "every point (all real coordinates), every dimension; for qing every constant", "why_tests_cant": "a test compares finitely many points of a function on the reals; most of the wrong formulas agree with the published one on axes, at the origin or at the documented minimum", "anchors": ["src/test_functions/mod.rs"]}
{"id": "C148", "title": "The console shows every iteration, completely and in order", "statement": "What the StdoutProbe of the swarm, firefly and ant algorithms prints is determined line by line. A firefly run of G generations in d dimensions prints START, exactly d+3 lines per generation (header with the number from 0, the reported value, the d coordinates of one firefly of that generation numbered from 0, a rule) and END: line k(d+3)+1 is the header of generation k. A swarm run of n iterations prints the initial swarm, the swarm after each iteration 1..n, and the last one again (9+5n lines); behind GenerationInterval only the multiples of the interval and the last. An ant run prints three lines per iteration, numbered from 1, with the fitness of that iteration's best, and END; a panicking one prints its complete iterations and the beginning of the one that panicked, and no END.", "quantifier": "every run that returns (every objective, configuration, draw, way of printing a number); for ants also every run that panics", "why_tests_cant": "Output is a function of the whole run; the number and position of its lines must be right for every run length and dimension, and for runs cut off by a panic at any point. There are no tests on output at all.", "anchors": ["src/ff/probe/stdout_probe.rs", "src/pso/probe/stdout_probe.rs", "src/pso/swarm.rs::Display", "src/pso/particle.rs::Display", "src/aco/probe/stdout_probe.rs"]}
{"id": "C149", "title": "Genes are opaque names: renaming them renames the run", "statement": "No shipped operator depends on what a gene is. SinglePoint, TwoPoint, MultiPoint, FixedPoint, Uniform, UniformParameterized, Shuffle and the mutations Identity, Interchange, Reversing, Inversion never look at a gene: for every rewriting phi of genes, even one that merges genes, applying the operator to rewritten parents with the same generator panics alike or leaves the same generator and returns the rewritten children. OrderedCrossover, Pmx and Ppx only test equality, so the same holds for every injective phi (and fails for merging ones). Hence a whole permutation GA, with any shipped selection, crossover, mutation and replacement, run on renamed genes is the original run with every individual renamed: same returned individual, same callbacks, same fitness values, same final state.", "quantifier": "every rewriting of the genes (injective where genes are compared), every parents of any lengths, every generator, objective, configuration, population size, number of generations and clock", "why_tests_cant": "The claim ranges over all gene types and all renamings; an operator that treats some gene specially, or depends on gene order or hashing, would pass any test that does not happen to use that gene.", "anchors": ["src/ga/operators/crossover/impls/*.rs::apply_single", "src/ga/operators/mutation/impls.rs::apply", "src/ga/population/impls.rs::RandomPermutations::generate", "src/ga.rs::GeneticSolver::run"]}
{"id": "C150", "title": "Job shop example: some optima are out of reach for every chromosome", "statement": "The decoder schedules an operation whose job predecessor ends later than 1.5 times the longest duration only after the first operations of all jobs, whatever the chromosome. Consequently there are instances whose optimum no individual can represent: for every n >= 2 there is an instance with 2n+2 jobs on 6 machines, durations 1 and no job visiting a machine twice in a row, whose shortest possible makespan is exactly n+3, while every individual that can arise evaluates to exactly 2n+1 (decoding and local search included). A whole run of the example on it, with any random numbers, elite and sample sizes, clock and number of generations, shows 2n+1 as the fitness of every evaluated individual and returns an individual of fitness 2n+1: a ratio approaching 2 however long it runs.", "quantifier": "every chromosome of genes in [0,1), every n >= 2, every individual arising by the shipped operators, every run configuration and generator, every feasible schedule (for the optimum)", "why_tests_cant": "The claim is that no chromosome out of a continuum decodes to a better schedule, together with optimality over all schedules, for an unbounded family of instances; sampling chromosomes shows nothing about the others.", "anchors": ["examples/jssp/problem/fitness.rs::JsspFitness::evaluate_individual", "examples/jssp/problem/fitness.rs::JsspFitness::delay_for_g", "examples/jssp/problem/fitness.rs::JsspFitness::update_delay_feasibles_and_highest_prior_op", "examples/jssp/problem/fitness.rs::JsspFitness::local_search", "examples/jssp/main.rs"]}
{"id": "C151", "title": "Which parameters the ACO constructors accept", "statement": "ExploitingAnt::with_rng returns an ant (with no visited vertices and the given rate) exactly for exploitation rates in [0,1); Decay::new and DecayTo::new return exactly for decay rates in [0,1), whatever the stable constant of DecayTo; MMAntSystemPU::new and with_best_policy return exactly when 0 <= lower bound < upper bound, where the upper bound may be +infinity, whatever the evaporation rate. In every other case, including NaN and the infinities, they panic by assertion.", "quantifier": "every value of every parameter, including NaN and the infinities", "why_tests_cant": "A continuum of values; the boundaries 0, 1 and NaN are easily mishandled.", "anchors": ["src/aco/tsp/ant.rs::ExploitingAnt::with_rng", "src/aco/tsp/local_update.rs::Decay::new", "src/aco/tsp/local_update.rs::DecayTo::new", "src/aco/tsp/pheromone.rs::MMAntSystemPU::with_best_policy"]}
{"id": "C152", "title": "StochasticUniversalSampling is unbiased", "statement": "With a uniform start pointer, non-negative fitness values of positive total T and selection size count, an individual of fitness f with fair share s = count*f/T is selected floor(s)+1 times with probability the fractional part of s and floor(s) times otherwise, so the expected number of copies is exactly s. An individual with s >= 1 is never missed; one with s < 1 is selected with probability exactly s. The operator panics with probability zero.", "quantifier": "every population and fitness values, every selection size, every individual", "why_tests_cant": "A probability law for every population: sampling gives estimates for single populations only, and off-by-one pointer placements shift probabilities slightly.", "anchors": ["src/ga/operators/selection/impls.rs::StochasticUniversalSampling::apply"]}
{"id": "C153", "title": "PSO: which coefficients let particles settle once the bests stop changing", "statement": "Take a particle whose own best and the swarm's best cannot be improved any more (an optimum was found, or the objective is flat), and let w, c1, c2 be the inertia, cognitive and social coefficients, p and g the two bests in some coordinate. With independent uniform samples: (1) if |w| < 1 and 0 < c1+c2 < 4(1+w), the mean of the coordinate converges to (c1 p + c2 g)/(c1+c2); (2) if moreover (c1^2+c2^2)(1+w) < 3(1-w)(c1+c2)(4(1+w)-(c1+c2)), its mean squared distance from there stays bounded, and if p = g the coordinate converges to g with probability one; (3) if, under the condition of (1), the left side exceeds the right side, the mean squared distance grows at least exponentially, unless nothing drives the particle: it starts at that point, w = 0 or its velocity is zero, and p = g or one of c1, c2 is zero. The coefficients of PSOAlgorithmCfg::default (0.5, 1, 3) are of the third kind.", "quantifier": "every objective, swarm, particle and coordinate meeting the stagnation condition, every probability space with fair draws, every number of iterations", "why_tests_cant": "Limits and growth rates of expectations over infinitely many iterations; in a finite test the rare large excursions that carry the mean square are not seen.", "anchors": ["src/pso/particle.rs::Particle::update_velocity", "src/pso/particle.rs::Particle::update_position", "src/pso/swarm.rs::Swarm::update_best_position", "src/pso.rs::PSOAlgorithmCfg"]}
{"id": "C154", "title": "How often a gene is exchanged and two genes are separated by crossover", "statement": "For parents of length n that differ at the positions in question, with ideal random numbers, positions counted from 0: SinglePoint gives the first child the second parent's gene at position i with probability (i+1)/n (the last gene always) and separates genes at distance d with probability d/n; TwoPoint exchanges position i with probability 2(i+1)(n-1-i)/n^2 (the last gene never) and separates genes at distance d with probability 2d(n-d)/n^2; Uniform exchanges every gene with probability 1/2 and separates any two with probability 1/2; UniformParameterized with 1-bias and 2*bias*(1-bias); Shuffle with (n+1)/(2n) and (n+1)/(3n), whatever the positions.", "quantifier": "every pair of parents of equal length, every position, every pair of positions, every bias in [0,1]", "why_tests_cant": "Exact probabilities for every length and position; a one-off error in a cut range changes them by O(1/n), which sampling does not resolve.", "anchors": ["src/ga/operators/crossover/impls/single_point.rs::SinglePoint", "src/ga/operators/crossover/impls/two_point.rs::TwoPoint", "src/ga/operators/crossover/impls/uniform.rs::Uniform", "src/ga/operators/crossover/impls/uniform_parameterized.rs::UniformParameterized", "src/ga/operators/crossover/impls/shuffle.rs::Shuffle"]}
{"id": "C155", "title": "Schema theorem for a generation of the textbook bit-string configuration", "statement": "Run one generation of a solver with RouletteWheel, SinglePoint, FlipBit(rate) and BothParents on bit strings of length dim, population size n even, fitness values not negative and not all zero, ideal random numbers. For a schema (a set of fixed positions between lo and hi with prescribed bits) the expected number of individuals of the next generation carrying it is at least n times the share of its carriers in the total fitness, times 1-(hi-lo)/dim, times (1-rate)^(number of fixed positions). Separately: RouletteWheel selects on average exactly count times the share of any sub-population; FlipBit leaves a carried schema intact with probability exactly (1-rate)^(number of fixed positions); SinglePoint keeps on average at least 1-(hi-lo)/dim of the copies in the mating pool. Selection is expected to increase a property exactly if the average fitness value of its carriers is above the population's average - although the solver reports the lowest value as best.", "quantifier": "every fitness function with values >= 0, every population, every schema, every mutation rate in [0,1], every length and even population size, every clock", "why_tests_cant": "An inequality between expected values over all random outcomes of a generation, for all populations and schemata; sampling neither resolves the bound nor covers the populations.", "anchors": ["src/ga/operators/selection/impls.rs::RouletteWheel", "src/ga/operators/crossover/impls/single_point.rs::SinglePoint", "src/ga/operators/mutation/impls.rs::FlipBit", "src/ga/operators/replacement/impls.rs::BothParents", "src/ga.rs::run"]}
{"id": "C156", "title": "What the benchmark programs run", "statement": "The three registered firefly benchmarks (250, 500 and 1000 generations of the default algorithm) never panic, and for the same random draws the shorter ones do exactly the first 250 and 500 generations of the longest, which is the program of examples/ff.rs; in general a firefly run with fewer generations is a prefix of a run with more (same states, same callbacks). Giving the algorithm fewer fireflies than population_size (but at least one) makes the first generation panic, whatever the objective, distance, settings and draws: so `ff_bench_preset_small` (10 fireflies, population size 25; not registered) always panics, while `preset_large` (20 and 20; not registered) performs its 1000 generations. The ACO benchmark closure, for any list of at least two pairwise different cities, performs exactly 20 iterations without a panic, reports each time a tour of all cities with fitness 1/length in Euclidean distances and a positive symmetric pheromone; the two city lists of the benchmarks are such lists.", "quantifier": "every random draw and hash set order; every configuration, objective and distance function (too few fireflies, prefix); every list of pairwise different cities", "why_tests_cant": "Benchmarks assert nothing and exercise one random stream; two of the five firefly closures are not even registered. That none of them can panic, or always does, is a statement about all draws.", "anchors": ["benches/ff_bench.rs::ff_bench_quarter, ff_bench_half, ff_bench_full, ff_bench_preset_small, preset_large", "benches/aco_bench.rs::bench_aco_small, bench_aco_medium, calc_dist", "src/ff.rs::FireflyAlgorithm::run"]}
{"id": "C157", "title": "Sampling selection with infinite, overflowing or undefined fitness", "statement": "RouletteWheel and StochasticUniversalSampling on all f64 fitness values, with rounding, overflow and IEEE infinities. If one fitness value is NaN, RouletteWheel returns an empty selection, without a panic. If the running sum becomes plus infinity (one individual with f64::INFINITY, the usual mark of an infeasible solution, or an overflow of large values) and no NaN or minus infinity occurs, RouletteWheel selects only the individual at which this happens, once per draw that is not exactly zero, hence with probability one it fills the whole mating pool, although the solver minimises. A population of at least two individuals that were never evaluated (fitness f64::MIN) yields only its first individual. StochasticUniversalSampling panics when a fitness value is NaN or the computed total is infinite. When the fitness values are finite and non-negative and their computed sum does not exceed f64::MAX, overflow plays no role and RouletteWheel is the operator of C125; if the total plus one pointer step does not exceed f64::MAX either, StochasticUniversalSampling is the operator of C126.", "quantifier": "every population, every rounding (monotone, idempotent), every largest finite value, every requested count, every generator and every draw; probability over an ideal generator", "why_tests_cant": "The repository's test of the operator uses individuals that were never evaluated, whose total overflows to minus infinity; it passes only because no draw is exactly zero. What happens for every mix of finite, infinite and NaN values and every draw cannot be enumerated.", "anchors": ["src/ga/operators/selection/impls.rs::RouletteWheel::apply, StochasticUniversalSampling::apply", "tests/selection_tests.rs::roulette_whell_returns_demanded_size"]}
{"id": "C158", "title": "Copies stay copies: a converged population never moves again", "statement": "Every shipped crossover applied to an even number of individuals with one and the same chromosome c (of a size the operator accepts; without duplicate genes for the three permutation operators) returns as many individuals, all with chromosome c. Hence in a GA made of any shipped selection, crossover and replacement, with Identity mutation or with a chromosome whose genes are all equal: as soon as the probes are shown a population of copies of c, every population, best-of-generation and new best individual they are shown afterwards has chromosome c. With a locus-wise crossover and Identity mutation the same holds for a single gene: once all members agree at a locus they agree there for the rest of the run. With RouletteWheel, one individual of infinite fitness makes all offspring of the next generation copies of itself with probability one.", "quantifier": "every chromosome, every pool and population, every operator combination and parameter, every point of the run, every random draw and clock; probability over an ideal generator (takeover)", "why_tests_cant": "Absorption is a statement about everything after an arbitrary point of every run with every operator combination; PMX, PPX and ordered crossover return copies unchanged only because of a case analysis over all cut points and masks.", "anchors": ["src/ga/operators/crossover/impls.rs::CrossoverOperator::apply", "src/ga.rs::GeneticSolver::run", "src/ga/operators/selection/impls.rs::RouletteWheel::apply"]}
{"id": "C159", "title": "Equality and order of individuals look at the fitness only", "statement": "Two individuals are equal exactly if their fitness values are the same number; the chromosomes play no role, so all individuals just made from chromosomes are equal to each other and two such populations are equal exactly if they have the same size. Equality is symmetric and transitive, but an individual with NaN fitness is not equal to itself (although the type implements Eq), and comparing it panics. Where it returns, the order is the order of the fitness values and agrees with equality. An individual made from a chromosome and not yet evaluated has the lowest f64, so in a population without NaN it is the one found best by the minimising solver; Individual::new() (fitness 0) is worse than it. The individuals of the job shop example compare by fitness too, never panic, and a new one is worst. Solutions of the ant algorithms are equal if both fitness and vertex list are equal: the same tour from another start is a different solution.", "quantifier": "every pair, triple and population of individuals, every chromosome type and content, every fitness value including NaN", "why_tests_cant": "The laws of equality and order are statements about all pairs and triples of values; the repository's own assert_eq! on populations rely on this equality and therefore compare nothing but the length.", "anchors": ["src/ga/individual.rs::Individual (new, From, PartialEq, PartialOrd, Ord)", "src/ga.rs::find_best_individual", "src/aco/solution.rs::Solution (PartialEq)", "examples/jssp/problem/individual.rs::JsspIndividual (PartialEq, Ord, From)"]}
{"id": "C160", "title": "The repository's own randomised tests, judged for every generator", "statement": "The project's randomised tests, written as programs against the API, are settled for every generator: the size tests of Random, Rank, RankR, Tournament and Boltzmann, the value tests of SinglePoint, TwoPoint, MultiPoint(4..8), Uniform, Shuffle and PPX, the tests of Identity, FlipBit, Interchange(0), Reversing(1) and of all population generators pass whatever is drawn (exact arithmetic; C161 shows what rounding does to the test of the point generator). The RouletteWheel size test passes exactly if none of its 21 draws is zero (its individuals were never evaluated, the fitness total overflows to minus infinity and every other draw picks the first individual); the SUS size test passes exactly if the start pointer is not zero; interchange_introduces_changes always fails when the 30 sampled bits are equal. The tests of Noop and BothParents pass whichever population is written as the expected one, and random_returns_whole_population_in_order passes whatever indices the mock generator yields, because individuals are compared by fitness only.", "quantifier": "all generators and generator states, all heap orders (Boltzmann), all roundings for which f64::MIN doubled overflows (RouletteWheel)", "why_tests_cant": "a randomised test run samples one generator state; whether it can fail, or can ever fail, is a statement about all of them", "anchors": ["tests/selection_tests.rs::random_selection_returns_demanded_size, roulette_whell_returns_demanded_size, rank_returns_demanded_size, rankr_returns_demanded_size, tournament_returns_demanded_size, sus_returns_demanded_size_when_fitness_positive, boltzmann_returns_demanded_size, random_returns_whole_population_in_order", "tests/crossover_tests.rs::operator_takes_values_from_parents, ppx_test", "tests/replacement_tests.rs::noop_does_nothing, both_parents_returns_children", "src/ga/operators/mutation/impls.rs::tests", "src/ga/operators/crossover/impls.rs::tests", "src/ga/population/impls.rs::tests", "src/ga/population/tools.rs::tests"]}
{"id": "C161", "title": "Random points in f64 arithmetic", "statement": "RandomPoints::with_constraints, with the f64 rounding (to nearest, ties to even) after each of the three operations of a coordinate and draws that are multiples of 2^-52 below 1, as rand's Uniform::new(0.0, 1.0) yields: every generated point has dim coordinates and coordinate i lies in the closed interval [start, end] of range i. The constraint is a half-open Range, but its end is only excluded for ranges that start at zero; for the default range 0.0..1.0 the coordinate is the draw itself. For -5.0..-4.0 (a range of the repository's test points_follow_explicit_constraints) the two largest draws give exactly -4.0, so the test can fail; for 2^53..2^53+2 every draw above one half gives the excluded end. For f64::MIN..f64::MAX the width overflows and every coordinate is infinite, or NaN for the draw zero. When width and coordinate do not exceed f64::MAX, the f64 coordinate is the rounded one.", "quantifier": "all dimensions, counts, ranges with f64 bounds and start < end, all generators whose unit draws are multiples of 2^-52 (box); all such draws (unit, coarse range); all roundings and non-negative draws (whole line)", "why_tests_cant": "the excluded end is hit with probability about 2^-51 per coordinate for the repository's ranges; no test run meets it, and that no coordinate ever leaves the closed interval is a statement about all draws and all ranges", "anchors": ["src/ga/population/tools.rs::PointGenerator::generate_with_constraints", "src/ga/population/impls.rs::RandomPoints::generate, RandomPoints::with_constraints, RandomPoints::with_single_constraint, points_follow_explicit_constraints"]}
{"id": "C162", "title": "Genetic drift: a GA with Random or RankR selection is blind to fitness", "statement": "A GA with Random or RankR selection of n individuals (n even, the population size), one of the seven locus-wise crossovers, Identity mutation and BothParents, an arbitrary fitness function without NaN and a clock that does not run out: (1) crossover neither creates nor destroys genes: at every locus the children have as many genes of every kind as the parents; (2) if x of n members carry a kind of gene at a locus, the number of carriers in the next generation is binomially distributed with parameters n and x/n; (3) the expected number of carriers in the final population of a run equals that in the initial one; (4) the expected number of pairs of a carrier and a non-carrier shrinks by exactly (n-1)/n per generation, so the probability that a locus still has both kinds after k generations is at most E0/(n-1) times ((n-1)/n)^k; (5) with growing generation limit the probability that the whole final population carries the gene converges to its initial share: good and bad genes win equally. The fitness function occurs in none of these, and RankR's parameter has no effect.", "quantifier": "all population generators producing n chromosomes of d genes, all n, d, loci, kinds of genes, fitness functions, generation limits, RankR parameters in [0,1], locus-wise crossovers with fitting parameters; probabilities over an ideal generator", "why_tests_cant": "statements about exact distributions and limits over all runs; a test sees single samples, and each single generation looks plausible", "anchors": ["src/ga.rs::GeneticSolver::run", "src/ga/operators/selection/impls.rs::Random, RankR (apply)", "src/ga/operators/crossover/impls::SinglePoint, TwoPoint, MultiPoint, FixedPoint, Uniform, UniformParameterized, Shuffle (apply)", "src/ga/operators/mutation/impls.rs::Identity", "src/ga/operators/replacement/impls.rs::BothParents"]}
{"id": "C163", "title": "Missing roads as infinite distances", "statement": "A user forbids a direct connection between two cities of a TSP by giving it the distance infinity. The heuristic and the canonical goodness of such a pair are 0 (beta with 0^beta = 0) and those of a road positive; a tour that only uses roads is graded with the inverse of its length and every other tour with 0, never NaN. An ant with unvisited cities left always moves to one of them: it leaves the roads only if no road leads to an unvisited city or if its random number is exactly 0 (an event of probability 0 for a canonical ant), and at such a dead end it crosses a missing road instead of getting stuck, as a user might expect. Hence an Ant System run on any road network never panics and every ant returns a tour; tours that leave the roads deposit no pheromone; the reported best only uses roads, and is a shortest of those, as soon as some ant of the iteration found such a tour; otherwise - always, if the network has no tour - the run reports a tour that does not exist, recognisable only by its fitness 0.", "quantifier": "all road networks on at least two cities, lengths, positive pheromones, colonies, draws, hash set orders and iteration limits (exact arithmetic)", "why_tests_cant": "All networks, draws and iteration limits.", "anchors": ["src/aco/tsp.rs::PathLengthInverse::grade_solution", "src/aco/tsp/util.rs::create_heuristic_from_weights", "src/aco/tsp/goodness.rs::CanonicalGoodness::apply", "src/aco/tsp/ant.rs::CanonicalAnt::go_to_next_place, ExploitingAnt::go_to_next_place", "src/aco/tsp/pheromone.rs::AntSystemPU::apply", "src/aco.rs::AntColonyOptimization::run"]}
{"id": "C164", "title": "RouletteWheel with integer fitness selects next to nobody", "statement": "RouletteWheel accepts every numeric fitness type, also integers (the individuals of the job shop example have usize fitness), and its documentation promises each individual the probability fitness / total fitness. With a w-bit unsigned integer fitness and a positive total S < 2^w (random integers being uniform on all values of the type): in a release build one spin of the wheel selects nobody with probability (2^w - S - g) / 2^w where g = gcd(S, 2^w); an individual behind another one has the probability (number of multiples of g between the fitness total before it, exclusive, and including it) * g / 2^w, which is fitness / 2^w when S is odd, and the first individual (floor(fitness / g) + 1) * g / 2^w. The mating pool of `count` spins is empty with probability ((2^w - S - g) / 2^w)^count and contains anybody with probability at most count * 2 S / 2^w. With overflow checks (debug builds) one spin returns only with probability (floor((2^w - 1) / S) + 1) / 2^w, otherwise the multiplication panics, and selects somebody with probability exactly 2 / 2^w. With a signed w-bit type and a total below 2^(w-1) (release build) the first individual of the population is selected with probability 1/2 + (floor(fitness / g) + 1) * g / 2^w whatever its fitness, and nobody with probability 1/2 - (S + g) / 2^w. If all fitness values are 0, the first individual fills the pool, in every type and build. Consequently a generation, and a whole run over at least one generation, of a GA with fitness values between 1 and F in a w-bit unsigned type, a population of n >= 2, n F < 2^w and BothParents or WeakParent replacement returns with probability at most count * 2 n F / 2^w (for u64, 100 individuals and fitness up to 11: at most 220000 / 2^64); otherwise it panics.", "quantifier": "for every word length, population, fitness assignment without overflow of the total, selection size, and every random number generator with ideal randomness; for runs: every solver whose other operators have a law", "why_tests_cant": "the probabilities are exact for all populations and word lengths, and events of probability 10^-14 are not observable by sampling", "anchors": ["src/ga/operators/selection/impls.rs::RouletteWheel", "src/ga.rs::run", "src/ga/individual.rs::IndividualTrait"]}
{"id": "C165", "title": "Position bias of the reordering mutations", "statement": "With a generator whose draws are uniform and independent: (Reversing) the first of distinct genes is carried k places or more to the right with probability rate^k, every other gene moves one place to the left with probability rate and ends k places or more to the right of where it was (k = 0: does not move left) with probability (1 - rate) * rate^k; at rate 1 the operator never reverses but always moves the first gene to the end, keeping the order of the others. (Inversion) a chromosome of n distinct genes is left as it was with probability 1 - rate + rate * (1 + 1/2 + ... + 1/n) / n; the first gene leaves its place with probability rate * (n-1) / n^2, the last one with probability rate * (1/2 + ... + 1/n) / n, which for n >= 3 is strictly more often. (Interchange) at rate 1 the chance of a result is the proportion, among the n^n choices of one partner per position, of those leading to it when the exchanges are made from left to right; hence for n >= 3 no ordering whatever has the probability 1/n! of a fair shuffle (three genes: 5/27 or 4/27 each); two genes end exchanged with probability rate * (1 - rate/2).", "quantifier": "every ideal generator, every rate between 0 and 1, every chromosome (of distinct genes where said) of any length and gene type, every position, distance and predicate on the result", "why_tests_cant": "the claims are exact probabilities over all outcomes of the random draws and all chromosome lengths; a statistical test can only estimate them for a few lengths, and cannot exclude that some ordering of a long chromosome has exactly the fair probability", "anchors": ["src/ga/operators/mutation/impls.rs::Interchange", "src/ga/operators/mutation/impls.rs::Reversing", "src/ga/operators/mutation/impls.rs::Inversion"]}
{"id": "C166", "title": "The random steps of the firefly algorithm favour the upper bounds", "statement": "In exact real arithmetic, in every generation g >= 1 of the firefly algorithm: if the uniform draw of an attraction step has mean 1/2 and the flight length has mean m, the mean new coordinate of a firefly attracted by a brighter one is (as long as it stays in the box) the place it is drawn to plus alfa0 * alfa * (upper - lower) * m / g; with the default distribution (Standard: uniform on the unit interval, m = 1/2) the excess is alfa0 * alfa * (upper - lower) / (2 g), and the new coordinate lies above the place it is drawn to with probability exactly 0.8775 for g = 1, 0.755 for g = 2 and 1/2 + 25/(49 g) for g >= 3, always more than one half, whatever the objective, the fireflies, the box and the coefficients. The step of a firefly without a brighter one has no such bias. The excesses of all generations sum to alfa0^2 (upper - lower)/2 * (-log(1 - delta)); with the default coefficients the first ten alone sum to more than the width of the box. So the default algorithm is pushed to the upper bounds wherever the optimum is.", "quantifier": "every configuration with finite numbers, objective, distance function, population, generation g >= 1, attracted firefly and coordinate, and every probability space carrying the draws", "why_tests_cant": "the claims are exact expectations and probabilities of continuous random draws, for all configurations and generations; a test can only estimate them by sampling one configuration", "anchors": ["src/ff.rs::FireflyAlgorithm::run", "src/ff.rs::FireflyAlgorithmCfg"]}
{"id": "C167", "title": "The CSV files can be read back", "statement": "The text of every CSV file the library writes determines what was recorded: write_cities_csv writes the header x,y and one line per city, and reading the file gives the same list of cities in the same order (two lists of cities never give the same file); after every returning PSO run of n iterations the file of the CSV probe, read back, holds exactly one line per generation 0..n with its best value; after every returning firefly run one line per generation 0..max_generations-1 with the value reported in it (with no generations the file is empty, it has not even a header); after an ant colony run the lines of best.csv numbered k+1 are the tour of iteration k's best in order, and the lines of pheromone.csv numbered k+1 give exactly the entries of that iteration's pheromone matrix.", "quantifier": "every list of cities, every returning PSO / firefly / ant colony run of any length, and every way of writing floating point numbers that needs no quoting and can be read back", "why_tests_cant": "the claim is about all lists and all runs: a test compares a few files", "anchors": ["src/aco/tsp/util.rs::write_cities_csv", "src/pso/probe/csv_probe.rs::CsvProbe", "src/ff/probe/csv_probe.rs::CsvProbe", "src/aco/probe/csv_probe.rs::CsvProbe"]}
{"id": "C168", "title": "No genetic algorithm of the library finds a needle faster than blind guessing", "statement": "Whatever the operators: the result and the probe events of a returning run of the genetic solver depend on the objective function only through its values at at most populationSize + generations * populationSize chromosomes (plus the children, if the replacement asks for their fitness); every objective function that agrees there gives exactly the same run. Hence, for every configuration of operators and every fixed sequence of draws, at most that many of the needles that can be hidden in an objective function are found; with random draws the probabilities of finding the needle, summed over all hiding places, are at most that number, so for some place the probability is at most the number of chromosomes looked at divided by the number of places. For the bit-string preset with n individuals some needle is found with probability at most n(generations+1)/2^dim, and the expected number of generations until it is found is at least about 2^dim/(2n); for permutation GAs built of shipped operators the same with len!. Conversely for every NaN-free objective function the expected number of generations to a given quality is at most 20^dim, respectively (len/rate)^len.", "quantifier": "every operator configuration, objective function, needle, outcome of the draws, population size, number of generations, length; the probabilities for every ideal generator", "why_tests_cant": "the claim is about all objective functions and all operators; a test runs one configuration on one function", "anchors": ["src/ga.rs::GeneticSolver::run", "src/ga/operators/fitness.rs::FnBasedFitness", "src/ga/builder/bitstring.rs::BitStringBuilder"]}
{"id": "C169", "title": "The swarms cannot find what they do not look at either", "statement": "Whatever the draws, the coefficients and the stopping condition: the result of building and running a particle swarm of n particles (the final swarm and everything the probe is shown) depends on the objective function only through its values at n(generations+1) points, and the result of a firefly run (all populations and everything the probe is shown) only through its values at fireflies*(max_generations+1) points. Hence of any pairwise disjoint subsets of the search space at most that many make any difference to the run if the objective function takes another value on them; and with random draws some of them matters with probability at most that number divided by the number of sets.", "quantifier": "every objective function (NaN included), family of disjoint sets, sequence of draws, swarm size, dimension, configuration, stopping condition and arithmetic", "why_tests_cant": "the claim compares runs on all objective functions that agree at finitely many points", "anchors": ["src/pso.rs::PSOAlgorithm::run", "src/pso/swarm.rs::Swarm", "src/ff.rs::FireflyAlgorithm::run"]}
{"id": "C170", "title": "The JSON files can be read back, except numbers that are not finite", "statement": "The files that the JSON probes of the particle swarm, of the fireflies and of the ants leave at the end of every returning run are well-formed JSON. Read by any JSON reader (records by field name), they hold exactly one record per generation/iteration, in order, with its best value and position (ants: all rows of the pheromone, the best tour and its fitness); without any, the empty list. Finite numbers are read back exactly; NaN and infinities are written as null and cannot be told apart. Different lists of records with finite numbers never give the same file.", "quantifier": "every run, objective function, configuration, number of iterations, dimension, matrix, and every way of writing finite numbers that can be read back", "why_tests_cant": "the text has to be unambiguous for every list of records of every length and nesting, and whatever the numbers", "anchors": ["src/pso/probe/json_probe.rs::JsonProbe", "src/ff/probe/json_probe.rs::JsonProbe", "src/aco/probe/json_probe.rs::JsonProbe, IterationData, into_vec", "src/aco/solution.rs::Solution::serialize"]}
{"id": "C171", "title": "Which files the job shop example accepts", "statement": "A job shop instance file is loaded without panic exactly if it is a sequence of lines of decimal numbers (leading zeros and one plus sign allowed, each at most usize::MAX) laid out with any white space between and around the numbers, with either kind of line end and the last line ended or not, and these numbers are loaded (C100); a file has at most one such reading. However a well-formed instance is laid out, its operations get the numbers, machines, durations and predecessors it says. On the other hand a line without numbers after the first one - in particular a second line feed at the end of an accepted file - makes the program panic, and so does any word that is not such a number, wherever it stands.", "quantifier": "every text, every layout, every instance", "why_tests_cant": "there are infinitely many texts and layouts", "anchors": ["examples/jssp/parse.rs::TryFrom<&PathBuf> for JsspInstance", "examples/jssp/problem/population.rs::JsspPopProvider"]}
{"id": "C172", "title": "The job shop log files tell the run", "statement": "Solving any instance (well formed, at least one operation, positive durations, no job twice in a row on one machine) with the job shop example's genetic algorithm or random search, the logging probe never panics, and the six files it leaves can be read back and tell the run: event_popmetrics.csv has one row for the initial population (generation 0) and one for each generation 1 to k in order, with the size of exactly that population and the mean Euclidean distance over all pairs of its members (NaN for a single individual); event_popgentime.csv has one row; event_newbest.csv one row for each improvement, with generations strictly increasing from 0, makespans strictly decreasing, the last one being that of the result; event_bestingen.csv and event_iterinfo.csv one row for each of the k generations, with the smallest makespan in it and with phase times whose sum does not exceed the iteration's; the iterations and the initial generation together do not exceed the total time in run_metadata.json, which also has k, the solution string of the result (C117) with its hash, its makespan and its chromosome.", "quantifier": "every instance, generator, population size, limits, every clock that does not run backwards, every way of writing numbers without separators", "why_tests_cant": "there are infinitely many instances, random sequences and clock behaviours; a test reads the files of one run", "anchors": ["examples/jssp/problem/probe.rs::JsspProbe", "examples/jssp/logging.rs::OutputData", "examples/jssp/logging.rs::init_logging", "src/ga.rs::GeneticSolver::run"]}
{"id": "C173", "title": "The job shop searches find, with probability tending to one, the best makespan that any chromosome describes", "statement": "On every instance (well formed, at least one operation, positive durations, no job twice in a row on one machine), with an ideal random generator, the probability that the job shop example's genetic algorithm returns an individual whose makespan is the least one that evaluating any chromosome of random keys gives tends to one as the generation limit grows, whenever at least one individual per generation is drawn afresh (a positive sample rate); the same holds for the random search with any positive population size; the probability of missing shrinks at least geometrically. This holds although a continuous generator hits no chromosome exactly and equal priorities and delays that land exactly on a finishing time have probability zero. The value found is always a makespan of a feasible schedule, but on the instances of C150 not the optimum of the instance.", "quantifier": "every instance, population size, elite and sample rates, crossover probability, every describable makespan, every clock independent of the generator under the time limit", "why_tests_cant": "a limit over generations and a probability over infinitely many random sequences cannot be observed; a test sees finitely many runs on a few instances", "anchors": ["examples/jssp/main.rs::run_jssp_solver", "examples/jssp/main.rs::run_randomsearch", "examples/jssp/problem/replacement.rs::JsspReplacement", "examples/jssp/problem/fitness.rs::JsspFitness::evaluate_individual", "src/ga.rs::GeneticSolver::run"]}
{"id": "C174", "title": "How far the job shop results can be from the optimum", "statement": "On every instance (well formed, at least one operation, positive durations, no job twice in a row on one machine) the value of every evaluated chromosome is at most the sum of the durations of all operations; hence at most the number of machines times, and at most the number of jobs times, the makespan of any feasible schedule, in particular the optimum. So are the results of the job shop example's genetic algorithm and random search, whatever is drawn and after any number of generations, even none. With a single machine or a single job every chromosome is optimal. No factor below two can be promised: for every ratio below two there is an instance on which every value exceeds the optimum by more than that ratio.", "quantifier": "every instance, chromosome, history of the individual, random sequence, population size, rates, limits, every feasible schedule compared with; every ratio below two", "why_tests_cant": "the optimum of an instance is not computable by a test except for tiny instances, and the guarantee covers all instances and all chromosomes", "anchors": ["examples/jssp/problem/fitness.rs::JsspFitness::evaluate_individual", "examples/jssp/main.rs::run_jssp_solver", "examples/jssp/main.rs::run_randomsearch"]}
{"id": "C175", "title": "How long the searches wait for the optimum", "statement": "Averaged over ideal draws, the number of generations until the bit-string preset returns a global minimum is at most 1 + 20^dim / n for n individuals, whatever the objective function; for the permutation configurations with a positive mutation rate it is at most 1 + (len / rate)^len / n; for the job shop solver and the job shop random search the average number of generations until the best makespan that any chromosome describes is shown is finite. In all four cases almost every sequence of draws reaches it after finitely many generations.", "quantifier": "every objective function without NaN, dimension, even population size, permutation operators, mutation rate in (0, 1], every job shop instance and rates, averaged over all random sequences", "why_tests_cant": "an expectation over all infinite random sequences and a statement about almost every such sequence, with no bound on the number of generations", "anchors": ["src/ga.rs::GeneticSolver::run", "src/ga/builder/bitstring.rs", "src/ga/operators/mutation/impls.rs::FlipBit", "src/ga/operators/mutation/impls.rs::Interchange", "examples/jssp/main.rs::run_jssp_solver", "examples/jssp/main.rs::run_randomsearch"]}
{"id": "C176", "title": "A larger budget only continues a run", "statement": "For every genetic algorithm, particle swarm and ant colony: started from the same object and the same random state, the run with a larger generation (iteration) limit and a larger time limit on the same clock makes all callbacks of the run with the smaller limits up to its final one, and then goes on (for ant colonies: or the same panic interrupts both). What the longer run returns as best is what the shorter one returns, or strictly better. Hence, under ideal draws, the average waiting time of C175 is exactly the sum over k of the probabilities that a run of k generations has not succeeded, and for some hiding place of a needle the bit-string preset waits at least (2^dim / n - 1) / 2 generations on average. (The same for the firefly algorithm's generations: C156.)", "quantifier": "all operators, objectives, initial states, random states, clocks and pairs of limits", "why_tests_cant": "compares all pairs of runs that differ in their limits, for every operator and random state", "anchors": ["src/ga.rs::GeneticSolver::run", "src/pso.rs::PSOAlgorithm::run", "src/pso/termination_condition.rs", "src/aco.rs::AntColonyOptimization::run", "src/aco/termination_condition.rs"]}
{"id": "C177", "title": "Calling run again on the same object", "statement": "All three run methods borrow their object mutably and can be called again. Particle swarm: two runs of k and n generations on one object are one run of k + n generations with the draws of the first followed by those of the second \u2013 same final swarm, same swarms shown by on_new_generation \u2013 so a run can be resumed and nothing found is forgotten. Firefly algorithm: only the positions survive; the second run starts with the randomness coefficient of a new object and with the best value f64::MAX, so it may report at its end something worse than the first run did. Genetic solver: nothing but the metrics survives (C72), so the second run may return something worse than the first.", "quantifier": "all swarms, objectives, coefficients, draws and pairs of generation limits; all firefly configurations, populations and draws; counterexamples for the negative parts", "why_tests_cant": "an equation between whole runs, for every pair of lengths and all draws", "anchors": ["src/pso.rs::PSOAlgorithm::run", "src/ff.rs::FireflyAlgorithm::run", "src/ga.rs::GeneticSolver::run"]}
{"id": "C178", "title": "The numbering of coordinates, cities, individuals and (where the operators have no position bias) loci does not matter", "statement": "Particle swarm: if the coordinates are numbered differently (the objective reads the rearranged vectors, the draws are rearranged likewise), the swarm built and every swarm of the run are the old ones with all their vectors rearranged, with the same values, callbacks and number of iterations \u2013 for every arithmetic of the coordinates, rounded or not. Fireflies: if the coordinates are numbered differently (objective, distance and draws read the rearranged vectors), the run is the old one with all positions rearranged: the same panic, or the same values, brightness and callbacks. Ant System: if the cities are numbered differently, an iteration on the renumbered goodness matrix makes the renumbered tours with exactly the probability with which the old one makes the old tours, for canonical and exploiting ants and whatever the hash order of the unvisited cities, and the pheromone update of the renumbered tours is the renumbered pheromone update. Genetic operators: for Uniform, UniformParameterized and Shuffle crossover and FlipBit mutation, renumbering the loci of the parents renumbers the distribution of the children; for SinglePoint crossover it does not. Selections: for Random, Rank, RankR, RouletteWheel and UniqueRandom the distribution of the selected individuals, and for Tournament the chance that all of them are at most a given value, does not depend on the order of the population.", "quantifier": "all dimensions, rearrangements of coordinates, objectives, coefficients, draws, stopping rules and numbers of iterations; all numbers of cities, permutations, positive goodness matrices, colonies, tours and ideal random generators; all loci renumberings, parents of equal length, biases and rates in [0,1], properties of the children; all reorderings of populations for which the selection's law is known (C133)", "why_tests_cant": "an equation between whole runs, and between probabilities, for every renumbering", "anchors": ["src/pso.rs::PSOAlgorithm::run", "src/pso/swarm.rs", "src/pso/particle.rs", "src/ff.rs::FireflyAlgorithm::run", "src/aco/colony.rs", "src/aco/pheromone.rs", "src/ga/operators/crossover/impls.rs", "src/ga/operators/mutation/impls.rs", "src/ga/operators/selection/impls.rs"]}
