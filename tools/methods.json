{
 "C01": "`Ga/Solver`: `run` with arbitrary operators and a trace of probe callbacks; loop invariant relating (population, best, trace), induction on generations",
 "C02": "same trace; the announced bests are a chain, by the loop invariant",
 "C03": "same trace; the shape of the callback sequence by induction on the loop",
 "C04": "same; number of iterations from the loop condition, elapsed time an arbitrary oracle",
 "C05": "same; length invariant, under hypotheses on the replacement operator only",
 "C06": "same; every shown individual was written by the last evaluation or is unchanged since",
 "C07": "same; NaN is an explicit fitness value, comparisons on it panic (`partial_cmp().unwrap()`)",
 "C08": "negations proved on runs of the operators in `Ga/Selection`, `Ga/Replacement`",
 "C09": "`Ga/Crossover`: `apply_pairs`; induction on chunks of two",
 "C10": "locus lemmas for one pair, for every cut point an RNG may draw",
 "C11": "as C10",
 "C12": "as C10; parity of the first cut decides, both cases proved",
 "C13": "as C10, complementary masks",
 "C14": "as C10",
 "C15": "as C10; the seeded-clone case shares the generator state",
 "C16": "as C10; counting in the shuffled mask",
 "C17": "`Ga/Crossover`: segment + rotation; `List.Perm` by counting",
 "C18": "same, positions by index arithmetic",
 "C19": "PMX chain following as a partial function on the mapping; termination by injectivity on duplicate-free segments, divergence shown on duplicates",
 "C20": "same, closed form of the inherited position",
 "C21": "PPX as a walk over two queues; `Perm` invariant",
 "C22": "same, sublist invariant",
 "C23": "per-pair conservation from the locus lemmas",
 "C24": "`Ga/Mutation`: folds over positions; length invariant",
 "C25": "`Perm` invariant; Interchange additionally as a chain of exchanges position by position",
 "C26": "mask of drawn positions",
 "C27": "explicit segment",
 "C28": "`Ga/Selection`: `replicate`/`forEach` combinators over an arbitrary RNG; RankR by the next three draws",
 "C29": "cumulative sums over an ordered field",
 "C30": "equivalence: running sums of the spin; a generator drawing zero shows necessity",
 "C31": "`Nodup` of `index::sample` positions",
 "C32": "fold maximum of the drawn contenders",
 "C33": "pointer/cumulative-sum invariant, floor/ceil bounds",
 "C34": "equivalence on the start pointer; the zero pointer picks count+1 individuals",
 "C35": "`Ga/Replacement`: induction on pairs, debug and release builds",
 "C36": "case analysis",
 "C37": "`Ga/Population` over draws in half-open ranges",
 "C38": "shuffle is a permutation; coin flips",
 "C39": "`Ga/Closed`: invariant of a run closed under all operators, instantiated at permutations",
 "C40": "`Ga/Builder`: builder state machine, case analysis",
 "C41": "composition of the builder with the solver theorem",
 "C42": "negation for every odd size",
 "C43": "`Ga/Probe`: policy as a function of the trace, induction",
 "C44": "list of probes, induction over callbacks",
 "C45": "`Pso`: history of visited positions, invariant; NaN explicit",
 "C46": "same",
 "C47": "rayon `par_iter_mut` as an arbitrary permutation of independent updates; order does not matter",
 "C48": "trace shape",
 "C49": "dimension invariant",
 "C50": "admissible draws that leave the box; convexity argument and induction on iterations when inertia is zero",
 "C51": "policy state machine over the trace",
 "C52": "`Ff` over an arithmetic interface `Ff/Arith`; box invariant",
 "C53": "invariant on the reported index, counterexamples",
 "C54": "builder state machine; negation",
 "C55": "`Aco/Tsp`: ant state machine; visited list invariant, Hamiltonicity",
 "C56": "totality of the roulette for positive goodness",
 "C57": "matrix update formulas, symmetry invariant; counterexample for asymmetric start",
 "C58": "non-negativity invariant",
 "C59": "bounds after an update; negation for entries off the best path",
 "C60": "best-so-far fold",
 "C61": "loop unrolling over the trace",
 "C62": "rotation and reversal of the cycle sum",
 "C63": "`PartFromEval` buckets: partition by index",
 "C64": "`Jssp/Model`: machine reservations, interval disjointness invariant",
 "C65": "`JsspReplacement` as sort + swaps + splice; elitism through the sorted prefix",
 "C66": "schedule generation as nested loops with fuel; invariant `SInv` on finish times, reservations and machine chains",
 "C67": "`TestFunctions`: every function over an interface of real operations, evaluated in ℝ; sums of squares and explicit bounds",
 "C68": "negation: the generator is cloned",
 "C69": "membership of genes in the initial population is preserved by the preset's operators",
 "C70": "trace statement; the documented alignment refuted on a run",
 "C71": "policy on elapsed times",
 "C72": "second run from the metrics of the first",
 "C73": "time oracle; negation",
 "C74": "records as a list, one per probed generation",
 "C75": "fixed point of the velocity/position update",
 "C76": "string of a vector",
 "C77": "builder state machine",
 "C78": "closed form of the bounds test; negation on the upper bound",
 "C79": "step 0 unfolded; zero alfa makes the step NaN",
 "C80": "trace shape; totality",
 "C81": "minimum over generations",
 "C82": "policy state machine",
 "C83": "record list",
 "C84": "brightness comparison; sign analysis for all finite values",
 "C85": "distance matrix: symmetry, zero diagonal",
 "C86": "index set of attracting fireflies",
 "C87": "policy on elapsed times",
 "C88": "matrix entrywise",
 "C89": "ACS ants; the last-step case analysis",
 "C90": "closed form of evaporation and deposit",
 "C91": "composition of C55-C61",
 "C92": "builder state machine",
 "C93": "record list",
 "C94": "distance matrix of generated instances",
 "C95": "longest paths in the disjunctive graph; depth-first search with fuel proved equal to the longest path; local search keeps an acyclic selection",
 "C96": "evaluation as a function of the chromosome: two runs of the loops related step by step",
 "C97": "termination measure of decoding and local search; divergence: invariant of the depth-first search on a cyclic graph",
 "C98": "job length and machine load bounds for feasible schedules",
 "C99": "reset removes exactly the machine edges",
 "C100": "parser on token lines; totality on well-formed files",
 "C101": "decoding as a fold over the scheduled operations; invariant linking machine edges to that list",
 "C102": "finish times determine the start times; comparison of the two makespans",
 "C103": "`Ga/Staged`: two-stage invariant of a run (known / shown individuals)",
 "C104": "locus-wise crossover of random keys",
 "C105": "as C103",
 "C106": "all functions of the file, list vectors over ℝ: case analysis on the length, per-function definedness sets",
 "C107": "values in ℝ contradicting the documentation",
 "C108": "functions that never return",
 "C109": "metrics threaded through the loop",
 "C110": "counting evaluations in the trace",
 "C111": "two runs from equal generator states; the thread-local generator as a separate component",
 "C112": "box invariant of a run; counterexample for reordering mutations",
 "C113": "log lines as a function of the trace",
 "C114": "`Jssp/Config`: configuration as option overriding; iff characterisation",
 "C115": "the option does not reach the fitness: equality of launches",
 "C116": "`Jssp/Report`: double loop equals the sum over pairs; ℝ and `Real.sqrt`",
 "C117": "`Jssp/Report`: contract of `sort_unstable_by`, comparison shown total on evaluated individuals, uniqueness of the sorted order",
 "C118": "trace statement about the best of each population",
 "C119": "movement formula of an iteration unfolded per coordinate; triangle inequality",
 "C120": "induction on generations: state of every generation in terms of the previous one",
 "C121": "fold over the setter calls; last relevant call by induction",
 "C122": "values in ℝ: tangent polynomials, sums of squares and Taylor enclosures of sin, cos, exp; verified interval bisection in the kernel for trefethen",
 "C123": "trace of the main loop (induction on steps): specification of the feasible set, least fitting start on the machine",
 "C124": "rejected exchanges keep the longest path; longest path = shortest makespan of the schedules following a machine order (rank induction)",
 "C125": "rounding as an arbitrary monotone idempotent map; induction over the population; failures by exact evaluation of binary64 round-to-nearest-even",
 "C126": "law-free ant model instantiated with rounded arithmetic; induction over the roulette remainders and running sums, relative error bounds; failures by exact evaluation of binary64",
 "C127": "possible outcomes of a full generator characterised by iff: the operator's return lemma one way, a script of draws the other",
 "C128": "as C127; induction over the loci (FlipBit, Interchange), over the pieces (Reversing)",
 "C129": "as C127; induction over the selection, the winner's position drawn last (Tournament), explicit draw (RouletteWheel)",
 "C130": "induction over the generations: each step scripted through selection, crossover and mutation (C127-C129 lemmas), operators' generators as lawful lenses; the converse from C41",
 "C131": "per step a draw inside the wanted vertex's slice of the roulette, lifted by induction over steps, ants and iterations ('draws that matter only from index k on'); positivity of the pheromone is the invariant of the run",
 "C132": "fold over a permutation with commuting steps (List.Perm induction), coordinatewise evenness through Forall₂, two-coordinate functions by ring and trigonometric identities",
 "C133": "random initial state of the generator (Mathlib measure theory); laws of programs composed by a sequencing rule (countable disjoint unions), replicate as product; Lebesgue measure of the draws selecting a member by induction over the population; counting lists without repetition",
 "C134": "program equalities reducing each operator to draws followed by a computation; laws of independent bits; uniform draw lemmas; counting orderings with a given pattern and lists with a given set; lower-bound rule for sequencing (Interchange)",
 "C135": "upper-bound rules for sequencing (failure only through missing mutations); invariant of the solver loop (evaluated population, best never forgotten); induction over generations; squeeze to the limit",
 "C136": "measurability of the roulette by induction over the candidates; laws of draws; exact sequencing rule (an event that can happen through one prefix only); induction over the tour, the ants and the steps; refinement to the model with given draws",
 "C137": "combinatorics of cycles (an ant that left the cycle is the complement of two straight walks); exponential lower bound per step; invariant of the pheromone (a floor on the cycle, geometric decay elsewhere) for each update rule; induction over iterations with a geometric series; refinement to the model of run",
 "C138": "joint law of the n uniform draws (measure preserving map); marginal integrals of decreasing powers, by induction over the sequence of selected indices; ties have measure zero by squeezing between < and <=; analysis of powers and exponentials for the temperature; case analysis over infinities and NaN for the panics",
 "C139": "evaluation of the builder chains; totality of every operator on the invariant (lengths, box); C01 and C06 for the minimum; invariant relative to the initial population for the loci; C135 for the limit",
 "C140": "invariant 'no gene in A' kept by every operator after the generator; law of the initial draws by induction over the list of draws; volumes of intervals and countable sets",
 "C141": "Hoare logic for programs that log the points they evaluate; invariant of the solver loop counting 3 n evaluations a generation; induction over the restarts",
 "C142": "the generation-0 jump (C79) for all but the best firefly, then equality of the runs; invariant 'finite and in the box'; records of the interval policies computed from the callback lists; PSO history invariant (C45)",
 "C143": "invariant 'coordinate within the remaining noise of [a,b]': one generation moves between existing coordinates plus bounded noise (C86), geometric series for the rest",
 "C144": "`Ga/Timed`: run with every clock reading; loop invariants over a monotone clock; simulation (16 readings an iteration) between the timed and the untimed run",
 "C145": "relational logic `Rel2` (`Relational`): two runs panic alike or return related results in the same world; operators shown to preserve 'same chromosome, transformed fitness'; loop induction; PSO and firefly by direct equality of transformed runs",
 "C146": "transport of particles/fireflies along an affine map commutes with every step; induction over the run",
 "C147": "independent specification file `TestFunctions/Published` with sums over `Fin n`; loops rewritten to sums, then ring identities; a running-sum lemma for `sargan`",
 "C148": "the callbacks of every returning run (C48, C80, C61) mapped through the printing functions; lists of equal blocks for the line numbers",
 "C149": "relational logic `Rel2` with the relation 'is the image under phi', loop by loop; driver shown to commute with any map of individuals that keeps the fitness",
 "C150": "decoder trace (C123) with the delay bound gives the rule; explicit instance family; positions on the machines along the trace (C101 edges); no exchange of the local search (C124 descent) touches both halves of the instance; run by the staged-run argument of C116/C117",
 "C151": "case analysis on the extended numbers",
 "C152": "closed form of the pointer loop by floors (`ticks`), the pointers giving one copy more are an interval or the complement of one of length frac(share); volume, then the sum of two terms",
 "C153": "stagnation is invariant, so one coordinate follows a second-order recurrence with multiplicative noise; samples of later iterations are independent of what earlier ones determine (independent sigma-algebras), which gives linear recurrences for the first and second moments; a quadratic Lyapunov function decreases below the bound and grows above it; summable mean squares give almost sure convergence",
 "C154": "the laws of C134; counting cut points; sums over masks split at the positions in question (`sum_masks_at`), binomial sums for Shuffle",
 "C155": "expected value as a sum over outcomes (`expected`, Verif/ProbExpect.lean), its calculus (sequence, loop, Markov); RouletteWheel's slots (C133), FlipBit's masks (C134), SinglePoint's cut points; chained through the loop body of `run`",
 "C156": "Model of the benchmark closures (Benches). Prefix: induction over the generations, the configuration's generation limit is used by the loop only. Too few fireflies: the inner loop indexes the brightness list up to population_size. ACO: C91 (run), C94 (Euclidean matrix), C88 (positive goodness); the city lists are checked for duplicates by kernel computation on rationals.",
 "C157": "Model of both operators on extended values (Ga/Overflow). NaN and infinity are absorbing for the running sum (induction over the population); case analysis on the threshold; probability one from the law of the unit draw; agreement with the rounded model without overflow by induction, for SUS along the pointer loop.",
 "C158": "Crossover: each operator's exact description (C10-C22) instantiated with equal parents; ordered by splitting the parent into prefix, segment and suffix, PMX by uniqueness of its result, PPX because a permutation preserving all precedences is the identity. Run: invariant over the trace 'after an all-c population only c occurs', by induction over the loop. Takeover: C157.",
 "C159": "Model of the comparison traits (Ga/Individual); case analysis on NaN; induction over the populations; the minimum of a list containing a least element (C01 lemmas); rotations of duplicate-free lists.",
 "C160": "Each randomised #[test] is a program of the model in which a failed assert! is a panic; it is composed from the contracts of the generators and operators (C16, C25, C26, C28, C32, C34, C37, C38, C138, C149, C157, C159). The deterministic #[test]s are closed equations checked by the kernel.",
 "C161": "Model of the generator with a rounding after every operation (Ga/RoundedPoints; with exact arithmetic it is definitionally Ga/Population). A rounded number shrunk by one part in 2^53 rounds strictly below it (case split on the binade), so width times draw stays below the width; monotonicity and idempotence of rounding give the closed box; integers below 2^53 times powers of two are representable; the counterexamples by the binade and tie lemmas of Float/Rounding; overflow by case analysis on extended values.",
 "C162": "Locus-wise crossover keeps the count at a locus (C10-C16 by cases); blind selection is a replicate of one uniform draw (C133), so the count after a generation is that of n independent draws. Binomial law and expected product of successes and failures by induction on n (ProbCount); mean and diversity over a run by induction on the generations; fixation by Markov's inequality and a squeeze.",
 "C163": "Edge cost sums that meet infinity stay infinite, so the grade is 1/infinity = 0; a roulette over non-negative goodness stops at a positive edge unless the draw is 0 (induction over the hash set order), the exploitation loop finds a maximum because f64::MIN is below 0; the run by the loop invariant of C91 with the weaker matrix condition; probability 0 as a finite union of null events of C136; pheromone by the deposit formula of C90.",
 "C164": "`Ga/Integer`: RouletteWheel in the arithmetic of a Rust integer type (wrapping or checked, signed or unsigned, any word length); the residues `S u mod 2^w` of uniform draws are counted exactly (each multiple of gcd(S, 2^w) equally often), the pool by independence of the spins, a run by reduction to the first generation: no parents, no children, failed size assertion or index panic",
 "C165": "`Props/MutationBias`: Reversing by the recursion of the carried gene (one bit at a time), Inversion by counting the ends for each start in the exact law of C134, Interchange by induction over the positions into a count of choices over n^n; not 1/n! because n-1 divides n! and is coprime to n^n",
 "C166": "`Props/FfBias`: the new coordinate in closed form from C86 and the bounds test of C78; its mean by linearity of the integral; the probability by Fubini over the product of the two laws (a firefly exactly on the upper bound, which teleports, is a null event) and an interval integral; the total by the logarithmic series",
 "C167": "`Text/Csv` is the text of the files, `Props/CsvText` a separate reader (split at line feeds and commas, decimal numbers): round trip by induction over the records with `List.splitOn`, digits by `Nat.ofDigits_digits`; composed with C74, C83, C93",
 "C168": "invariant over the generations (`iteration_blind`, `loop_blind`): the set of chromosomes evaluated so far, of bounded size, determines the state; per fixed draws a counting argument, then exchange of finite sum and integral over the law of the draws; bounds on waiting times by double counting and, from above, a geometric series over C135",
 "C169": "invariant over the iterations: every remembered best position is among the points visited, so replacing the objective function elsewhere changes nothing; counting of disjoint sets by an injection into the visited points; sum of probabilities as an integral of a finite count",
 "C170": "mutual structural induction over JSON values, arrays and objects: an independent recursive-descent reader inverts the pretty printer in any context that does not continue a number; records looked up by name",
 "C171": "strong induction on the text: splitting into lines and words agrees with the relational grammar of the specification, hence loading a text is loading its unique reading; panics through C100's loading",
 "C172": "the callbacks' lines are rendered rows (case analysis), files of rendered rows are read back (C167, C170's round trips), and the rows are those of the run by C02, C109, C116, C117, C118 and C144 via C144's erasure of the clock",
 "C173": "two chromosomes the decoder cannot tell apart give the same run of the decoder (simulation); around every chromosome a box of such chromosomes of positive volume is constructed; the run moves the generator's state by measure-preserving maps between the draws of the samples, so missing the box every time has probability (1 - volume)^(samples × generations)",
 "C174": "induction on the decoder's steps (C123): each operation ends by the durations scheduled so far; work = sum of machine loads = sum of job lengths (C98's bounds); C150's instances for the lower bound",
 "C175": "waiting time = least number of generations after which a run from the same random state succeeds; its integral is at most the sum of the failure probabilities, which C135 and C173 bound by a geometric series; Bernoulli's inequality for the closed form",
 "C176": "induction on the number of generations, coupling the two loops step by step; the stop test of the larger budget implies that of the smaller",
 "C177": "the closed form of a run with a generation limit (C48) and induction on the second length; unfolding of the first generation of a second firefly run; kernel-evaluated counterexamples",
 "C178": "swarms: equivariance of every step, induction on the iterations; fireflies: likewise; genetic operators: the closed forms C134 summed over renumbered masks; selections: the closed forms C133 count members only; ants: the closed form of the tour probabilities (C136) is invariant under renaming; pheromones: the closed form C90"
}