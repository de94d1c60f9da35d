{
 "C08": {
  "status": "proved",
  "note": "Violation of the expected direction, proved for every population (not only a witness): C08_tournament_selects_worst, C08_rank_selects_worst, C08_weak_parent_drops_minimum. That run minimises is C01."
 },
 "C12": {
  "status": "proved",
  "note": "The expected alternation is false of the code for even first cuts; the statement is the exact behaviour, C12_multi_point_operator (whole operator, all draws)."
 },
 "C15": {
  "status": "proved",
  "note": "Also proved: with a seeded generator the uniform crossovers reuse the same mask for ever (C15_seeded_uniform_never_advances)."
 },
 "C30": {
  "status": "proved",
  "note": "The expected unconditional count is false of the code (C30_roulette_negative_selects_nothing, C30_roulette_zero_draw_selects_nothing); the exact condition is C30_exact_count_iff."
 },
 "C34": {
  "status": "proved",
  "note": "The expected absence of panics is false of the code at the zero pointer; the exact condition is C34_sus_returns_iff."
 },
 "C42": {
  "status": "proved",
  "note": "Violation proved for all odd sizes and all draws; together with C41 this settles every population size."
 },
 "C68": {
  "status": "proved",
  "note": "Violation proved for all seeded generators."
 },
 "C50": {
  "status": "proved",
  "note": "The expected confinement is false of the code for every positive inertia weight (C50_particles_can_leave_the_bounds); where it does hold is C50_stays_without_inertia."
 },
 "C73": {
  "status": "proved",
  "note": "Violation proved for all limits and times."
 },
 "C45": {
  "status": "proved",
  "note": "Also proved: with a NaN at particle 0's start the best never changes (C45_nan_start_is_never_left)."
 },
 "C53": {
  "status": "proved",
  "note": "The expected agreement is false of the code (C53_position_not_value, C53_negative_objective); C53_reported_best is what holds."
 },
 "C54": {
  "status": "proved",
  "note": "Violation proved for all setter sequences."
 },
 "C78": {
  "status": "proved",
  "note": "C78_bounds_test and C78_upper_bound_teleports cover every candidate; the teleport also happens in a run (C78_run_teleports)."
 },
 "C84": {
  "status": "proved",
  "note": "The expected rule is false of the code for mixed signs; C84_all_signs covers all finite values."
 },
 "C87": {
  "status": "proved",
  "note": "The documentation says first_threshold is the time of the first logging iteration; C87_first_log_late shows it is later."
 },
 "C57": {
  "status": "proved",
  "note": "The local ACS update rules (not part of the claim) break symmetry: C57_local_update_breaks_symmetry."
 },
 "C59": {
  "status": "proved",
  "note": "The expected lower bound is false of the code off the best path (C59_lower_bound_violated); C59_max_min_update is the exact effect of an update."
 },
 "C60": {
  "status": "proved",
  "note": "The batch-best part assumes no NaN fitness; C61_nan_hides_best shows that a NaN can hide the best."
 },
 "C61": {
  "status": "proved",
  "note": "The maximality part assumes no NaN fitness (C61_nan_hides_best is the counterexample otherwise); an iteration without paths panics."
 },
 "C63": {
  "status": "proved",
  "note": "Finding: if all fitness values are equal, all solutions go to the part for the worst (C63_equal_fitness_all_worst)."
 },
 "C89": {
  "status": "proved",
  "note": "The expected completeness is false of the code without positivity (C89_acs_returns_non_tour); C89_acs_paths and C89_acs_complete are what holds."
 },
 "C56": {
  "status": "proved",
  "note": "Also: a stuck ant silently ends the iteration for all ants after it (C56_stuck_ant_drops_the_rest)."
 },
 "C66": {
  "status": "proved",
  "note": "C66_construction_feasible for every well-formed instance; C66_evaluated_feasible for evaluation including the local search assumes that no job uses one machine twice in a row and that durations are positive (without it evaluation may not return at all, see C97)."
 },
 "C97": {
  "status": "proved",
  "note": "C97_evaluation_returns; the endless loops are C97_reentrant_job_diverges and C97_zero_duration_diverges."
 },
 "C100": {
  "status": "proved",
  "note": "C100_loading for well-formed files (positive number of jobs, no empty job); C100_empty_job_panics shows what happens for an empty job line."
 },
 "C101": {
  "status": "proved",
  "note": "C101_machine_edges is the general statement, C101_machine_edges_follow_decoding_order a case in which the orders differ."
 },
 "C102": {
  "status": "proved",
  "note": "C102_finish_times is the general statement, C102_finish_times_do_not_realise_fitness a case in which they differ."
 },
 "C103": {
  "status": "proved",
  "note": "C103_solver_run; the panics are C103_odd_population_panics and C103_small_population_panics. Other instances: see C97."
 },
 "C65": {
  "status": "proved",
  "note": "C65_replacement, C65_best_survives; over whole runs C65_generations_never_worsen; the panicking configurations are C65_replacement_panics."
 },
 "C67": {
  "status": "proved",
  "note": "Real arithmetic (f64 rounding is not modelled). hosaki holds only on the nonnegative quadrant and up to a tolerance (C67_hosaki). Functions whose documented minimum the code contradicts are in C107; functions documented by rounded decimals in C122."
 },
 "C106": {
  "status": "proved",
  "note": "All functions of the file (quartic and xin_she_yang_1 are commented out in the source). forrester_et_al and gramacy_lee take a scalar and are total. Real arithmetic; for vss the vectors with a non-positive cosine of the second entry are not classified."
 },
 "C107": {
  "status": "proved",
  "note": "Exact characterisation of the violated expectation: each theorem proves that the code contradicts the documented minimum of one function. Real arithmetic, no domain restriction (the documentation states none)."
 },
 "C108": {
  "status": "proved",
  "note": "Exact characterisation of the violated expectation: each theorem proves that one function never returns."
 },
 "C70": {
  "status": "proved",
  "note": "The documented family invariant is false of the code: C70_families_are_not_aligned exhibits a run of shipped operators; what holds for all runs is C70_replacement_receives_population."
 },
 "C72": {
  "status": "proved",
  "note": "The stale start-of-run metrics contradict the expected reset (C72_second_run_is_stale); everything else about a second run is proved equal to a fresh run."
 },
 "C111": {
  "status": "proved",
  "note": "False for Interchange (C111_interchange_not_reproducible); proved for every other shipped random operator and for whole permutation-GA runs without Interchange."
 },
 "C112": {
  "status": "proved",
  "note": "Leaving the box for different ranges with Interchange, Reversing or Inversion is C112_leaves_box."
 },
 "C117": {
  "status": "proved",
  "note": "The failure for durations zero is C117_zero_durations_not_ordered; the rest is proved for positive durations and instances on which evaluation returns (C97)."
 },
 "C115": {
  "status": "proved",
  "note": "Violation proved for all command lines and file systems (C115_delay_const_ignored)."
 },
 "C122": {
  "status": "proved",
  "note": "Real arithmetic (f64 rounding is not modelled). The lower bounds of trefethen rest on a verified interval arithmetic evaluated by the kernel (Verif/TestFunctions/Interval.lean), which covers the whole plane: bisection inside a disc, an estimate outside."
 },
 "C131": {
  "status": "proved",
  "note": "Exact arithmetic (under f64 rounding small goodness can be absorbed, C126)."
 },
 "C132": {
  "status": "proved",
  "note": "Stated on the model over the real numbers; failures (panics on empty input, operations without a real value) are part of the compared result."
 },
 "C133": {
  "status": "proved",
  "note": "Exact arithmetic (rounding: C125). `Ideal` (Verif/Prob.lean) is the assumption on the generator; Verif/ProbTape.lean constructs one, so it can be met. RankR: C133_rank_r is a finding."
 },
 "C134": {
  "status": "proved",
  "note": "Exact laws (Interchange: a lower bound for every ordering). The generator is ideal: real draws uniform on [0,1), integer draws, samples and shuffles uniform, all independent; ProbTape constructs one. RandomPoints is not covered (its results are not countable)."
 },
 "C135": {
  "status": "proved",
  "note": "Exact real arithmetic and an ideal generator (Ideal, realised by tapeRng); all operators share one generator (ThreadRng); the clock is a program with a law that never reaches max_duration. StochasticUniversalSampling and Boltzmann are not covered (their draws are not part of Ideal)."
 },
 "C136": {
  "status": "proved",
  "note": "Exact real arithmetic, gen_range(0.0..=s) as s times a uniform draw; all ants share one generator. For exploiting ants the goodness has no ties within a row (with ties the hash order decides which best vertex is taken)."
 },
 "C137": {
  "status": "proved",
  "note": "Exact real arithmetic and real powers on nonnegative arguments; AntSystemAB only (Ant Colony System's behaviour is not covered, its pheromone update is)."
 },
 "C138": {
  "status": "proved",
  "note": "Exact reals with infinities and NaN: no rounding and no underflow of the weights. The weighted sampling is modelled from the source of rand 0.8.5 (a BinaryHeap over keys u^(1/w)), the order of equal keys left open."
 },
 "C139": {
  "status": "proved",
  "note": "Exact real arithmetic; logging, probes and the final println! left out."
 },
 "C140": {
  "status": "proved",
  "note": "Ideal source of randomness, one generator, exact real arithmetic."
 },
 "C141": {
  "status": "proved",
  "note": "The COCO library is external: assumed to count evaluations and return numbers (structure Contract, instance in the example)."
 },
 "C142": {
  "status": "proved",
  "note": "Exact real arithmetic (firefly: with infinities and NaN). The samples of the firefly's flight distribution are assumed non-zero in generation 0 (otherwise C79's NaN case)."
 },
 "C143": {
  "status": "proved",
  "note": "Exact arithmetic (linearly ordered field with inf/nan); the numbers used must be finite, collected in the structure Moderate. Rounding errors are not included."
 },
 "C144": {
  "status": "proved",
  "note": "Time in natural numbers of nanoseconds; operators see the fields of Metrics without durations (no shipped operator reads them)."
 },
 "C145": {
  "status": "proved",
  "note": "GA: permutation, real-vector and bit-string configurations of shipped operators; PSO in arbitrary coordinate arithmetic; firefly in exact arithmetic (Ext)"
 },
 "C146": {
  "status": "proved",
  "note": "exact arithmetic over an ordered field; rounding breaks exact equivariance"
 },
 "C147": {
  "status": "proved",
  "note": "Published.lean is an independent specification (big sums over Fin n); agreement and exact error proved at every real point. Real arithmetic: f64 rounding is not modelled here. The published formulas are those of Jamil & Yang 2013 and of Surjanovic & Bingham as remembered by the author; the sandbox has no network to compare with the papers. Not compared: functions that always panic (C108), holder_table3, devilliers_glasser2, gulf_research, ursem/ripple variants whose published form is disputed, biggs_exp5/6."
 },
 "C148": {
  "status": "proved",
  "note": "Lines of text; the decimal rendering of an f64 is a parameter assumed to contain no line break."
 },
 "C149": {
  "status": "proved",
  "note": "Hash sets and maps of OrderedCrossover, Pmx and Ppx are modelled by their contents, so the claim includes that no result depends on hash iteration order only as far as the code never iterates over them (it does not)."
 },
 "C152": {
  "status": "proved",
  "note": "Real numbers; the draw of the start pointer is assumed uniform on the closed interval (shown for a constructed generator)."
 },
 "C150": {
  "status": "proved",
  "note": "Exact arithmetic for the genes (ordered field or reals); hypotheses on the evaluation operations (sane, ordered, delay at most 1.5 times the longest duration) are shown to hold for every chromosome of genes in [0,1). The run theorem inherits the hypotheses of the JSSP run model (C116)."
 },
 "C151": {
  "status": "proved",
  "note": "Comparisons of numbers are exact; no rounding is involved in these checks."
 },
 "C153": {
  "status": "proved",
  "note": "Exact real arithmetic, ideal independent uniform samples (constructed in the example). (3) is divergence in mean square, not of almost every path; nothing is claimed for equality in the bound."
 },
 "C154": {
  "status": "proved",
  "note": "Corollaries of the laws of C134, i.e. for an ideal generator (constructed in Verif/ProbTape.lean). MultiPoint is not included: its parity quirk (C12) leaves no closed form."
 },
 "C155": {
  "status": "proved",
  "note": "About Ga.iteration, the loop body of run, for an ideal generator shared by all operators (constructed in Verif/ProbTape.lean); fitness values are real numbers. A generation that panics would count as zero carriers; under the hypotheses none does."
 },
 "C156": {
  "status": "proved",
  "note": "Exact real arithmetic; city and firefly constants are the decimal numbers of the source. Criterion is not modelled."
 },
 "C157": {
  "status": "proved",
  "note": "Signed zeros are not distinguished."
 },
 "C158": {
  "status": "proved",
  "note": ""
 },
 "C159": {
  "status": "proved",
  "note": ""
 },
 "C160": {
  "status": "proved",
  "note": "the tests are programs of the model (Verif/RepoTests.lean); the tests without random numbers are closed equations in Props/RepoExamples.lean. RouletteWheel in f64 arithmetic with overflow, SUS in exact arithmetic."
 },
 "C161": {
  "status": "proved",
  "note": "rounding with unbounded exponent (no underflow to subnormal numbers); overflow modelled for the single coordinate. The 2^-52 grid of rand 0.8.5's unit draw is a hypothesis on the generator."
 },
 "C162": {
  "status": "proved",
  "note": "probabilities over an ideal generator shared by all operators (C133 setting)."
 },
 "C163": {
  "status": "proved",
  "note": "Exact arithmetic; pow only assumed positive on positive numbers and 0 at 0 for beta; f64::MAX positive; the run is Ant System with IterationCond, the step theorem covers both kinds of ants."
 },
 "C164": {
  "status": "proved",
  "note": "random integers are modelled as uniform numbers below 2^w read in the type; w is arbitrary; a sum of fitness values that itself overflows is not covered by the probability statements"
 },
 "C165": {
  "status": "proved",
  "note": "probabilities over an ideal generator (Ideal, an instance of which is constructed); rates in [0,1]; model of the operators as in C134"
 },
 "C166": {
  "status": "proved",
  "note": "exact real arithmetic (no rounding); the draws are real-valued random variables with the law of gen_range(0.01..0.99) and Standard idealised as Lebesgue measure; generation 0 (division by 0) is C79"
 },
 "C167": {
  "status": "proved",
  "note": "the behaviour of the csv crate (separators, quoting, header with the first record) is written down in Text/Csv.lean; the text of a float is a parameter with the stated round trip; opening and writing the file are taken to succeed"
 },
 "C168": {
  "status": "proved",
  "note": "the individual type of the per-needle theorems is the shipped Individual (it always asks to be evaluated); the concrete bounds are for the bit-string preset and permutation GAs with the selections of C135; expected waiting time is stated as the sum over k of the probability that a run limited to k generations has not found it"
 },
 "C169": {
  "status": "proved",
  "note": "the probabilistic form assumes that the event 'the set matters' is measurable (always so for finitely many outcomes); draws are oracles fixed before the run, as in all PSO and firefly theorems"
 },
 "C170": {
  "status": "proved",
  "note": "serde_json's pretty printer is written down as library behaviour (Text/Json); creating and writing the file is taken to succeed"
 },
 "C171": {
  "status": "proved",
  "note": "str::lines, str::split_whitespace and str::parse::<usize> are written down as library behaviour; opening and decoding the file is not modelled; where several panics are possible another one may be reported first"
 },
 "C172": {
  "status": "proved",
  "note": "log4rs (target to file, pattern {m}{n}) and serde_json are written down as library behaviour; real numbers for f64, how they are printed and the MD5 hash are parameters; a first run of a new solver and probe (a second run panics: C116)"
 },
 "C173": {
  "status": "proved",
  "note": "an ideal generator (independent uniform draws of real numbers), real numbers for f64; the time limit does not strike"
 },
 "C174": {
  "status": "proved",
  "note": "the order of priorities is a total preorder and delays behave as in exact arithmetic (Sane, Ordered; proved for real and rational numbers)"
 },
 "C175": {
  "status": "proved",
  "note": "generator ideal (Ideal R mu), as in C135 and C173"
 },
 "C176": {
  "status": "proved",
  "note": "the model passes the random state explicitly; real thread_rng runs never start twice from the same state"
 },
 "C177": {
  "status": "proved",
  "note": "stated for swarms whose termination condition is the generation limit; ant colonies consume their object (run(mut self))"
 },
 "C178": {
  "status": "proved",
  "note": "ants in exact arithmetic; exploiting ants for goodness without ties in a row (ties are broken by hash order)"
 }
}