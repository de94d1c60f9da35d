{
 "claims": [
  {
   "property": "C01",
   "status": "proved",
   "theorems": [
    "Ecrs.Ga.C01_result_is_best",
    "Ecrs.Ga.C01_result_le_all"
   ],
   "note": ""
  },
  {
   "property": "C02",
   "status": "proved",
   "theorems": [
    "Ecrs.Ga.C02_new_best_strictly_improves"
   ],
   "note": ""
  },
  {
   "property": "C03",
   "status": "proved",
   "theorems": [
    "Ecrs.Ga.C03_callback_protocol"
   ],
   "note": ""
  },
  {
   "property": "C04",
   "status": "proved",
   "theorems": [
    "Ecrs.Ga.C04_iteration_budget",
    "Ecrs.Ga.C04_zero_duration_runs_once"
   ],
   "note": ""
  },
  {
   "property": "C05",
   "status": "proved",
   "theorems": [
    "Ecrs.Ga.C05_population_size_constant",
    "Ecrs.Ga.C05_wrong_size_panics"
   ],
   "note": ""
  },
  {
   "property": "C06",
   "status": "proved",
   "theorems": [
    "Ecrs.Ga.C06_fitness_is_fresh",
    "Ecrs.Ga.C06_contract_of_individual"
   ],
   "note": ""
  },
  {
   "property": "C07",
   "status": "proved",
   "theorems": [
    "Ecrs.Ga.C07_no_nan_survives",
    "Ecrs.Ga.C07_nan_panics",
    "Ecrs.Ga.C07_single_individual_nan_sticks",
    "Ecrs.Ga.C07_lone_nan_is_returned"
   ],
   "note": ""
  },
  {
   "property": "C08",
   "status": "proved",
   "theorems": [
    "Ecrs.Ga.C08_weak_parent_any_family",
    "Ecrs.Ga.C08_weak_parent_drops_minimum",
    "Ecrs.Ga.C08_tournament_selects_worst",
    "Ecrs.Ga.C08_rank_selects_worst"
   ],
   "note": "Violation of the expected direction, proved for every population (not only a witness): C08_tournament_selects_worst, C08_rank_selects_worst, C08_weak_parent_drops_minimum. That run minimises is C01."
  },
  {
   "property": "C09",
   "status": "proved",
   "theorems": [
    "Ecrs.Ga.C09_crossover_arity",
    "Ecrs.Ga.C09_crossover_odd_panics"
   ],
   "note": ""
  },
  {
   "property": "C10",
   "status": "proved",
   "theorems": [
    "Ecrs.Ga.C10_single_point",
    "Ecrs.Ga.C10_single_point_panics",
    "Ecrs.Ga.C10_single_point_truncates"
   ],
   "note": ""
  },
  {
   "property": "C11",
   "status": "proved",
   "theorems": [
    "Ecrs.Ga.C11_two_point",
    "Ecrs.Ga.C11_two_point_panics"
   ],
   "note": ""
  },
  {
   "property": "C12",
   "status": "proved",
   "theorems": [
    "Ecrs.Ga.C12_multi_point_operator",
    "Ecrs.Ga.C12_multi_point_alternates_odd",
    "Ecrs.Ga.C12_multi_point_even_first_cut",
    "Ecrs.Ga.C12_single_even_cut_copies_parents"
   ],
   "note": "The expected alternation is false of the code for even first cuts; the statement is the exact behaviour, C12_multi_point_operator (whole operator, all draws)."
  },
  {
   "property": "C13",
   "status": "proved",
   "theorems": [
    "Ecrs.Ga.C13_multi_point_complementary",
    "Ecrs.Ga.C13_multi_point_panics",
    "Ecrs.Ga.C13_multi_point_new"
   ],
   "note": ""
  },
  {
   "property": "C14",
   "status": "proved",
   "theorems": [
    "Ecrs.Ga.C14_fixed_point",
    "Ecrs.Ga.C14_fixed_point_deterministic"
   ],
   "note": ""
  },
  {
   "property": "C15",
   "status": "proved",
   "theorems": [
    "Ecrs.Ga.C15_uniform",
    "Ecrs.Ga.C15_uniform_parameterized",
    "Ecrs.Ga.C15_bias_extremes",
    "Ecrs.Ga.C15_unequal_panics",
    "Ecrs.Ga.C15_seeded_uniform_never_advances"
   ],
   "note": "Also proved: with a seeded generator the uniform crossovers reuse the same mask for ever (C15_seeded_uniform_never_advances)."
  },
  {
   "property": "C16",
   "status": "proved",
   "theorems": [
    "Ecrs.Ga.C16_shuffle",
    "Ecrs.Ga.C16_shuffle_exact_count"
   ],
   "note": ""
  },
  {
   "property": "C17",
   "status": "proved",
   "theorems": [
    "Ecrs.Ga.C17_ordered_permutation",
    "Ecrs.Ga.C17_C19_empty_panics",
    "Ecrs.Ga.C17_C19_C21_unequal_panics"
   ],
   "note": ""
  },
  {
   "property": "C18",
   "status": "proved",
   "theorems": [
    "Ecrs.Ga.C18_ordered_segment_and_order"
   ],
   "note": ""
  },
  {
   "property": "C19",
   "status": "proved",
   "theorems": [
    "Ecrs.Ga.C19_pmx_permutation",
    "Ecrs.Ga.C19_pmx_fuel_irrelevant",
    "Ecrs.Ga.C17_C19_empty_panics",
    "Ecrs.Ga.C17_C19_C21_unequal_panics",
    "Ecrs.Ga.C19_pmx_diverges_on_duplicates"
   ],
   "note": ""
  },
  {
   "property": "C20",
   "status": "proved",
   "theorems": [
    "Ecrs.Ga.C20_pmx_mapping",
    "Ecrs.Ga.C20_pmx_child_unique"
   ],
   "note": ""
  },
  {
   "property": "C21",
   "status": "proved",
   "theorems": [
    "Ecrs.Ga.C21_ppx_permutation",
    "Ecrs.Ga.C17_C19_C21_unequal_panics"
   ],
   "note": ""
  },
  {
   "property": "C22",
   "status": "proved",
   "theorems": [
    "Ecrs.Ga.C22_ppx_precedence"
   ],
   "note": ""
  },
  {
   "property": "C23",
   "status": "proved",
   "theorems": [
    "Ecrs.Ga.C23_gene_conservation"
   ],
   "note": ""
  },
  {
   "property": "C24",
   "status": "proved",
   "theorems": [
    "Ecrs.Ga.C24_length_preserved",
    "Ecrs.Ga.C24_length_preserved_flip_bit"
   ],
   "note": ""
  },
  {
   "property": "C25",
   "status": "proved",
   "theorems": [
    "Ecrs.Ga.C25_reordering_mutations",
    "Ecrs.Ga.C25_reordering_mutations_return",
    "Ecrs.Ga.C25_permutations_stay_permutations",
    "Ecrs.Ga.C25_identity",
    "Ecrs.Ga.C25_zero_rate",
    "Ecrs.Ga.C25_reversing_full_rate",
    "Ecrs.Ga.C25_interchange_empty_panics",
    "Ecrs.Ga.C25_interchange_exchanges"
   ],
   "note": ""
  },
  {
   "property": "C26",
   "status": "proved",
   "theorems": [
    "Ecrs.Ga.C26_flip_bit",
    "Ecrs.Ga.C26_extreme_rates"
   ],
   "note": ""
  },
  {
   "property": "C27",
   "status": "proved",
   "theorems": [
    "Ecrs.Ga.C27_inversion",
    "Ecrs.Ga.C27_inversion_rate",
    "Ecrs.Ga.C27_inversion_empty"
   ],
   "note": ""
  },
  {
   "property": "C28",
   "status": "proved",
   "theorems": [
    "Ecrs.Ga.C28_members",
    "Ecrs.Ga.C28_random",
    "Ecrs.Ga.C28_random_empty",
    "Ecrs.Ga.C28_rank",
    "Ecrs.Ga.C28_rank_r",
    "Ecrs.Ga.C28_rank_r_new",
    "Ecrs.Ga.C28_unique_random_boltzmann",
    "Ecrs.Ga.C28_boltzmann_new",
    "Ecrs.Ga.C28_tournament",
    "Ecrs.Ga.C28_rank_r_threshold"
   ],
   "note": ""
  },
  {
   "property": "C29",
   "status": "proved",
   "theorems": [
    "Ecrs.Ga.C29_roulette",
    "Ecrs.Ga.C29_roulette_exact_count",
    "Ecrs.Ga.C29_zero_weight"
   ],
   "note": ""
  },
  {
   "property": "C30",
   "status": "proved",
   "theorems": [
    "Ecrs.Ga.C30_roulette_negative_selects_nothing",
    "Ecrs.Ga.C30_roulette_zero_draw_selects_nothing",
    "Ecrs.Ga.C30_spin_selects_iff",
    "Ecrs.Ga.C30_exact_count_iff"
   ],
   "note": "The expected unconditional count is false of the code (C30_roulette_negative_selects_nothing, C30_roulette_zero_draw_selects_nothing); the exact condition is C30_exact_count_iff."
  },
  {
   "property": "C31",
   "status": "proved",
   "theorems": [
    "Ecrs.Ga.C31_unique_random",
    "Ecrs.Ga.C31_unique_random_panics_iff",
    "Ecrs.Ga.C31_boltzmann"
   ],
   "note": ""
  },
  {
   "property": "C32",
   "status": "proved",
   "theorems": [
    "Ecrs.Ga.C32_tournament",
    "Ecrs.Ga.C32_full_tournament",
    "Ecrs.Ga.C32_tournament_new",
    "Ecrs.Ga.C32_tournament_empty"
   ],
   "note": ""
  },
  {
   "property": "C33",
   "status": "proved",
   "theorems": [
    "Ecrs.Ga.C33_sus_proportional"
   ],
   "note": ""
  },
  {
   "property": "C34",
   "status": "proved",
   "theorems": [
    "Ecrs.Ga.C34_sus_no_panic",
    "Ecrs.Ga.C34_sus_panics_on_zero_draw",
    "Ecrs.Ga.C34_sus_panics_on_zero_total",
    "Ecrs.Ga.C34_sus_returns_iff"
   ],
   "note": "The expected absence of panics is false of the code at the zero pointer; the exact condition is C34_sus_returns_iff."
  },
  {
   "property": "C35",
   "status": "proved",
   "theorems": [
    "Ecrs.Ga.C35_weak_parent",
    "Ecrs.Ga.C35_weak_parent_members",
    "Ecrs.Ga.C35_weak_parent_panics",
    "Ecrs.Ga.C35_weak_parent_release",
    "Ecrs.Ga.C35_weak_parent_release_panics"
   ],
   "note": ""
  },
  {
   "property": "C36",
   "status": "proved",
   "theorems": [
    "Ecrs.Ga.C36_both_parents_and_noop"
   ],
   "note": ""
  },
  {
   "property": "C37",
   "status": "proved",
   "theorems": [
    "Ecrs.Ga.C37_point_generator",
    "Ecrs.Ga.C37_random_points_new",
    "Ecrs.Ga.C37_random_points",
    "Ecrs.Ga.C37_random_points_unit",
    "Ecrs.Ga.C37_point_generator_mismatch"
   ],
   "note": ""
  },
  {
   "property": "C38",
   "status": "proved",
   "theorems": [
    "Ecrs.Ga.C38_bit_strings",
    "Ecrs.Ga.C38_random_permutations"
   ],
   "note": ""
  },
  {
   "property": "C39",
   "status": "proved",
   "theorems": [
    "Ecrs.Ga.C39_permutation_ga",
    "Ecrs.Ga.C39_only_permutations_evaluated",
    "Ecrs.Ga.C39_permutation_ga_returns"
   ],
   "note": ""
  },
  {
   "property": "C40",
   "status": "proved",
   "theorems": [
    "Ecrs.Ga.C40_build_success",
    "Ecrs.Ga.C40_build_error",
    "Ecrs.Ga.C40_build_order_irrelevant",
    "Ecrs.Ga.C40_preset_build"
   ],
   "note": ""
  },
  {
   "property": "C41",
   "status": "proved",
   "theorems": [
    "Ecrs.Ga.C41_real_valued_built",
    "Ecrs.Ga.C41_real_valued_preset",
    "Ecrs.Ga.C41_bit_string_preset"
   ],
   "note": ""
  },
  {
   "property": "C42",
   "status": "proved",
   "theorems": [
    "Ecrs.Ga.C42_odd_population_panics"
   ],
   "note": "Violation proved for all odd sizes and all draws; together with C41 this settles every population size."
  },
  {
   "property": "C43",
   "status": "proved",
   "theorems": [
    "Ecrs.Ga.C43_generation_interval"
   ],
   "note": ""
  },
  {
   "property": "C44",
   "status": "proved",
   "theorems": [
    "Ecrs.Ga.C44_registration_order",
    "Ecrs.Ga.C44_each_probe_sees_everything",
    "Ecrs.Ga.C44_nested"
   ],
   "note": ""
  },
  {
   "property": "C45",
   "status": "proved",
   "theorems": [
    "Ecrs.Pso.C45_swarm_best",
    "Ecrs.Pso.C45_particle_best",
    "Ecrs.Pso.C45_run_extends_history",
    "Ecrs.Pso.C45_nan_start_is_never_left"
   ],
   "note": "Also proved: with a NaN at particle 0's start the best never changes (C45_nan_start_is_never_left)."
  },
  {
   "property": "C46",
   "status": "proved",
   "theorems": [
    "Ecrs.Pso.C46_best_never_worsens"
   ],
   "note": ""
  },
  {
   "property": "C47",
   "status": "proved",
   "theorems": [
    "Ecrs.Pso.C47_velocities_schedule_independent",
    "Ecrs.Pso.C47_positions_schedule_independent"
   ],
   "note": ""
  },
  {
   "property": "C48",
   "status": "proved",
   "theorems": [
    "Ecrs.Pso.C48_callbacks",
    "Ecrs.Pso.C48_generation_limit",
    "Ecrs.Pso.C48_new_panics_iff"
   ],
   "note": ""
  },
  {
   "property": "C49",
   "status": "proved",
   "theorems": [
    "Ecrs.Pso.C49_dimension_initial",
    "Ecrs.Pso.C49_dimension_invariant",
    "Ecrs.Pso.C49_initial_bounds"
   ],
   "note": ""
  },
  {
   "property": "C50",
   "status": "proved",
   "theorems": [
    "Ecrs.Pso.C50_particles_can_leave_the_bounds",
    "Ecrs.Pso.C50_stays_without_inertia"
   ],
   "note": "The expected confinement is false of the code for every positive inertia weight (C50_particles_can_leave_the_bounds); where it does hold is C50_stays_without_inertia."
  },
  {
   "property": "C51",
   "status": "proved",
   "theorems": [
    "Ecrs.Pso.C51_generation_interval",
    "Ecrs.Pso.C51_interval_zero_panics",
    "Ecrs.Pso.C51_elapsed_time"
   ],
   "note": ""
  },
  {
   "property": "C52",
   "status": "proved",
   "theorems": [
    "Ecrs.Ff.C52_positions_in_box",
    "Ecrs.Ff.C52_shape"
   ],
   "note": ""
  },
  {
   "property": "C53",
   "status": "proved",
   "theorems": [
    "Ecrs.Ff.C53_reported_best",
    "Ecrs.Ff.C53_negative_objective",
    "Ecrs.Ff.C53_position_not_value"
   ],
   "note": "The expected agreement is false of the code (C53_position_not_value, C53_negative_objective); C53_reported_best is what holds."
  },
  {
   "property": "C54",
   "status": "proved",
   "theorems": [
    "Ecrs.Ff.C54_population_ignores_setters",
    "Ecrs.Ff.C54_larger_population_panics",
    "Ecrs.Ff.C54_example"
   ],
   "note": "Violation proved for all setter sequences."
  },
  {
   "property": "C55",
   "status": "proved",
   "theorems": [
    "Ecrs.Aco.C55_ant_system_tours"
   ],
   "note": ""
  },
  {
   "property": "C56",
   "status": "proved",
   "theorems": [
    "Ecrs.Aco.C56_stuck_ant_drops_the_rest",
    "Ecrs.Aco.C56_ant_system_complete"
   ],
   "note": "Also: a stuck ant silently ends the iteration for all ants after it (C56_stuck_ant_drops_the_rest)."
  },
  {
   "property": "C57",
   "status": "proved",
   "theorems": [
    "Ecrs.Aco.C57_elitist_history",
    "Ecrs.Aco.C57_max_min_history",
    "Ecrs.Aco.C57_acs_history",
    "Ecrs.Aco.C57_ant_system_symmetric",
    "Ecrs.Aco.C57_elitist_symmetric",
    "Ecrs.Aco.C57_max_min_symmetric",
    "Ecrs.Aco.C57_acs_symmetric",
    "Ecrs.Aco.C57_ant_system_history",
    "Ecrs.Aco.C57_local_update_breaks_symmetry"
   ],
   "note": "The local ACS update rules (not part of the claim) break symmetry: C57_local_update_breaks_symmetry."
  },
  {
   "property": "C58",
   "status": "proved",
   "theorems": [
    "Ecrs.Aco.C58_elitist_history",
    "Ecrs.Aco.C58_acs_history",
    "Ecrs.Aco.C58_max_min_nonneg",
    "Ecrs.Aco.C58_max_min_history",
    "Ecrs.Aco.C58_ant_system_nonneg",
    "Ecrs.Aco.C58_elitist_acs_nonneg",
    "Ecrs.Aco.C58_ant_system_history"
   ],
   "note": ""
  },
  {
   "property": "C59",
   "status": "proved",
   "theorems": [
    "Ecrs.Aco.C59_max_min_history",
    "Ecrs.Aco.C59_max_min_update",
    "Ecrs.Aco.C59_max_min_upper",
    "Ecrs.Aco.C59_lower_bound_violated"
   ],
   "note": "The expected lower bound is false of the code off the best path (C59_lower_bound_violated); C59_max_min_update is the exact effect of an update."
  },
  {
   "property": "C60",
   "status": "proved",
   "theorems": [
    "Ecrs.Aco.C60_overall_best_monotone",
    "Ecrs.Aco.C60_overall_best_is_best",
    "Ecrs.Aco.C60_iteration_best"
   ],
   "note": "The batch-best part assumes no NaN fitness; C61_nan_hides_best shows that a NaN can hide the best."
  },
  {
   "property": "C61",
   "status": "proved",
   "theorems": [
    "Ecrs.Aco.C61_find_best_max",
    "Ecrs.Aco.C61_find_best_empty_panics",
    "Ecrs.Aco.C61_nan_hides_best",
    "Ecrs.Aco.C61_run_iterations",
    "Ecrs.Aco.C61_run_time",
    "Ecrs.Aco.C61_iteration_reports_best",
    "Ecrs.Aco.C61_nan_forgets_everything_before"
   ],
   "note": "The maximality part assumes no NaN fitness (C61_nan_hides_best is the counterexample otherwise); an iteration without paths panics."
  },
  {
   "property": "C62",
   "status": "proved",
   "theorems": [
    "Ecrs.Aco.C62_fitness_is_inverse_length",
    "Ecrs.Aco.C62_rotation",
    "Ecrs.Aco.C62_reversal",
    "Ecrs.Aco.C62_fitter_iff_shorter",
    "Ecrs.Aco.C62_one_vertex_infinite"
   ],
   "note": ""
  },
  {
   "property": "C63",
   "status": "proved",
   "theorems": [
    "Ecrs.Aco.C63_partition",
    "Ecrs.Aco.C63_every_solution_once",
    "Ecrs.Aco.C63_pointwise",
    "Ecrs.Aco.C63_empty_panics",
    "Ecrs.Aco.C63_bounds",
    "Ecrs.Aco.C63_graded_parts",
    "Ecrs.Aco.C63_equal_fitness_all_worst"
   ],
   "note": "Finding: if all fitness values are equal, all solutions go to the part for the worst (C63_equal_fitness_all_worst)."
  },
  {
   "property": "C64",
   "status": "proved",
   "theorems": [
    "Ecrs.Jssp.C64_no_double_booking",
    "Ecrs.Jssp.C64_query_exact"
   ],
   "note": ""
  },
  {
   "property": "C65",
   "status": "proved",
   "theorems": [
    "Ecrs.Jssp.C65_replacement",
    "Ecrs.Jssp.C65_best_survives",
    "Ecrs.Jssp.C65_replacement_panics",
    "Ecrs.Jssp.C65_generations_never_worsen"
   ],
   "note": "C65_replacement, C65_best_survives; over whole runs C65_generations_never_worsen; the panicking configurations are C65_replacement_panics."
  },
  {
   "property": "C66",
   "status": "proved",
   "theorems": [
    "Ecrs.Jssp.C66_construction_feasible",
    "Ecrs.Jssp.C66_evaluated_feasible"
   ],
   "note": "C66_construction_feasible for every well-formed instance; C66_evaluated_feasible for evaluation including the local search assumes that no job uses one machine twice in a row and that durations are positive (without it evaluation may not return at all, see C97)."
  },
  {
   "property": "C67",
   "status": "proved",
   "theorems": [
    "Ecrs.Props.C67_sphere",
    "Ecrs.Props.C67_sphere_unique",
    "Ecrs.Props.C67_ackley",
    "Ecrs.Props.C67_alpine",
    "Ecrs.Props.C67_brown",
    "Ecrs.Props.C67_chung_reynolds",
    "Ecrs.Props.C67_griewank",
    "Ecrs.Props.C67_levy",
    "Ecrs.Props.C67_powell_sum",
    "Ecrs.Props.C67_sum_of_powers",
    "Ecrs.Props.C67_sum_squares",
    "Ecrs.Props.C67_zakharov",
    "Ecrs.Props.C67_schumer_steiglitz",
    "Ecrs.Props.C67_qing",
    "Ecrs.Props.C67_quintic",
    "Ecrs.Props.C67_rastrigin",
    "Ecrs.Props.C67_rosenbrock",
    "Ecrs.Props.C67_rotated_hyper_ellipsoid",
    "Ecrs.Props.C67_trigonometric1",
    "Ecrs.Props.C67_xin_she_yang_2",
    "Ecrs.Props.C67_pathological",
    "Ecrs.Props.C67_powell2",
    "Ecrs.Props.C67_powell",
    "Ecrs.Props.C67_trid",
    "Ecrs.Props.C67_dixon_price",
    "Ecrs.Props.C67_styblinski_tang",
    "Ecrs.Props.C67_styblinski_tang_decimals",
    "Ecrs.Props.C67_beale",
    "Ecrs.Props.C67_booth",
    "Ecrs.Props.C67_bukin_4",
    "Ecrs.Props.C67_bukin_n6",
    "Ecrs.Props.C67_three_hump_camel",
    "Ecrs.Props.C67_colville",
    "Ecrs.Props.C67_freudenstein_roth",
    "Ecrs.Props.C67_goldstein_price",
    "Ecrs.Props.C67_himmelblau",
    "Ecrs.Props.C67_leon",
    "Ecrs.Props.C67_matyas",
    "Ecrs.Props.C67_price1",
    "Ecrs.Props.C67_price4",
    "Ecrs.Props.C67_rotated_ellipse",
    "Ecrs.Props.C67_rotated_ellipse2",
    "Ecrs.Props.C67_zettl",
    "Ecrs.Props.C67_zirilli",
    "Ecrs.Props.C67_bohachevsky_n1",
    "Ecrs.Props.C67_bohachevsky_n2",
    "Ecrs.Props.C67_bohachevsky_n3",
    "Ecrs.Props.C67_drop_wave",
    "Ecrs.Props.C67_easom",
    "Ecrs.Props.C67_levy_n13",
    "Ecrs.Props.C67_miele_cantrell",
    "Ecrs.Props.C67_periodic",
    "Ecrs.Props.C67_price2",
    "Ecrs.Props.C67_schaffer_n1",
    "Ecrs.Props.C67_schaffer_n2",
    "Ecrs.Props.C67_hosaki",
    "Ecrs.Props.C67_wordmax",
    "Ecrs.Props.C67_wordmax_step"
   ],
   "note": "Real arithmetic (f64 rounding is not modelled). hosaki holds only on the nonnegative quadrant and up to a tolerance (C67_hosaki). Functions whose documented minimum the code contradicts are in C107; functions documented by rounded decimals in C122."
  },
  {
   "property": "C68",
   "status": "proved",
   "theorems": [
    "Ecrs.Ga.C68_random_points_repeats"
   ],
   "note": "Violation proved for all seeded generators."
  },
  {
   "property": "C69",
   "status": "proved",
   "theorems": [
    "Ecrs.Ga.C69_unit_cube",
    "Ecrs.Ga.C69_no_new_gene_values"
   ],
   "note": ""
  },
  {
   "property": "C70",
   "status": "proved",
   "theorems": [
    "Ecrs.Ga.C70_replacement_receives_population",
    "Ecrs.Ga.C70_families_are_not_aligned"
   ],
   "note": "The documented family invariant is false of the code: C70_families_are_not_aligned exhibits a run of shipped operators; what holds for all runs is C70_replacement_receives_population."
  },
  {
   "property": "C71",
   "status": "proved",
   "theorems": [
    "Ecrs.Ga.C71_elapsed_time",
    "Ecrs.Ga.C71_rate_bound",
    "Ecrs.Ga.C71_elapsed_time_bursts"
   ],
   "note": ""
  },
  {
   "property": "C72",
   "status": "proved",
   "theorems": [
    "Ecrs.Ga.C72_first_run_starts_at_zero",
    "Ecrs.Ga.C72_second_run_is_stale",
    "Ecrs.Ga.C72_rerun_is_a_fresh_run"
   ],
   "note": "The stale start-of-run metrics contradict the expected reset (C72_second_run_is_stale); everything else about a second run is proved equal to a fresh run."
  },
  {
   "property": "C73",
   "status": "proved",
   "theorems": [
    "Ecrs.Pso.C73_time_limit_counts_from_construction",
    "Ecrs.Pso.C73_not_timed_from_run_start"
   ],
   "note": "Violation proved for all limits and times."
  },
  {
   "property": "C74",
   "status": "proved",
   "theorems": [
    "Ecrs.Pso.C74_records"
   ],
   "note": ""
  },
  {
   "property": "C75",
   "status": "proved",
   "theorems": [
    "Ecrs.Pso.C75_converged_is_fixed"
   ],
   "note": ""
  },
  {
   "property": "C76",
   "status": "proved",
   "theorems": [
    "Ecrs.Pso.C76_print_vector"
   ],
   "note": ""
  },
  {
   "property": "C77",
   "status": "proved",
   "theorems": [
    "Ecrs.Pso.C77_builder_last_setter_wins",
    "Ecrs.Pso.C77_built_shape"
   ],
   "note": ""
  },
  {
   "property": "C78",
   "status": "proved",
   "theorems": [
    "Ecrs.Ff.C78_bounds_test",
    "Ecrs.Ff.C78_upper_bound_teleports",
    "Ecrs.Ff.C78_run_teleports",
    "Ecrs.Ff.C78_lone_firefly_teleports"
   ],
   "note": "C78_bounds_test and C78_upper_bound_teleports cover every candidate; the teleport also happens in a run (C78_run_teleports)."
  },
  {
   "property": "C79",
   "status": "proved",
   "theorems": [
    "Ecrs.Ff.C79_generation_zero_jump",
    "Ecrs.Ff.C79_zero_alfa_nan"
   ],
   "note": ""
  },
  {
   "property": "C80",
   "status": "proved",
   "theorems": [
    "Ecrs.Ff.C80_callbacks",
    "Ecrs.Ff.C80_run_returns"
   ],
   "note": ""
  },
  {
   "property": "C81",
   "status": "proved",
   "theorems": [
    "Ecrs.Ff.C81_reported_value_monotone"
   ],
   "note": ""
  },
  {
   "property": "C82",
   "status": "proved",
   "theorems": [
    "Ecrs.Ff.C82_generation_interval"
   ],
   "note": ""
  },
  {
   "property": "C83",
   "status": "proved",
   "theorems": [
    "Ecrs.Ff.C83_records"
   ],
   "note": ""
  },
  {
   "property": "C84",
   "status": "proved",
   "theorems": [
    "Ecrs.Ff.C84_attracted_by_better",
    "Ecrs.Ff.C84_negative_attracted_by_worse",
    "Ecrs.Ff.C84_all_signs"
   ],
   "note": "The expected rule is false of the code for mixed signs; C84_all_signs covers all finite values."
  },
  {
   "property": "C85",
   "status": "proved",
   "theorems": [
    "Ecrs.Ff.C85_taxi",
    "Ecrs.Ff.C85_cartesian",
    "Ecrs.Ff.C85_taxi_metric",
    "Ecrs.Ff.C85_longer_panics",
    "Ecrs.Ff.C85_infinite"
   ],
   "note": ""
  },
  {
   "property": "C86",
   "status": "proved",
   "theorems": [
    "Ecrs.Ff.C86_last_brighter_wins",
    "Ecrs.Ff.C86_brightest_walks"
   ],
   "note": ""
  },
  {
   "property": "C87",
   "status": "proved",
   "theorems": [
    "Ecrs.Ff.C87_elapsed_time",
    "Ecrs.Ff.C87_spacing",
    "Ecrs.Ff.C87_first_log_late",
    "Ecrs.Ff.C87_logged_iff"
   ],
   "note": "The documentation says first_threshold is the time of the first logging iteration; C87_first_log_late shows it is later."
  },
  {
   "property": "C88",
   "status": "proved",
   "theorems": [
    "Ecrs.Aco.C88_goodness_entries",
    "Ecrs.Aco.C88_small_heuristic_panics",
    "Ecrs.Aco.C88_goodness_positive"
   ],
   "note": ""
  },
  {
   "property": "C89",
   "status": "proved",
   "theorems": [
    "Ecrs.Aco.C89_acs_complete",
    "Ecrs.Aco.C89_acs_one_vertex",
    "Ecrs.Aco.C89_acs_returns_non_tour",
    "Ecrs.Aco.C89_acs_paths"
   ],
   "note": "The expected completeness is false of the code without positivity (C89_acs_returns_non_tour); C89_acs_paths and C89_acs_complete are what holds."
  },
  {
   "property": "C90",
   "status": "proved",
   "theorems": [
    "Ecrs.Aco.C90_ant_system_formula",
    "Ecrs.Aco.C90_elitist_formula",
    "Ecrs.Aco.C90_acs_formula",
    "Ecrs.Aco.C90_tour_uses_once",
    "Ecrs.Aco.C90_two_vertices_double",
    "Ecrs.Aco.C90_two_vertices_every_tour"
   ],
   "note": ""
  },
  {
   "property": "C91",
   "status": "proved",
   "theorems": [
    "Ecrs.Aco.C91_ant_system_run",
    "Ecrs.Aco.C91_acs_run",
    "Ecrs.Aco.C91_acs_one_city_panics"
   ],
   "note": ""
  },
  {
   "property": "C92",
   "status": "proved",
   "theorems": [
    "Ecrs.Aco.C92_builder",
    "Ecrs.Aco.C92_missing_panics"
   ],
   "note": ""
  },
  {
   "property": "C93",
   "status": "proved",
   "theorems": [
    "Ecrs.Aco.C93_csv_records",
    "Ecrs.Aco.C93_matrix_lines",
    "Ecrs.Aco.C93_json_records"
   ],
   "note": ""
  },
  {
   "property": "C94",
   "status": "proved",
   "theorems": [
    "Ecrs.Aco.C94_tsp_cost",
    "Ecrs.Aco.C94_heuristic",
    "Ecrs.Aco.C94_heuristic_positive",
    "Ecrs.Aco.C94_zero_diagonal",
    "Ecrs.Aco.C94_euclidean"
   ],
   "note": ""
  },
  {
   "property": "C95",
   "status": "proved",
   "theorems": [
    "Ecrs.Jssp.C95_fitness_is_a_makespan"
   ],
   "note": ""
  },
  {
   "property": "C96",
   "status": "proved",
   "theorems": [
    "Ecrs.Jssp.C96_history_independent"
   ],
   "note": ""
  },
  {
   "property": "C97",
   "status": "proved",
   "theorems": [
    "Ecrs.Jssp.C97_evaluation_returns",
    "Ecrs.Jssp.C97_reentrant_job_diverges",
    "Ecrs.Jssp.C97_zero_duration_diverges"
   ],
   "note": "C97_evaluation_returns; the endless loops are C97_reentrant_job_diverges and C97_zero_duration_diverges."
  },
  {
   "property": "C98",
   "status": "proved",
   "theorems": [
    "Ecrs.Jssp.C98_lower_bounds"
   ],
   "note": ""
  },
  {
   "property": "C99",
   "status": "proved",
   "theorems": [
    "Ecrs.Jssp.C99_reset_leaves_no_machine_edge"
   ],
   "note": ""
  },
  {
   "property": "C100",
   "status": "proved",
   "theorems": [
    "Ecrs.Jssp.C100_loading",
    "Ecrs.Jssp.C100_empty_job_panics"
   ],
   "note": "C100_loading for well-formed files (positive number of jobs, no empty job); C100_empty_job_panics shows what happens for an empty job line."
  },
  {
   "property": "C101",
   "status": "proved",
   "theorems": [
    "Ecrs.Jssp.C101_machine_edges_follow_decoding_order",
    "Ecrs.Jssp.C101_machine_edges"
   ],
   "note": "C101_machine_edges is the general statement, C101_machine_edges_follow_decoding_order a case in which the orders differ."
  },
  {
   "property": "C102",
   "status": "proved",
   "theorems": [
    "Ecrs.Jssp.C102_finish_times_do_not_realise_fitness",
    "Ecrs.Jssp.C102_finish_times"
   ],
   "note": "C102_finish_times is the general statement, C102_finish_times_do_not_realise_fitness a case in which they differ."
  },
  {
   "property": "C103",
   "status": "proved",
   "theorems": [
    "Ecrs.Jssp.C103_solver_run",
    "Ecrs.Jssp.C103_odd_population_panics",
    "Ecrs.Jssp.C103_small_population_panics"
   ],
   "note": "C103_solver_run; the panics are C103_odd_population_panics and C103_small_population_panics. Other instances: see C97."
  },
  {
   "property": "C104",
   "status": "proved",
   "theorems": [
    "Ecrs.Jssp.C104_noop",
    "Ecrs.Jssp.C104_probability",
    "Ecrs.Jssp.C104_gene_exchanged",
    "Ecrs.Jssp.C104_crossover"
   ],
   "note": ""
  },
  {
   "property": "C105",
   "status": "proved",
   "theorems": [
    "Ecrs.Jssp.C105_random_search_run"
   ],
   "note": ""
  },
  {
   "property": "C106",
   "status": "proved",
   "theorems": [
    "Ecrs.Props.C106_two_dimensional",
    "Ecrs.Props.C106_branin",
    "Ecrs.Props.C106_giunta",
    "Ecrs.Props.C106_fixed_dimension",
    "Ecrs.Props.C106_wolfe",
    "Ecrs.Props.C106_nonempty",
    "Ecrs.Props.C106_any_dimension",
    "Ecrs.Props.C106_at_least_two",
    "Ecrs.Props.C106_bartels_conn",
    "Ecrs.Props.C106_powell",
    "Ecrs.Props.C106_unguarded",
    "Ecrs.Props.C106_pathological_ignores_ends",
    "Ecrs.Props.C106_alpine2",
    "Ecrs.Props.C106_csendes",
    "Ecrs.Props.C106_deb1",
    "Ecrs.Props.C106_deb3",
    "Ecrs.Props.C106_keane",
    "Ecrs.Props.C106_paviani",
    "Ecrs.Props.C106_pen_holder",
    "Ecrs.Props.C106_ripple",
    "Ecrs.Props.C106_brad",
    "Ecrs.Props.C106_devilliers_glasser2",
    "Ecrs.Props.C106_vss",
    "Ecrs.Props.C106_powell2",
    "Ecrs.Props.C106_power_sum_qing",
    "Ecrs.Props.C106_gulf_research"
   ],
   "note": "All functions of the file (quartic and xin_she_yang_1 are commented out in the source). forrester_et_al and gramacy_lee take a scalar and are total. Real arithmetic; for vss the vectors with a non-positive cosine of the second entry are not classified."
  },
  {
   "property": "C107",
   "status": "proved",
   "theorems": [
    "Ecrs.Props.C107_ackley3",
    "Ecrs.Props.C107_alpine2",
    "Ecrs.Props.C107_brad",
    "Ecrs.Props.C107_biggs",
    "Ecrs.Props.C107_bohachevsky",
    "Ecrs.Props.C107_box_betts",
    "Ecrs.Props.C107_branin_rcos",
    "Ecrs.Props.C107_branin_default",
    "Ecrs.Props.C107_branin_rcos2",
    "Ecrs.Props.C107_brent",
    "Ecrs.Props.C107_bukin_2",
    "Ecrs.Props.C107_six_hump_camel",
    "Ecrs.Props.C107_chen_bird",
    "Ecrs.Props.C107_chen_v",
    "Ecrs.Props.C107_cosine_mixture",
    "Ecrs.Props.C107_csendes",
    "Ecrs.Props.C107_cube",
    "Ecrs.Props.C107_damavandi",
    "Ecrs.Props.C107_deb1",
    "Ecrs.Props.C107_deb3",
    "Ecrs.Props.C107_deckkers_aarts",
    "Ecrs.Props.C107_dolan",
    "Ecrs.Props.C107_eavd",
    "Ecrs.Props.C107_egg_crate",
    "Ecrs.Props.C107_exponential",
    "Ecrs.Props.C107_exp2",
    "Ecrs.Props.C107_giunta",
    "Ecrs.Props.C107_hosaki",
    "Ecrs.Props.C107_adijman",
    "Ecrs.Props.C107_mcormick",
    "Ecrs.Props.C107_schwefel",
    "Ecrs.Props.C107_eggholder",
    "Ecrs.Props.C107_holder_table",
    "Ecrs.Props.C107_keane",
    "Ecrs.Props.C107_paviani",
    "Ecrs.Props.C107_paviani_returns",
    "Ecrs.Props.C107_power_sum",
    "Ecrs.Props.C107_price3",
    "Ecrs.Props.C107_quadratic",
    "Ecrs.Props.C107_rosenbrock_modified",
    "Ecrs.Props.C107_rump",
    "Ecrs.Props.C107_schmidt_vetters",
    "Ecrs.Props.C107_testtube_holder",
    "Ecrs.Props.C107_trecanni",
    "Ecrs.Props.C107_trigonometric2",
    "Ecrs.Props.C107_wayburn_seader1",
    "Ecrs.Props.C107_wayburn_seader2",
    "Ecrs.Props.C107_wolfe",
    "Ecrs.Props.C107_gulf_research",
    "Ecrs.Props.C107_wayburn_seader3",
    "Ecrs.Props.C107_forrester_et_al",
    "Ecrs.Props.C107_devilliers_glasser2",
    "Ecrs.Props.C107_holder_table3",
    "Ecrs.Props.C107_cross_in_tray",
    "Ecrs.Props.C107_vss",
    "Ecrs.Props.C107_pen_holder",
    "Ecrs.Props.C107_bartels_conn",
    "Ecrs.Props.C107_chichinadze",
    "Ecrs.Props.C107_michalewicz"
   ],
   "note": "Exact characterisation of the violated expectation: each theorem proves that the code contradicts the documented minimum of one function. Real arithmetic, no domain restriction (the documentation states none)."
  },
  {
   "property": "C108",
   "status": "proved",
   "theorems": [
    "Ecrs.Props.C108_devilliers_glasser1",
    "Ecrs.Props.C108_de_jong_n5",
    "Ecrs.Props.C108_hartmann",
    "Ecrs.Props.C108_shekel",
    "Ecrs.Props.C108_pinter",
    "Ecrs.Props.C108_rana",
    "Ecrs.Props.C108_stretched_v_sine_wave",
    "Ecrs.Props.C108_trid10",
    "Ecrs.Props.C108_langermann",
    "Ecrs.Props.C108_ackley2",
    "Ecrs.Props.C108_perm"
   ],
   "note": "Exact characterisation of the violated expectation: each theorem proves that one function never returns."
  },
  {
   "property": "C109",
   "status": "proved",
   "theorems": [
    "Ecrs.Ga.C109_generation_numbers",
    "Ecrs.Ga.C109_time_and_size"
   ],
   "note": ""
  },
  {
   "property": "C110",
   "status": "proved",
   "theorems": [
    "Ecrs.Ga.C110_evaluation_count"
   ],
   "note": ""
  },
  {
   "property": "C111",
   "status": "proved",
   "theorems": [
    "Ecrs.Ga.C111_crossover_reproducible",
    "Ecrs.Ga.C111_mutation_reproducible",
    "Ecrs.Ga.C111_discrete_population_reproducible",
    "Ecrs.Ga.C111_selection_reproducible",
    "Ecrs.Ga.C111_run_reproducible",
    "Ecrs.Ga.C111_interchange_not_reproducible"
   ],
   "note": "False for Interchange (C111_interchange_not_reproducible); proved for every other shipped random operator and for whole permutation-GA runs without Interchange."
  },
  {
   "property": "C112",
   "status": "proved",
   "theorems": [
    "Ecrs.Ga.C112_box",
    "Ecrs.Ga.C112_cube",
    "Ecrs.Ga.C112_never_evaluated_outside",
    "Ecrs.Ga.C112_returns",
    "Ecrs.Ga.C112_leaves_box"
   ],
   "note": "Leaving the box for different ranges with Interchange, Reversing or Inversion is C112_leaves_box."
  },
  {
   "property": "C113",
   "status": "proved",
   "theorems": [
    "Ecrs.Ga.C113_stdout_log",
    "Ecrs.Ga.C113_stdout_behind_policy"
   ],
   "note": ""
  },
  {
   "property": "C114",
   "status": "proved",
   "theorems": [
    "Ecrs.Jssp.C114_precedence",
    "Ecrs.Jssp.C114_required",
    "Ecrs.Jssp.C114_unreadable",
    "Ecrs.Jssp.C114_launch",
    "Ecrs.Jssp.C114_starts"
   ],
   "note": ""
  },
  {
   "property": "C115",
   "status": "proved",
   "theorems": [
    "Ecrs.Jssp.C115_delay_const_ignored"
   ],
   "note": "Violation proved for all command lines and file systems (C115_delay_const_ignored)."
  },
  {
   "property": "C116",
   "status": "proved",
   "theorems": [
    "Ecrs.Jssp.C116_mean_distance",
    "Ecrs.Jssp.C116_nonneg_and_zero",
    "Ecrs.Jssp.C116_order_irrelevant",
    "Ecrs.Jssp.C116_bound",
    "Ecrs.Jssp.C116_degenerate",
    "Ecrs.Jssp.C116_second_run_asserts"
   ],
   "note": ""
  },
  {
   "property": "C117",
   "status": "proved",
   "theorems": [
    "Ecrs.Jssp.C117_string_injective",
    "Ecrs.Jssp.C117_solution_string",
    "Ecrs.Jssp.C117_jobs_in_order",
    "Ecrs.Jssp.C117_machines_in_order",
    "Ecrs.Jssp.C117_run",
    "Ecrs.Jssp.C117_zero_durations_not_ordered"
   ],
   "note": "The failure for durations zero is C117_zero_durations_not_ordered; the rest is proved for positive durations and instances on which evaluation returns (C97)."
  },
  {
   "property": "C118",
   "status": "proved",
   "theorems": [
    "Ecrs.Ga.C118_best_of_generation"
   ],
   "note": ""
  },
  {
   "property": "C119",
   "status": "proved",
   "theorems": [
    "Ecrs.Pso.C119_movement",
    "Ecrs.Pso.C119_step_bound"
   ],
   "note": ""
  },
  {
   "property": "C120",
   "status": "proved",
   "theorems": [
    "Ecrs.Ff.C120_states",
    "Ecrs.Ff.C120_decay"
   ],
   "note": ""
  },
  {
   "property": "C121",
   "status": "proved",
   "theorems": [
    "Ecrs.Ff.C121_last_setter_wins"
   ],
   "note": ""
  },
  {
   "property": "C122",
   "status": "proved",
   "theorems": [
    "Ecrs.Props.C122_trefethen",
    "Ecrs.Props.C122_jennrich_sampson",
    "Ecrs.Props.C122_bird",
    "Ecrs.Props.C122_shubert",
    "Ecrs.Props.C122_shubert_periodic",
    "Ecrs.Props.C122_schaffer_n4"
   ],
   "note": "Real arithmetic (f64 rounding is not modelled). The lower bounds of trefethen rest on a verified interval arithmetic evaluated by the kernel (Verif/TestFunctions/Interval.lean), which covers the whole plane: bisection inside a disc, an estimate outside."
  },
  {
   "property": "C123",
   "status": "proved",
   "theorems": [
    "Ecrs.Jssp.C123_decoding"
   ],
   "note": ""
  },
  {
   "property": "C124",
   "status": "proved",
   "theorems": [
    "Ecrs.Jssp.C124_local_optimum"
   ],
   "note": ""
  },
  {
   "property": "C125",
   "status": "proved",
   "theorems": [
    "Ecrs.Props.C125_roulette",
    "Ecrs.Props.C125_roulette_count",
    "Ecrs.Props.C125_absorbed_never_selected",
    "Ecrs.Props.C125_sus_returns_iff",
    "Ecrs.Props.C125_sus_panics",
    "Ecrs.Props.C125_sus_result",
    "Ecrs.Props.C125_sus_collects_too_many",
    "Ecrs.Props.C125_sus_collects_too_few",
    "Ecrs.Props.C125_roulette_ignores_small"
   ],
   "note": ""
  },
  {
   "property": "C126",
   "status": "proved",
   "theorems": [
    "Ecrs.Aco.C126_stuck_draw",
    "Ecrs.Aco.C126_last_step",
    "Ecrs.Aco.C126_stuck_only_near_end",
    "Ecrs.Aco.C126_acs_tours",
    "Ecrs.Aco.C126_fitness",
    "Ecrs.Aco.C126_length_error",
    "Ecrs.Aco.C126_fitter_if_clearly_shorter",
    "Ecrs.Aco.C126_pheromone_nonneg",
    "Ecrs.Aco.C126_max_min_upper",
    "Ecrs.Aco.C126_local_update_nonneg",
    "Ecrs.Aco.C126_ant_gets_stuck",
    "Ecrs.Aco.C126_ant_system_panics",
    "Ecrs.Aco.C126_rotation_changes_fitness"
   ],
   "note": ""
  },
  {
   "property": "C127",
   "status": "proved",
   "theorems": [
    "Ecrs.Ga.C127_single_point",
    "Ecrs.Ga.C127_two_point",
    "Ecrs.Ga.C127_multi_point",
    "Ecrs.Ga.C127_shuffle",
    "Ecrs.Ga.C127_uniform_pair",
    "Ecrs.Ga.C127_uniform",
    "Ecrs.Ga.C127_ordered",
    "Ecrs.Ga.C127_pmx",
    "Ecrs.Ga.C127_ppx",
    "Ecrs.Ga.C127_pmx_pairs"
   ],
   "note": ""
  },
  {
   "property": "C128",
   "status": "proved",
   "theorems": [
    "Ecrs.Ga.C128_flip_bit",
    "Ecrs.Ga.C128_interchange",
    "Ecrs.Ga.C128_reversing",
    "Ecrs.Ga.C128_reversing_cannot_reverse",
    "Ecrs.Ga.C128_inversion"
   ],
   "note": ""
  },
  {
   "property": "C129",
   "status": "proved",
   "theorems": [
    "Ecrs.Ga.C129_random",
    "Ecrs.Ga.C129_unique_random",
    "Ecrs.Ga.C129_rank",
    "Ecrs.Ga.C129_rank_r",
    "Ecrs.Ga.C129_tournament",
    "Ecrs.Ga.C129_roulette",
    "Ecrs.Ga.C129_bit_strings",
    "Ecrs.Ga.C129_random_permutations",
    "Ecrs.Ga.C129_random_points"
   ],
   "note": ""
  },
  {
   "property": "C130",
   "status": "proved",
   "theorems": [
    "Ecrs.Ga.C130_bit_string_histories",
    "Ecrs.Ga.C130_optimum_in_reach",
    "Ecrs.Ga.C130_permutation_histories"
   ],
   "note": ""
  },
  {
   "property": "C131",
   "status": "proved",
   "theorems": [
    "Ecrs.Aco.C131_ant_system_tours",
    "Ecrs.Aco.C131_acs_tours",
    "Ecrs.Aco.C131_ant_system_histories",
    "Ecrs.Aco.C131_ant_system_reports",
    "Ecrs.Aco.C131_acs_histories",
    "Ecrs.Aco.C131_no_goodness_no_move"
   ],
   "note": "Exact arithmetic (under f64 rounding small goodness can be absorbed, C126)."
  },
  {
   "property": "C132",
   "status": "proved",
   "theorems": [
    "Ecrs.Props.C132_order_free_sums",
    "Ecrs.Props.C132_order_free_qing",
    "Ecrs.Props.C132_order_free_guarded",
    "Ecrs.Props.C132_order_free_trapping",
    "Ecrs.Props.C132_order_free_two",
    "Ecrs.Props.C132_sign_free_sums",
    "Ecrs.Props.C132_sign_free_qing",
    "Ecrs.Props.C132_sign_free_guarded",
    "Ecrs.Props.C132_sign_free_two",
    "Ecrs.Props.C132_mirror_free",
    "Ecrs.Props.C132_mirror_free_zakharov",
    "Ecrs.Props.C132_periods"
   ],
   "note": "Stated on the model over the real numbers; failures (panics on empty input, operations without a real value) are part of the compared result."
  },
  {
   "property": "C133",
   "status": "proved",
   "theorems": [
    "Ecrs.Props.C133_random",
    "Ecrs.Props.C133_rank",
    "Ecrs.Props.C133_rank_r",
    "Ecrs.Props.C133_roulette",
    "Ecrs.Props.C133_unique_random",
    "Ecrs.Props.C133_tournament",
    "Ecrs.Props.C133_rank_any_fitness",
    "Ecrs.Props.C133_rank_nan"
   ],
   "note": "Exact arithmetic (rounding: C125). `Ideal` (Verif/Prob.lean) is the assumption on the generator; Verif/ProbTape.lean constructs one, so it can be met. RankR: C133_rank_r is a finding."
  },
  {
   "property": "C134",
   "status": "proved",
   "theorems": [
    "Ecrs.Props.C134_flip_bit",
    "Ecrs.Props.C134_interchange",
    "Ecrs.Props.C134_inversion",
    "Ecrs.Props.C134_reversing",
    "Ecrs.Props.C134_single_point",
    "Ecrs.Props.C134_two_point",
    "Ecrs.Props.C134_uniform",
    "Ecrs.Props.C134_uniform_parameterized",
    "Ecrs.Props.C134_shuffle",
    "Ecrs.Props.C134_multi_point",
    "Ecrs.Props.C134_ordered",
    "Ecrs.Props.C134_pmx",
    "Ecrs.Props.C134_ppx",
    "Ecrs.Props.C134_bit_strings",
    "Ecrs.Props.C134_random_permutations"
   ],
   "note": "Exact laws (Interchange: a lower bound for every ordering). The generator is ideal: real draws uniform on [0,1), integer draws, samples and shuffles uniform, all independent; ProbTape constructs one. RandomPoints is not covered (its results are not countable)."
  },
  {
   "property": "C135",
   "status": "proved",
   "theorems": [
    "Ecrs.Ga.C135_bit_string_rate",
    "Ecrs.Ga.C135_bit_string_converges",
    "Ecrs.Ga.C135_permutation_rate",
    "Ecrs.Ga.C135_permutation_converges"
   ],
   "note": "Exact real arithmetic and an ideal generator (Ideal, realised by tapeRng); all operators share one generator (ThreadRng); the clock is a program with a law that never reaches max_duration. StochasticUniversalSampling and Boltzmann are not covered (their draws are not part of Ideal)."
  },
  {
   "property": "C136",
   "status": "proved",
   "theorems": [
    "Ecrs.Aco.C136_next_vertex",
    "Ecrs.Aco.C136_next_vertex_exploiting",
    "Ecrs.Aco.C136_ant_system_refines",
    "Ecrs.Aco.C136_first_vertex",
    "Ecrs.Aco.C136_tour",
    "Ecrs.Aco.C136_ant_system",
    "Ecrs.Aco.C136_missed",
    "Ecrs.Aco.C136_tour_bound",
    "Ecrs.Aco.C136_acs_step",
    "Ecrs.Aco.C136_acs_refines"
   ],
   "note": "Exact real arithmetic, gen_range(0.0..=s) as s times a uniform draw; all ants share one generator. For exploiting ants the goodness has no ties within a row (with ties the hash order decides which best vertex is taken)."
  },
  {
   "property": "C137",
   "status": "proved",
   "theorems": [
    "Ecrs.Aco.C137_stagnation",
    "Ecrs.Aco.C137_never_shortest",
    "Ecrs.Aco.C137_refines"
   ],
   "note": "Exact real arithmetic and real powers on nonnegative arguments; AntSystemAB only (Ant Colony System's behaviour is not covered, its pheromone update is)."
  },
  {
   "property": "C138",
   "status": "proved",
   "theorems": [
    "Ecrs.C138_weighted_sample",
    "Ecrs.C138_temperature",
    "Ecrs.C138_cooling",
    "Ecrs.C138_panics",
    "Ecrs.C138_whole_population",
    "Ecrs.C138_law",
    "Ecrs.C138_small_fitness",
    "Ecrs.C138_takes_the_best",
    "Ecrs.C138_refines"
   ],
   "note": "Exact reals with infinities and NaN: no rounding and no underflow of the weights. The weighted sampling is modelled from the source of rand 0.8.5 (a BinaryHeap over keys u^(1/w)), the order of equal keys left open."
  },
  {
   "property": "C139",
   "status": "proved",
   "theorems": [
    "Ecrs.Ga.C139_bsc",
    "Ecrs.Ga.C139_bsc_limit",
    "Ecrs.Ga.C139_rvc",
    "Ecrs.Ga.C139_ackley",
    "Ecrs.Ga.C139_boltzmann_returns",
    "Ecrs.Ga.C139_ga"
   ],
   "note": "Exact real arithmetic; logging, probes and the final println! left out."
  },
  {
   "property": "C140",
   "status": "proved",
   "theorems": [
    "Ecrs.Ga.C140_gene_values",
    "Ecrs.Ga.C140_no_convergence",
    "Ecrs.Ga.C140_never_exact",
    "Ecrs.Ga.C140_sphere",
    "Ecrs.Ga.C140_ga"
   ],
   "note": "Ideal source of randomness, one generator, exact real arithmetic."
  },
  {
   "property": "C141",
   "status": "proved",
   "theorems": [
    "Ecrs.Coco.C141_random_search",
    "Ecrs.Coco.C141_ga_search",
    "Ecrs.Coco.C141_ga_overspends",
    "Ecrs.Coco.C141_ga_in_box",
    "Ecrs.Coco.C141_experiment",
    "Ecrs.Coco.C141_rejects"
   ],
   "note": "The COCO library is external: assumed to count evaluations and return numbers (structure Contract, instance in the example)."
  },
  {
   "property": "C142",
   "status": "proved",
   "theorems": [
    "Ecrs.Ff.C142_initial_population_forgotten",
    "Ecrs.Ff.C142_ff",
    "Ecrs.Ff.C142_ff_forgets",
    "Ecrs.Ff.C142_ff_logging",
    "Ecrs.Pso.C142_pso"
   ],
   "note": "Exact real arithmetic (firefly: with infinities and NaN). The samples of the firefly's flight distribution are assumed non-zero in generation 0 (otherwise C79's NaN case)."
  },
  {
   "property": "C143",
   "status": "proved",
   "theorems": [
    "Ecrs.Ff.C143_cooling",
    "Ecrs.Ff.C143_default"
   ],
   "note": "Exact arithmetic (linearly ordered field with inf/nan); the numbers used must be finite, collected in the structure Moderate. Rounding errors are not included."
  },
  {
   "property": "C144",
   "status": "proved",
   "theorems": [
    "Ecrs.Ga.C144_new_solver",
    "Ecrs.Ga.C144_phase_times",
    "Ecrs.Ga.C144_iteration_time_is_previous",
    "Ecrs.Ga.C144_unreported_evaluations",
    "Ecrs.Ga.C144_measurements_are_harmless"
   ],
   "note": "Time in natural numbers of nanoseconds; operators see the fields of Metrics without durations (no shipped operator reads them)."
  },
  {
   "property": "C145",
   "status": "proved",
   "theorems": [
    "Ecrs.Ff.C145_firefly",
    "Ecrs.Ga.C145_permutations",
    "Ecrs.Ga.C145_points",
    "Ecrs.Ga.C145_bit_strings",
    "Ecrs.Ga.C145_roulette_scale",
    "Ecrs.Ga.C145_roulette_shift",
    "Ecrs.Pso.C145_pso"
   ],
   "note": "GA: permutation, real-vector and bit-string configurations of shipped operators; PSO in arbitrary coordinate arithmetic; firefly in exact arithmetic (Ext)"
  },
  {
   "property": "C146",
   "status": "proved",
   "theorems": [
    "Ecrs.Ff.C146_firefly",
    "Ecrs.Ff.C146_distances",
    "Ecrs.Ff.C146_firefly_walk_ignores_box",
    "Ecrs.Pso.C146_pso"
   ],
   "note": "exact arithmetic over an ordered field; rounding breaks exact equivariance"
  },
  {
   "property": "C147",
   "status": "proved",
   "theorems": [
    "Ecrs.Props.C147_firefly_rastrigin",
    "Ecrs.Props.C147_any_dimension",
    "Ecrs.Props.C147_nonempty",
    "Ecrs.Props.C147_chains",
    "Ecrs.Props.C147_plane",
    "Ecrs.Props.C147_other_dimensions",
    "Ecrs.Props.C147_where_defined",
    "Ecrs.Props.C147_plane_errors",
    "Ecrs.Props.C147_plane_errors_matter",
    "Ecrs.Props.C147_branin_constants",
    "Ecrs.Props.C147_space_errors",
    "Ecrs.Props.C147_more_errors",
    "Ecrs.Props.C147_sum_errors",
    "Ecrs.Props.C147_sum_errors_matter",
    "Ecrs.Props.C147_deb_errors",
    "Ecrs.Props.C147_numbering_errors",
    "Ecrs.Props.C147_window_errors",
    "Ecrs.Props.C147_sargan",
    "Ecrs.Props.C147_product_errors",
    "Ecrs.Props.C147_fit_errors",
    "Ecrs.Props.C147_sum_formula_errors",
    "Ecrs.Props.C147_powell_errors",
    "Ecrs.Props.C147_brad",
    "Ecrs.Props.C147_misplaced_operations",
    "Ecrs.Props.C147_devilliers_glasser2",
    "Ecrs.Props.C147_devilliers_glasser2_minimum",
    "Ecrs.Props.C147_biggs56",
    "Ecrs.Props.C147_ripple",
    "Ecrs.Props.C147_ripple1_unbounded",
    "Ecrs.Props.C147_langermann"
   ],
   "note": "Published.lean is an independent specification (big sums over Fin n); agreement and exact error proved at every real point. Real arithmetic: f64 rounding is not modelled here. The published formulas are those of Jamil & Yang 2013 and of Surjanovic & Bingham as remembered by the author; the sandbox has no network to compare with the papers. Not compared: functions that always panic (C108), holder_table3, devilliers_glasser2, gulf_research, ursem/ripple variants whose published form is disputed, biggs_exp5/6."
  },
  {
   "property": "C148",
   "status": "proved",
   "theorems": [
    "Ecrs.Ff.C148_firefly_console",
    "Ecrs.Pso.C148_swarm_console",
    "Ecrs.Pso.C148_swarm_console_interval",
    "Ecrs.Aco.C148_ant_console"
   ],
   "note": "Lines of text; the decimal rendering of an f64 is a parameter assumed to contain no line break."
  },
  {
   "property": "C149",
   "status": "proved",
   "theorems": [
    "Ecrs.Props.C149_locus_operators",
    "Ecrs.Props.C149_permutation_operators",
    "Ecrs.Props.C149_mutations",
    "Ecrs.Props.C149_whole_run"
   ],
   "note": "Hash sets and maps of OrderedCrossover, Pmx and Ppx are modelled by their contents, so the claim includes that no result depends on hash iteration order only as far as the code never iterates over them (it does not)."
  },
  {
   "property": "C150",
   "status": "proved",
   "theorems": [
    "Ecrs.Jssp.C150_first_operations_first",
    "Ecrs.Jssp.C150_unreachable_optimum",
    "Ecrs.Jssp.C150_run"
   ],
   "note": "Exact arithmetic for the genes (ordered field or reals); hypotheses on the evaluation operations (sane, ordered, delay at most 1.5 times the longest duration) are shown to hold for every chromosome of genes in [0,1). The run theorem inherits the hypotheses of the JSSP run model (C116)."
  },
  {
   "property": "C151",
   "status": "proved",
   "theorems": [
    "Ecrs.Aco.C151_rates",
    "Ecrs.Aco.C151_bounds"
   ],
   "note": "Comparisons of numbers are exact; no rounding is involved in these checks."
  },
  {
   "property": "C152",
   "status": "proved",
   "theorems": [
    "Ecrs.Ga.C152_sus_unbiased",
    "Ecrs.Ga.C152_sus_missed"
   ],
   "note": "Real numbers; the draw of the start pointer is assumed uniform on the closed interval (shown for a constructed generator)."
  },
  {
   "property": "C153",
   "status": "proved",
   "theorems": [
    "Ecrs.Props.C153_mean",
    "Ecrs.Props.C153_settles",
    "Ecrs.Props.C153_bounded",
    "Ecrs.Props.C153_spreads",
    "Ecrs.Props.C153_default"
   ],
   "note": "Exact real arithmetic, ideal independent uniform samples (constructed in the example). (3) is divergence in mean square, not of almost every path; nothing is claimed for equality in the bound."
  },
  {
   "property": "C154",
   "status": "proved",
   "theorems": [
    "Ecrs.Props.C154_single_point_position",
    "Ecrs.Props.C154_single_point_linkage",
    "Ecrs.Props.C154_two_point_position",
    "Ecrs.Props.C154_two_point_linkage",
    "Ecrs.Props.C154_uniform_position",
    "Ecrs.Props.C154_uniform_linkage",
    "Ecrs.Props.C154_uniform_parameterized_position",
    "Ecrs.Props.C154_uniform_parameterized_linkage",
    "Ecrs.Props.C154_shuffle_position",
    "Ecrs.Props.C154_shuffle_linkage"
   ],
   "note": "Corollaries of the laws of C134, i.e. for an ideal generator (constructed in Verif/ProbTape.lean). MultiPoint is not included: its parity quirk (C12) leaves no closed form."
  },
  {
   "property": "C155",
   "status": "proved",
   "theorems": [
    "Ecrs.Props.C155_selection",
    "Ecrs.Props.C155_growth",
    "Ecrs.Props.C155_mutation",
    "Ecrs.Props.C155_crossover_pair",
    "Ecrs.Props.C155_crossover",
    "Ecrs.Props.C155_generation"
   ],
   "note": "About Ga.iteration, the loop body of run, for an ideal generator shared by all operators (constructed in Verif/ProbTape.lean); fitness values are real numbers. A generation that panics would count as zero carriers; under the hypotheses none does."
  },
  {
   "property": "C156",
   "status": "proved",
   "theorems": [
    "Ecrs.Ff.C156_too_few_panics",
    "Ecrs.Ff.C156_prefix",
    "Ecrs.Benches.C156_ff_bench",
    "Ecrs.Benches.C156_preset_small_panics",
    "Ecrs.Benches.C156_preset_large_returns",
    "Ecrs.Benches.C156_aco_bench",
    "Ecrs.Benches.C156_aco_small_medium"
   ],
   "note": "Exact real arithmetic; city and firefly constants are the decimal numbers of the source. Criterion is not modelled."
  },
  {
   "property": "C157",
   "status": "proved",
   "theorems": [
    "Ecrs.Ga.C157_nan_selects_nobody",
    "Ecrs.Ga.C157_infinite_takes_all",
    "Ecrs.Ga.C157_overflow_takes_all",
    "Ecrs.Ga.C157_infeasible_fills_pool",
    "Ecrs.Ga.C157_fresh",
    "Ecrs.Ga.C157_no_overflow",
    "Ecrs.Ga.C157_sus_panics",
    "Ecrs.Ga.C157_sus_no_overflow",
    "Ecrs.Ga.C157_almost_surely"
   ],
   "note": "Signed zeros are not distinguished."
  },
  {
   "property": "C158",
   "status": "proved",
   "theorems": [
    "Ecrs.Props.C158_crossover",
    "Ecrs.Props.C158_converged",
    "Ecrs.Props.C158_fixed_locus",
    "Ecrs.Props.C158_takeover"
   ],
   "note": ""
  },
  {
   "property": "C159",
   "status": "proved",
   "theorems": [
    "Ecrs.Props.C159_equality",
    "Ecrs.Props.C159_relation",
    "Ecrs.Props.C159_order",
    "Ecrs.Props.C159_order_trans",
    "Ecrs.Props.C159_fresh_equal",
    "Ecrs.Props.C159_fresh_is_best",
    "Ecrs.Props.C159_new_is_worse",
    "Ecrs.Props.C159_jssp",
    "Ecrs.Props.C159_solution"
   ],
   "note": ""
  },
  {
   "property": "C160",
   "status": "proved",
   "theorems": [
    "Ecrs.RepoTests.C160_selection_tests",
    "Ecrs.RepoTests.C160_crossover_tests",
    "Ecrs.RepoTests.C160_permutation_crossover_tests",
    "Ecrs.RepoTests.C160_mutation_tests",
    "Ecrs.RepoTests.C160_interchange_flaky",
    "Ecrs.RepoTests.C160_population_tests",
    "Ecrs.RepoTests.C160_replacement_tests_vacuous",
    "Ecrs.RepoTests.C160_random_order_vacuous",
    "Ecrs.RepoTests.C160_roulette_test",
    "Ecrs.RepoTests.C160_sus_test",
    "Ecrs.RepoTests.C160_boltzmann_test"
   ],
   "note": "the tests are programs of the model (Verif/RepoTests.lean); the tests without random numbers are closed equations in Props/RepoExamples.lean. RouletteWheel in f64 arithmetic with overflow, SUS in exact arithmetic."
  },
  {
   "property": "C161",
   "status": "proved",
   "theorems": [
    "Ecrs.Ga.C161_box",
    "Ecrs.Ga.C161_unit",
    "Ecrs.Ga.C161_end_reached",
    "Ecrs.Ga.C161_coarse",
    "Ecrs.Ga.C161_whole_line",
    "Ecrs.Ga.C161_no_overflow"
   ],
   "note": "rounding with unbounded exponent (no underflow to subnormal numbers); overflow modelled for the single coordinate. The 2^-52 grid of rand 0.8.5's unit draw is a hypothesis on the generator."
  },
  {
   "property": "C162",
   "status": "proved",
   "theorems": [
    "Ecrs.Props.C162_crossover",
    "Ecrs.Props.C162_binomial",
    "Ecrs.Props.C162_mean",
    "Ecrs.Props.C162_diversity",
    "Ecrs.Props.C162_not_fixed",
    "Ecrs.Props.C162_fixation"
   ],
   "note": "probabilities over an ideal generator shared by all operators (C133 setting)."
  },
  {
   "property": "C163",
   "status": "proved",
   "theorems": [
    "Ecrs.Aco.C163_fitness",
    "Ecrs.Aco.C163_best",
    "Ecrs.Aco.C163_heuristic",
    "Ecrs.Aco.C163_goodness",
    "Ecrs.Aco.C163_step",
    "Ecrs.Aco.C163_tours",
    "Ecrs.Aco.C163_no_trail",
    "Ecrs.Aco.C163_run",
    "Ecrs.Aco.C163_step_chance"
   ],
   "note": "Exact arithmetic; pow only assumed positive on positive numbers and 0 at 0 for beta; f64::MAX positive; the run is Ant System with IterationCond, the step theorem covers both kinds of ants."
  },
  {
   "property": "C164",
   "status": "proved",
   "theorems": [
    "Ecrs.Props.C164_nobody",
    "Ecrs.Props.C164_selected",
    "Ecrs.Props.C164_first",
    "Ecrs.Props.C164_odd",
    "Ecrs.Props.C164_zero_total",
    "Ecrs.Props.C164_pool_empty",
    "Ecrs.Props.C164_pool",
    "Ecrs.Props.C164_checked_returns",
    "Ecrs.Props.C164_checked_selects",
    "Ecrs.Props.C164_signed_first",
    "Ecrs.Props.C164_signed_nobody",
    "Ecrs.Props.C164_generation",
    "Ecrs.Props.C164_run",
    "Ecrs.Props.C164_textbook"
   ],
   "note": "random integers are modelled as uniform numbers below 2^w read in the type; w is arbitrary; a sum of fitness values that itself overflows is not covered by the probability statements"
  },
  {
   "property": "C165",
   "status": "proved",
   "theorems": [
    "Ecrs.Props.C165_reversing_first",
    "Ecrs.Props.C165_reversing_left",
    "Ecrs.Props.C165_reversing_right",
    "Ecrs.Props.C165_reversing_rate_one",
    "Ecrs.Props.C165_inversion_unchanged",
    "Ecrs.Props.C165_inversion_first",
    "Ecrs.Props.C165_inversion_last",
    "Ecrs.Props.C165_inversion_ends",
    "Ecrs.Props.C165_interchange_law",
    "Ecrs.Props.C165_interchange_biased",
    "Ecrs.Props.C165_interchange_pair",
    "Ecrs.Props.C165_interchange_three"
   ],
   "note": "probabilities over an ideal generator (Ideal, an instance of which is constructed); rates in [0,1]; model of the operators as in C134"
  },
  {
   "property": "C166",
   "status": "proved",
   "theorems": [
    "Ecrs.Ff.C166_mean",
    "Ecrs.Ff.C166_default_mean",
    "Ecrs.Ff.C166_up",
    "Ecrs.Ff.C166_walk_mean",
    "Ecrs.Ff.C166_total_drift",
    "Ecrs.Ff.C166_default_drift"
   ],
   "note": "exact real arithmetic (no rounding); the draws are real-valued random variables with the law of gen_range(0.01..0.99) and Standard idealised as Lebesgue measure; generation 0 (division by 0) is C79"
  },
  {
   "property": "C167",
   "status": "proved",
   "theorems": [
    "Ecrs.Csv.C167_cities",
    "Ecrs.Csv.C167_pso",
    "Ecrs.Csv.C167_ff",
    "Ecrs.Csv.C167_aco"
   ],
   "note": "the behaviour of the csv crate (separators, quoting, header with the first record) is written down in Text/Csv.lean; the text of a float is a parameter with the stated round trip; opening and writing the file are taken to succeed"
  },
  {
   "property": "C168",
   "status": "proved",
   "theorems": [
    "Ecrs.Ga.C168_black_box",
    "Ecrs.Ga.C168_per_outcome",
    "Ecrs.Ga.C168_needles",
    "Ecrs.Ga.C168_some_needle",
    "Ecrs.Ga.C168_waiting",
    "Ecrs.Ga.C168_bit_string",
    "Ecrs.Ga.C168_bit_string_waiting",
    "Ecrs.Ga.C168_bit_string_upper",
    "Ecrs.Ga.C168_permutation",
    "Ecrs.Ga.C168_permutation_waiting",
    "Ecrs.Ga.C168_permutation_upper"
   ],
   "note": "the individual type of the per-needle theorems is the shipped Individual (it always asks to be evaluated); the concrete bounds are for the bit-string preset and permutation GAs with the selections of C135; expected waiting time is stated as the sum over k of the probability that a run limited to k generations has not found it"
  },
  {
   "property": "C169",
   "status": "proved",
   "theorems": [
    "Ecrs.Pso.C169_pso",
    "Ecrs.Pso.C169_pso_needles",
    "Ecrs.Pso.C169_pso_chance",
    "Ecrs.Pso.C169_pso_limit",
    "Ecrs.Ff.C169_ff",
    "Ecrs.Ff.C169_ff_needles",
    "Ecrs.Ff.C169_ff_chance"
   ],
   "note": "the probabilistic form assumes that the event 'the set matters' is measurable (always so for finitely many outcomes); draws are oracles fixed before the run, as in all PSO and firefly theorems"
  },
  {
   "property": "C170",
   "status": "proved",
   "theorems": [
    "Ecrs.Csv.C170_pso",
    "Ecrs.Csv.C170_ff",
    "Ecrs.Csv.C170_aco",
    "Ecrs.Csv.C170_lossless",
    "Ecrs.Csv.C170_not_finite"
   ],
   "note": "serde_json's pretty printer is written down as library behaviour (Text/Json); creating and writing the file is taken to succeed"
  },
  {
   "property": "C171",
   "status": "proved",
   "theorems": [
    "Ecrs.Jssp.C171_loads_iff",
    "Ecrs.Jssp.C171_one_reading",
    "Ecrs.Jssp.C171_layout",
    "Ecrs.Jssp.C171_written",
    "Ecrs.Jssp.C171_last_line",
    "Ecrs.Jssp.C171_blank_line_panics",
    "Ecrs.Jssp.C171_second_newline_panics",
    "Ecrs.Jssp.C171_word_panics"
   ],
   "note": "str::lines, str::split_whitespace and str::parse::<usize> are written down as library behaviour; opening and decoding the file is not modelled; where several panics are possible another one may be reported first"
  },
  {
   "property": "C172",
   "status": "proved",
   "theorems": [
    "Ecrs.Jssp.C172_staged",
    "Ecrs.Jssp.C172_solver",
    "Ecrs.Jssp.C172_random_search"
   ],
   "note": "log4rs (target to file, pattern {m}{n}) and serde_json are written down as library behaviour; real numbers for f64, how they are printed and the MD5 hash are parameters; a first run of a new solver and probe (a second run panics: C116)"
  },
  {
   "property": "C173",
   "status": "proved",
   "theorems": [
    "Ecrs.Jssp.C173_solver_rate",
    "Ecrs.Jssp.C173_random_search_rate",
    "Ecrs.Jssp.C173_solver_converges",
    "Ecrs.Jssp.C173_random_search_converges",
    "Ecrs.Jssp.C173_describable_makespan",
    "Ecrs.Jssp.C173_not_the_optimum"
   ],
   "note": "an ideal generator (independent uniform draws of real numbers), real numbers for f64; the time limit does not strike"
  },
  {
   "property": "C174",
   "status": "proved",
   "theorems": [
    "Ecrs.Jssp.C174_total_duration",
    "Ecrs.Jssp.C174_factor",
    "Ecrs.Jssp.C174_one",
    "Ecrs.Jssp.C174_solver",
    "Ecrs.Jssp.C174_random_search",
    "Ecrs.Jssp.C174_factor_two"
   ],
   "note": "the order of priorities is a total preorder and delays behave as in exact arithmetic (Sane, Ordered; proved for real and rational numbers)"
  },
  {
   "property": "C175",
   "status": "proved",
   "theorems": [
    "Ecrs.C175_measurable",
    "Ecrs.Ga.C175_bit_strings",
    "Ecrs.Ga.C175_permutations",
    "Ecrs.Jssp.C175_job_shop_solver",
    "Ecrs.Jssp.C175_job_shop_random_search"
   ],
   "note": "generator ideal (Ideal R mu), as in C135 and C173"
  },
  {
   "property": "C176",
   "status": "proved",
   "theorems": [
    "Ecrs.Ga.C176_ga",
    "Ecrs.Ga.C176_average_waiting",
    "Ecrs.Ga.C176_needle",
    "Ecrs.Pso.C176_pso_generations",
    "Ecrs.Pso.C176_pso_time",
    "Ecrs.Aco.C176_aco_iterations",
    "Ecrs.Aco.C176_aco_time"
   ],
   "note": "the model passes the random state explicitly; real thread_rng runs never start twice from the same state"
  },
  {
   "property": "C177",
   "status": "proved",
   "theorems": [
    "Ecrs.Pso.C177_pso_resumes",
    "Ecrs.Ff.C177_ff_second_run",
    "Ecrs.Ff.C177_ff_forgets",
    "Ecrs.Ga.C177_ga_forgets"
   ],
   "note": "stated for swarms whose termination condition is the generation limit; ant colonies consume their object (run(mut self))"
  },
  {
   "property": "C178",
   "status": "proved",
   "theorems": [
    "Ecrs.Ff.C178_firefly",
    "Ecrs.Props.C178_uniform",
    "Ecrs.Props.C178_uniform_parameterized",
    "Ecrs.Props.C178_shuffle",
    "Ecrs.Props.C178_flip_bit",
    "Ecrs.Props.C178_single_point_depends",
    "Ecrs.Pso.C178_pso",
    "Ecrs.Aco.C178_ant_system",
    "Ecrs.Aco.C178_pheromones",
    "Ecrs.Props.C178_select_random",
    "Ecrs.Props.C178_select_rank_r",
    "Ecrs.Props.C178_select_rank",
    "Ecrs.Props.C178_select_roulette",
    "Ecrs.Props.C178_select_unique",
    "Ecrs.Props.C178_select_tournament"
   ],
   "note": "ants in exact arithmetic; exploiting ants for goodness without ties in a row (ties are broken by hash order)"
  }
 ]
}