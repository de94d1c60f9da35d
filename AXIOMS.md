# Axioms of the property theorems

Generated by `tools/axioms.py` from `#print axioms`.

## (none): 3 theorems

* `Ecrs.Pso.C51_interval_zero_panics`
* `Ecrs.Ff.C87_first_log_late`
* `Ecrs.Aco.C90_two_vertices_double`

## Quot.sound: 1 theorems

* `Ecrs.Jssp.C115_delay_const_ignored`

## propext: 21 theorems

* `Ecrs.Ga.C06_contract_of_individual`
* `Ecrs.Ga.C07_single_individual_nan_sticks`
* `Ecrs.Ga.C13_multi_point_new`
* `Ecrs.Ga.C19_pmx_diverges_on_duplicates`
* `Ecrs.Ga.C25_zero_rate`
* `Ecrs.Ga.C25_interchange_empty_panics`
* `Ecrs.Ga.C28_random_empty`
* `Ecrs.Ga.C28_rank_r_new`
* `Ecrs.Ga.C31_unique_random`
* `Ecrs.Ga.C36_both_parents_and_noop`
* `Ecrs.Ga.C44_registration_order`
* `Ecrs.Aco.C60_overall_best_monotone`
* `Ecrs.Aco.C61_find_best_empty_panics`
* `Ecrs.Aco.C63_empty_panics`
* `Ecrs.Aco.C94_heuristic`
* `Ecrs.Jssp.C101_machine_edges_follow_decoding_order`
* `Ecrs.Jssp.C102_finish_times_do_not_realise_fitness`
* `Ecrs.Ga.C111_discrete_population_reproducible`
* `Ecrs.Jssp.C114_unreadable`
* `Ecrs.Props.C159_order_trans`
* `Ecrs.Ga.C177_ga_forgets`

## Quot.sound, propext: 120 theorems

* `Ecrs.Ga.C05_population_size_constant`
* `Ecrs.Ga.C05_wrong_size_panics`
* `Ecrs.Ga.C07_nan_panics`
* `Ecrs.Ga.C08_rank_selects_worst`
* `Ecrs.Ga.C09_crossover_arity`
* `Ecrs.Ga.C09_crossover_odd_panics`
* `Ecrs.Ga.C10_single_point_truncates`
* `Ecrs.Ga.C11_two_point_panics`
* `Ecrs.Ga.C13_multi_point_panics`
* `Ecrs.Ga.C15_unequal_panics`
* `Ecrs.Ga.C15_seeded_uniform_never_advances`
* `Ecrs.Ga.C17_C19_empty_panics`
* `Ecrs.Ga.C17_C19_C21_unequal_panics`
* `Ecrs.Ga.C24_length_preserved_flip_bit`
* `Ecrs.Ga.C25_identity`
* `Ecrs.Ga.C25_interchange_exchanges`
* `Ecrs.Ga.C26_flip_bit`
* `Ecrs.Ga.C27_inversion_empty`
* `Ecrs.Ga.C28_members`
* `Ecrs.Ga.C28_random`
* `Ecrs.Ga.C28_rank`
* `Ecrs.Ga.C28_rank_r`
* `Ecrs.Ga.C28_unique_random_boltzmann`
* `Ecrs.Ga.C28_boltzmann_new`
* `Ecrs.Ga.C28_rank_r_threshold`
* `Ecrs.Ga.C29_roulette`
* `Ecrs.Ga.C29_zero_weight`
* `Ecrs.Ga.C31_unique_random_panics_iff`
* `Ecrs.Ga.C31_boltzmann`
* `Ecrs.Ga.C32_tournament_new`
* `Ecrs.Ga.C35_weak_parent_members`
* `Ecrs.Ga.C35_weak_parent_panics`
* `Ecrs.Ga.C35_weak_parent_release_panics`
* `Ecrs.Ga.C37_point_generator_mismatch`
* `Ecrs.Ga.C38_bit_strings`
* `Ecrs.Ga.C42_odd_population_panics`
* `Ecrs.Ga.C44_each_probe_sees_everything`
* `Ecrs.Ga.C44_nested`
* `Ecrs.Pso.C45_run_extends_history`
* `Ecrs.Pso.C45_nan_start_is_never_left`
* `Ecrs.Pso.C48_new_panics_iff`
* `Ecrs.Pso.C49_dimension_initial`
* `Ecrs.Ff.C54_population_ignores_setters`
* `Ecrs.Aco.C56_stuck_ant_drops_the_rest`
* `Ecrs.Aco.C59_max_min_update`
* `Ecrs.Aco.C60_overall_best_is_best`
* `Ecrs.Aco.C60_iteration_best`
* `Ecrs.Aco.C61_find_best_max`
* `Ecrs.Aco.C61_iteration_reports_best`
* `Ecrs.Aco.C61_nan_forgets_everything_before`
* `Ecrs.Aco.C63_bounds`
* `Ecrs.Jssp.C64_no_double_booking`
* `Ecrs.Jssp.C65_replacement`
* `Ecrs.Jssp.C65_best_survives`
* `Ecrs.Props.C67_wordmax`
* `Ecrs.Props.C67_wordmax_step`
* `Ecrs.Ga.C68_random_points_repeats`
* `Ecrs.Ga.C70_replacement_receives_population`
* `Ecrs.Ga.C71_elapsed_time_bursts`
* `Ecrs.Pso.C73_time_limit_counts_from_construction`
* `Ecrs.Pso.C77_builder_last_setter_wins`
* `Ecrs.Ff.C81_reported_value_monotone`
* `Ecrs.Ff.C85_longer_panics`
* `Ecrs.Ff.C87_elapsed_time`
* `Ecrs.Ff.C87_spacing`
* `Ecrs.Aco.C88_small_heuristic_panics`
* `Ecrs.Aco.C89_acs_one_vertex`
* `Ecrs.Aco.C92_builder`
* `Ecrs.Aco.C92_missing_panics`
* `Ecrs.Aco.C93_csv_records`
* `Ecrs.Aco.C93_matrix_lines`
* `Ecrs.Aco.C93_json_records`
* `Ecrs.Jssp.C97_reentrant_job_diverges`
* `Ecrs.Ga.C109_time_and_size`
* `Ecrs.Ga.C111_crossover_reproducible`
* `Ecrs.Ga.C111_mutation_reproducible`
* `Ecrs.Ga.C111_selection_reproducible`
* `Ecrs.Ga.C111_run_reproducible`
* `Ecrs.Ga.C113_stdout_behind_policy`
* `Ecrs.Jssp.C114_precedence`
* `Ecrs.Jssp.C114_required`
* `Ecrs.Jssp.C114_launch`
* `Ecrs.Jssp.C114_starts`
* `Ecrs.Jssp.C116_second_run_asserts`
* `Ecrs.Jssp.C117_zero_durations_not_ordered`
* `Ecrs.Ff.C121_last_setter_wins`
* `Ecrs.Props.C125_roulette`
* `Ecrs.Props.C125_absorbed_never_selected`
* `Ecrs.Aco.C126_fitness`
* `Ecrs.Ga.C128_flip_bit`
* `Ecrs.Ga.C128_interchange`
* `Ecrs.Ga.C129_random`
* `Ecrs.Ga.C129_unique_random`
* `Ecrs.Ga.C129_rank`
* `Ecrs.Ga.C129_rank_r`
* `Ecrs.Ga.C129_bit_strings`
* `Ecrs.Ga.C144_phase_times`
* `Ecrs.Ga.C144_unreported_evaluations`
* `Ecrs.Ga.C144_measurements_are_harmless`
* `Ecrs.Ff.C146_distances`
* `Ecrs.Props.C149_locus_operators`
* `Ecrs.Props.C149_permutation_operators`
* `Ecrs.Props.C149_mutations`
* `Ecrs.Props.C149_whole_run`
* `Ecrs.Ff.C156_prefix`
* `Ecrs.Ga.C157_nan_selects_nobody`
* `Ecrs.Ga.C157_infinite_takes_all`
* `Ecrs.Ga.C157_overflow_takes_all`
* `Ecrs.Ga.C157_infeasible_fills_pool`
* `Ecrs.Ga.C157_sus_panics`
* `Ecrs.Props.C159_equality`
* `Ecrs.Props.C159_relation`
* `Ecrs.Ga.C161_whole_line`
* `Ecrs.Aco.C163_heuristic`
* `Ecrs.Csv.C167_cities`
* `Ecrs.Ff.C169_ff`
* `Ecrs.Ga.C176_ga`
* `Ecrs.Aco.C176_aco_iterations`
* `Ecrs.Aco.C176_aco_time`
* `Ecrs.Ff.C178_firefly`

## Classical.choice, Quot.sound, propext: 747 theorems

* `Ecrs.Ga.C01_result_is_best`
* `Ecrs.Ga.C01_result_le_all`
* `Ecrs.Ga.C02_new_best_strictly_improves`
* `Ecrs.Ga.C03_callback_protocol`
* `Ecrs.Ga.C04_iteration_budget`
* `Ecrs.Ga.C04_zero_duration_runs_once`
* `Ecrs.Ga.C06_fitness_is_fresh`
* `Ecrs.Ga.C07_no_nan_survives`
* `Ecrs.Ga.C07_lone_nan_is_returned`
* `Ecrs.Ga.C08_weak_parent_any_family`
* `Ecrs.Ga.C08_weak_parent_drops_minimum`
* `Ecrs.Ga.C08_tournament_selects_worst`
* `Ecrs.Ga.C10_single_point`
* `Ecrs.Ga.C10_single_point_panics`
* `Ecrs.Ga.C11_two_point`
* `Ecrs.Ga.C12_multi_point_operator`
* `Ecrs.Ga.C12_multi_point_alternates_odd`
* `Ecrs.Ga.C12_multi_point_even_first_cut`
* `Ecrs.Ga.C12_single_even_cut_copies_parents`
* `Ecrs.Ga.C13_multi_point_complementary`
* `Ecrs.Ga.C14_fixed_point`
* `Ecrs.Ga.C14_fixed_point_deterministic`
* `Ecrs.Ga.C15_uniform`
* `Ecrs.Ga.C15_uniform_parameterized`
* `Ecrs.Ga.C15_bias_extremes`
* `Ecrs.Ga.C16_shuffle`
* `Ecrs.Ga.C16_shuffle_exact_count`
* `Ecrs.Ga.C17_ordered_permutation`
* `Ecrs.Ga.C18_ordered_segment_and_order`
* `Ecrs.Ga.C19_pmx_permutation`
* `Ecrs.Ga.C19_pmx_fuel_irrelevant`
* `Ecrs.Ga.C20_pmx_mapping`
* `Ecrs.Ga.C20_pmx_child_unique`
* `Ecrs.Ga.C21_ppx_permutation`
* `Ecrs.Ga.C22_ppx_precedence`
* `Ecrs.Ga.C23_gene_conservation`
* `Ecrs.Ga.C24_length_preserved`
* `Ecrs.Ga.C25_reordering_mutations`
* `Ecrs.Ga.C25_reordering_mutations_return`
* `Ecrs.Ga.C25_permutations_stay_permutations`
* `Ecrs.Ga.C25_reversing_full_rate`
* `Ecrs.Ga.C26_extreme_rates`
* `Ecrs.Ga.C27_inversion`
* `Ecrs.Ga.C27_inversion_rate`
* `Ecrs.Ga.C28_tournament`
* `Ecrs.Ga.C29_roulette_exact_count`
* `Ecrs.Ga.C30_roulette_negative_selects_nothing`
* `Ecrs.Ga.C30_roulette_zero_draw_selects_nothing`
* `Ecrs.Ga.C30_spin_selects_iff`
* `Ecrs.Ga.C30_exact_count_iff`
* `Ecrs.Ga.C32_tournament`
* `Ecrs.Ga.C32_full_tournament`
* `Ecrs.Ga.C32_tournament_empty`
* `Ecrs.Ga.C33_sus_proportional`
* `Ecrs.Ga.C34_sus_no_panic`
* `Ecrs.Ga.C34_sus_panics_on_zero_draw`
* `Ecrs.Ga.C34_sus_panics_on_zero_total`
* `Ecrs.Ga.C34_sus_returns_iff`
* `Ecrs.Ga.C35_weak_parent`
* `Ecrs.Ga.C35_weak_parent_release`
* `Ecrs.Ga.C37_point_generator`
* `Ecrs.Ga.C37_random_points_new`
* `Ecrs.Ga.C37_random_points`
* `Ecrs.Ga.C37_random_points_unit`
* `Ecrs.Ga.C38_random_permutations`
* `Ecrs.Ga.C39_permutation_ga`
* `Ecrs.Ga.C39_only_permutations_evaluated`
* `Ecrs.Ga.C39_permutation_ga_returns`
* `Ecrs.Ga.C40_build_success`
* `Ecrs.Ga.C40_build_error`
* `Ecrs.Ga.C40_build_order_irrelevant`
* `Ecrs.Ga.C40_preset_build`
* `Ecrs.Ga.C41_real_valued_built`
* `Ecrs.Ga.C41_real_valued_preset`
* `Ecrs.Ga.C41_bit_string_preset`
* `Ecrs.Ga.C43_generation_interval`
* `Ecrs.Pso.C45_swarm_best`
* `Ecrs.Pso.C45_particle_best`
* `Ecrs.Pso.C46_best_never_worsens`
* `Ecrs.Pso.C47_velocities_schedule_independent`
* `Ecrs.Pso.C47_positions_schedule_independent`
* `Ecrs.Pso.C48_callbacks`
* `Ecrs.Pso.C48_generation_limit`
* `Ecrs.Pso.C49_dimension_invariant`
* `Ecrs.Pso.C49_initial_bounds`
* `Ecrs.Pso.C50_particles_can_leave_the_bounds`
* `Ecrs.Pso.C50_stays_without_inertia`
* `Ecrs.Pso.C51_generation_interval`
* `Ecrs.Pso.C51_elapsed_time`
* `Ecrs.Ff.C52_positions_in_box`
* `Ecrs.Ff.C52_shape`
* `Ecrs.Ff.C53_reported_best`
* `Ecrs.Ff.C53_negative_objective`
* `Ecrs.Ff.C53_position_not_value`
* `Ecrs.Ff.C54_larger_population_panics`
* `Ecrs.Ff.C54_example`
* `Ecrs.Aco.C55_ant_system_tours`
* `Ecrs.Aco.C56_ant_system_complete`
* `Ecrs.Aco.C57_elitist_history`
* `Ecrs.Aco.C57_max_min_history`
* `Ecrs.Aco.C57_acs_history`
* `Ecrs.Aco.C57_ant_system_symmetric`
* `Ecrs.Aco.C57_elitist_symmetric`
* `Ecrs.Aco.C57_max_min_symmetric`
* `Ecrs.Aco.C57_acs_symmetric`
* `Ecrs.Aco.C57_ant_system_history`
* `Ecrs.Aco.C57_local_update_breaks_symmetry`
* `Ecrs.Aco.C58_elitist_history`
* `Ecrs.Aco.C58_acs_history`
* `Ecrs.Aco.C58_max_min_nonneg`
* `Ecrs.Aco.C58_max_min_history`
* `Ecrs.Aco.C58_ant_system_nonneg`
* `Ecrs.Aco.C58_elitist_acs_nonneg`
* `Ecrs.Aco.C58_ant_system_history`
* `Ecrs.Aco.C59_max_min_history`
* `Ecrs.Aco.C59_max_min_upper`
* `Ecrs.Aco.C59_lower_bound_violated`
* `Ecrs.Aco.C61_nan_hides_best`
* `Ecrs.Aco.C61_run_iterations`
* `Ecrs.Aco.C61_run_time`
* `Ecrs.Aco.C62_fitness_is_inverse_length`
* `Ecrs.Aco.C62_rotation`
* `Ecrs.Aco.C62_reversal`
* `Ecrs.Aco.C62_fitter_iff_shorter`
* `Ecrs.Aco.C62_one_vertex_infinite`
* `Ecrs.Aco.C63_partition`
* `Ecrs.Aco.C63_every_solution_once`
* `Ecrs.Aco.C63_pointwise`
* `Ecrs.Aco.C63_graded_parts`
* `Ecrs.Aco.C63_equal_fitness_all_worst`
* `Ecrs.Jssp.C64_query_exact`
* `Ecrs.Jssp.C65_replacement_panics`
* `Ecrs.Jssp.C65_generations_never_worsen`
* `Ecrs.Jssp.C66_construction_feasible`
* `Ecrs.Jssp.C66_evaluated_feasible`
* `Ecrs.Props.C67_sphere`
* `Ecrs.Props.C67_sphere_unique`
* `Ecrs.Props.C67_ackley`
* `Ecrs.Props.C67_alpine`
* `Ecrs.Props.C67_brown`
* `Ecrs.Props.C67_chung_reynolds`
* `Ecrs.Props.C67_griewank`
* `Ecrs.Props.C67_levy`
* `Ecrs.Props.C67_powell_sum`
* `Ecrs.Props.C67_sum_of_powers`
* `Ecrs.Props.C67_sum_squares`
* `Ecrs.Props.C67_zakharov`
* `Ecrs.Props.C67_schumer_steiglitz`
* `Ecrs.Props.C67_qing`
* `Ecrs.Props.C67_quintic`
* `Ecrs.Props.C67_rastrigin`
* `Ecrs.Props.C67_rosenbrock`
* `Ecrs.Props.C67_rotated_hyper_ellipsoid`
* `Ecrs.Props.C67_trigonometric1`
* `Ecrs.Props.C67_xin_she_yang_2`
* `Ecrs.Props.C67_pathological`
* `Ecrs.Props.C67_powell2`
* `Ecrs.Props.C67_powell`
* `Ecrs.Props.C67_trid`
* `Ecrs.Props.C67_dixon_price`
* `Ecrs.Props.C67_styblinski_tang`
* `Ecrs.Props.C67_styblinski_tang_decimals`
* `Ecrs.Props.C67_beale`
* `Ecrs.Props.C67_booth`
* `Ecrs.Props.C67_bukin_4`
* `Ecrs.Props.C67_bukin_n6`
* `Ecrs.Props.C67_three_hump_camel`
* `Ecrs.Props.C67_colville`
* `Ecrs.Props.C67_freudenstein_roth`
* `Ecrs.Props.C67_goldstein_price`
* `Ecrs.Props.C67_himmelblau`
* `Ecrs.Props.C67_leon`
* `Ecrs.Props.C67_matyas`
* `Ecrs.Props.C67_price1`
* `Ecrs.Props.C67_price4`
* `Ecrs.Props.C67_rotated_ellipse`
* `Ecrs.Props.C67_rotated_ellipse2`
* `Ecrs.Props.C67_zettl`
* `Ecrs.Props.C67_zirilli`
* `Ecrs.Props.C67_bohachevsky_n1`
* `Ecrs.Props.C67_bohachevsky_n2`
* `Ecrs.Props.C67_bohachevsky_n3`
* `Ecrs.Props.C67_drop_wave`
* `Ecrs.Props.C67_easom`
* `Ecrs.Props.C67_levy_n13`
* `Ecrs.Props.C67_miele_cantrell`
* `Ecrs.Props.C67_periodic`
* `Ecrs.Props.C67_price2`
* `Ecrs.Props.C67_schaffer_n1`
* `Ecrs.Props.C67_schaffer_n2`
* `Ecrs.Props.C67_hosaki`
* `Ecrs.Ga.C69_unit_cube`
* `Ecrs.Ga.C69_no_new_gene_values`
* `Ecrs.Ga.C70_families_are_not_aligned`
* `Ecrs.Ga.C71_elapsed_time`
* `Ecrs.Ga.C71_rate_bound`
* `Ecrs.Ga.C72_first_run_starts_at_zero`
* `Ecrs.Ga.C72_second_run_is_stale`
* `Ecrs.Ga.C72_rerun_is_a_fresh_run`
* `Ecrs.Pso.C73_not_timed_from_run_start`
* `Ecrs.Pso.C74_records`
* `Ecrs.Pso.C75_converged_is_fixed`
* `Ecrs.Pso.C76_print_vector`
* `Ecrs.Pso.C77_built_shape`
* `Ecrs.Ff.C78_bounds_test`
* `Ecrs.Ff.C78_upper_bound_teleports`
* `Ecrs.Ff.C78_run_teleports`
* `Ecrs.Ff.C78_lone_firefly_teleports`
* `Ecrs.Ff.C79_generation_zero_jump`
* `Ecrs.Ff.C79_zero_alfa_nan`
* `Ecrs.Ff.C80_callbacks`
* `Ecrs.Ff.C80_run_returns`
* `Ecrs.Ff.C82_generation_interval`
* `Ecrs.Ff.C83_records`
* `Ecrs.Ff.C84_attracted_by_better`
* `Ecrs.Ff.C84_negative_attracted_by_worse`
* `Ecrs.Ff.C84_all_signs`
* `Ecrs.Ff.C85_taxi`
* `Ecrs.Ff.C85_cartesian`
* `Ecrs.Ff.C85_taxi_metric`
* `Ecrs.Ff.C85_infinite`
* `Ecrs.Ff.C86_last_brighter_wins`
* `Ecrs.Ff.C86_brightest_walks`
* `Ecrs.Ff.C87_logged_iff`
* `Ecrs.Aco.C88_goodness_entries`
* `Ecrs.Aco.C88_goodness_positive`
* `Ecrs.Aco.C89_acs_complete`
* `Ecrs.Aco.C89_acs_returns_non_tour`
* `Ecrs.Aco.C89_acs_paths`
* `Ecrs.Aco.C90_ant_system_formula`
* `Ecrs.Aco.C90_elitist_formula`
* `Ecrs.Aco.C90_acs_formula`
* `Ecrs.Aco.C90_tour_uses_once`
* `Ecrs.Aco.C90_two_vertices_every_tour`
* `Ecrs.Aco.C91_ant_system_run`
* `Ecrs.Aco.C91_acs_run`
* `Ecrs.Aco.C91_acs_one_city_panics`
* `Ecrs.Aco.C94_tsp_cost`
* `Ecrs.Aco.C94_heuristic_positive`
* `Ecrs.Aco.C94_zero_diagonal`
* `Ecrs.Aco.C94_euclidean`
* `Ecrs.Jssp.C95_fitness_is_a_makespan`
* `Ecrs.Jssp.C96_history_independent`
* `Ecrs.Jssp.C97_evaluation_returns`
* `Ecrs.Jssp.C97_zero_duration_diverges`
* `Ecrs.Jssp.C98_lower_bounds`
* `Ecrs.Jssp.C99_reset_leaves_no_machine_edge`
* `Ecrs.Jssp.C100_loading`
* `Ecrs.Jssp.C100_empty_job_panics`
* `Ecrs.Jssp.C101_machine_edges`
* `Ecrs.Jssp.C102_finish_times`
* `Ecrs.Jssp.C103_solver_run`
* `Ecrs.Jssp.C103_odd_population_panics`
* `Ecrs.Jssp.C103_small_population_panics`
* `Ecrs.Jssp.C104_noop`
* `Ecrs.Jssp.C104_probability`
* `Ecrs.Jssp.C104_gene_exchanged`
* `Ecrs.Jssp.C104_crossover`
* `Ecrs.Jssp.C105_random_search_run`
* `Ecrs.Props.C106_two_dimensional`
* `Ecrs.Props.C106_branin`
* `Ecrs.Props.C106_giunta`
* `Ecrs.Props.C106_fixed_dimension`
* `Ecrs.Props.C106_wolfe`
* `Ecrs.Props.C106_nonempty`
* `Ecrs.Props.C106_any_dimension`
* `Ecrs.Props.C106_at_least_two`
* `Ecrs.Props.C106_bartels_conn`
* `Ecrs.Props.C106_powell`
* `Ecrs.Props.C106_unguarded`
* `Ecrs.Props.C106_pathological_ignores_ends`
* `Ecrs.Props.C106_alpine2`
* `Ecrs.Props.C106_csendes`
* `Ecrs.Props.C106_deb1`
* `Ecrs.Props.C106_deb3`
* `Ecrs.Props.C106_keane`
* `Ecrs.Props.C106_paviani`
* `Ecrs.Props.C106_pen_holder`
* `Ecrs.Props.C106_ripple`
* `Ecrs.Props.C106_brad`
* `Ecrs.Props.C106_devilliers_glasser2`
* `Ecrs.Props.C106_vss`
* `Ecrs.Props.C106_powell2`
* `Ecrs.Props.C106_power_sum_qing`
* `Ecrs.Props.C106_gulf_research`
* `Ecrs.Props.C107_ackley3`
* `Ecrs.Props.C107_alpine2`
* `Ecrs.Props.C107_brad`
* `Ecrs.Props.C107_biggs`
* `Ecrs.Props.C107_bohachevsky`
* `Ecrs.Props.C107_box_betts`
* `Ecrs.Props.C107_branin_rcos`
* `Ecrs.Props.C107_branin_default`
* `Ecrs.Props.C107_branin_rcos2`
* `Ecrs.Props.C107_brent`
* `Ecrs.Props.C107_bukin_2`
* `Ecrs.Props.C107_six_hump_camel`
* `Ecrs.Props.C107_chen_bird`
* `Ecrs.Props.C107_chen_v`
* `Ecrs.Props.C107_cosine_mixture`
* `Ecrs.Props.C107_csendes`
* `Ecrs.Props.C107_cube`
* `Ecrs.Props.C107_damavandi`
* `Ecrs.Props.C107_deb1`
* `Ecrs.Props.C107_deb3`
* `Ecrs.Props.C107_deckkers_aarts`
* `Ecrs.Props.C107_dolan`
* `Ecrs.Props.C107_eavd`
* `Ecrs.Props.C107_egg_crate`
* `Ecrs.Props.C107_exponential`
* `Ecrs.Props.C107_exp2`
* `Ecrs.Props.C107_giunta`
* `Ecrs.Props.C107_hosaki`
* `Ecrs.Props.C107_adijman`
* `Ecrs.Props.C107_mcormick`
* `Ecrs.Props.C107_schwefel`
* `Ecrs.Props.C107_eggholder`
* `Ecrs.Props.C107_holder_table`
* `Ecrs.Props.C107_keane`
* `Ecrs.Props.C107_paviani`
* `Ecrs.Props.C107_paviani_returns`
* `Ecrs.Props.C107_power_sum`
* `Ecrs.Props.C107_price3`
* `Ecrs.Props.C107_quadratic`
* `Ecrs.Props.C107_rosenbrock_modified`
* `Ecrs.Props.C107_rump`
* `Ecrs.Props.C107_schmidt_vetters`
* `Ecrs.Props.C107_testtube_holder`
* `Ecrs.Props.C107_trecanni`
* `Ecrs.Props.C107_trigonometric2`
* `Ecrs.Props.C107_wayburn_seader1`
* `Ecrs.Props.C107_wayburn_seader2`
* `Ecrs.Props.C107_wolfe`
* `Ecrs.Props.C107_gulf_research`
* `Ecrs.Props.C107_wayburn_seader3`
* `Ecrs.Props.C107_forrester_et_al`
* `Ecrs.Props.C107_devilliers_glasser2`
* `Ecrs.Props.C107_holder_table3`
* `Ecrs.Props.C107_cross_in_tray`
* `Ecrs.Props.C107_vss`
* `Ecrs.Props.C107_pen_holder`
* `Ecrs.Props.C107_bartels_conn`
* `Ecrs.Props.C107_chichinadze`
* `Ecrs.Props.C107_michalewicz`
* `Ecrs.Props.C108_devilliers_glasser1`
* `Ecrs.Props.C108_de_jong_n5`
* `Ecrs.Props.C108_hartmann`
* `Ecrs.Props.C108_shekel`
* `Ecrs.Props.C108_pinter`
* `Ecrs.Props.C108_rana`
* `Ecrs.Props.C108_stretched_v_sine_wave`
* `Ecrs.Props.C108_trid10`
* `Ecrs.Props.C108_langermann`
* `Ecrs.Props.C108_ackley2`
* `Ecrs.Props.C108_perm`
* `Ecrs.Ga.C109_generation_numbers`
* `Ecrs.Ga.C110_evaluation_count`
* `Ecrs.Ga.C111_interchange_not_reproducible`
* `Ecrs.Ga.C112_box`
* `Ecrs.Ga.C112_cube`
* `Ecrs.Ga.C112_never_evaluated_outside`
* `Ecrs.Ga.C112_returns`
* `Ecrs.Ga.C112_leaves_box`
* `Ecrs.Ga.C113_stdout_log`
* `Ecrs.Jssp.C116_mean_distance`
* `Ecrs.Jssp.C116_nonneg_and_zero`
* `Ecrs.Jssp.C116_order_irrelevant`
* `Ecrs.Jssp.C116_bound`
* `Ecrs.Jssp.C116_degenerate`
* `Ecrs.Jssp.C117_string_injective`
* `Ecrs.Jssp.C117_solution_string`
* `Ecrs.Jssp.C117_jobs_in_order`
* `Ecrs.Jssp.C117_machines_in_order`
* `Ecrs.Jssp.C117_run`
* `Ecrs.Ga.C118_best_of_generation`
* `Ecrs.Pso.C119_movement`
* `Ecrs.Pso.C119_step_bound`
* `Ecrs.Ff.C120_states`
* `Ecrs.Ff.C120_decay`
* `Ecrs.Props.C122_trefethen`
* `Ecrs.Props.C122_jennrich_sampson`
* `Ecrs.Props.C122_bird`
* `Ecrs.Props.C122_shubert`
* `Ecrs.Props.C122_shubert_periodic`
* `Ecrs.Props.C122_schaffer_n4`
* `Ecrs.Jssp.C123_decoding`
* `Ecrs.Jssp.C124_local_optimum`
* `Ecrs.Props.C125_roulette_count`
* `Ecrs.Props.C125_sus_returns_iff`
* `Ecrs.Props.C125_sus_panics`
* `Ecrs.Props.C125_sus_result`
* `Ecrs.Props.C125_sus_collects_too_many`
* `Ecrs.Props.C125_sus_collects_too_few`
* `Ecrs.Props.C125_roulette_ignores_small`
* `Ecrs.Aco.C126_stuck_draw`
* `Ecrs.Aco.C126_last_step`
* `Ecrs.Aco.C126_stuck_only_near_end`
* `Ecrs.Aco.C126_acs_tours`
* `Ecrs.Aco.C126_length_error`
* `Ecrs.Aco.C126_fitter_if_clearly_shorter`
* `Ecrs.Aco.C126_pheromone_nonneg`
* `Ecrs.Aco.C126_max_min_upper`
* `Ecrs.Aco.C126_local_update_nonneg`
* `Ecrs.Aco.C126_ant_gets_stuck`
* `Ecrs.Aco.C126_ant_system_panics`
* `Ecrs.Aco.C126_rotation_changes_fitness`
* `Ecrs.Ga.C127_single_point`
* `Ecrs.Ga.C127_two_point`
* `Ecrs.Ga.C127_multi_point`
* `Ecrs.Ga.C127_shuffle`
* `Ecrs.Ga.C127_uniform_pair`
* `Ecrs.Ga.C127_uniform`
* `Ecrs.Ga.C127_ordered`
* `Ecrs.Ga.C127_pmx`
* `Ecrs.Ga.C127_ppx`
* `Ecrs.Ga.C127_pmx_pairs`
* `Ecrs.Ga.C128_reversing`
* `Ecrs.Ga.C128_reversing_cannot_reverse`
* `Ecrs.Ga.C128_inversion`
* `Ecrs.Ga.C129_tournament`
* `Ecrs.Ga.C129_roulette`
* `Ecrs.Ga.C129_random_permutations`
* `Ecrs.Ga.C129_random_points`
* `Ecrs.Ga.C130_bit_string_histories`
* `Ecrs.Ga.C130_optimum_in_reach`
* `Ecrs.Ga.C130_permutation_histories`
* `Ecrs.Aco.C131_ant_system_tours`
* `Ecrs.Aco.C131_acs_tours`
* `Ecrs.Aco.C131_ant_system_histories`
* `Ecrs.Aco.C131_ant_system_reports`
* `Ecrs.Aco.C131_acs_histories`
* `Ecrs.Aco.C131_no_goodness_no_move`
* `Ecrs.Props.C132_order_free_sums`
* `Ecrs.Props.C132_order_free_qing`
* `Ecrs.Props.C132_order_free_guarded`
* `Ecrs.Props.C132_order_free_trapping`
* `Ecrs.Props.C132_order_free_two`
* `Ecrs.Props.C132_sign_free_sums`
* `Ecrs.Props.C132_sign_free_qing`
* `Ecrs.Props.C132_sign_free_guarded`
* `Ecrs.Props.C132_sign_free_two`
* `Ecrs.Props.C132_mirror_free`
* `Ecrs.Props.C132_mirror_free_zakharov`
* `Ecrs.Props.C132_periods`
* `Ecrs.Props.C133_random`
* `Ecrs.Props.C133_rank`
* `Ecrs.Props.C133_rank_r`
* `Ecrs.Props.C133_roulette`
* `Ecrs.Props.C133_unique_random`
* `Ecrs.Props.C133_tournament`
* `Ecrs.Props.C133_rank_any_fitness`
* `Ecrs.Props.C133_rank_nan`
* `Ecrs.Props.C134_flip_bit`
* `Ecrs.Props.C134_interchange`
* `Ecrs.Props.C134_inversion`
* `Ecrs.Props.C134_reversing`
* `Ecrs.Props.C134_single_point`
* `Ecrs.Props.C134_two_point`
* `Ecrs.Props.C134_uniform`
* `Ecrs.Props.C134_uniform_parameterized`
* `Ecrs.Props.C134_shuffle`
* `Ecrs.Props.C134_multi_point`
* `Ecrs.Props.C134_ordered`
* `Ecrs.Props.C134_pmx`
* `Ecrs.Props.C134_ppx`
* `Ecrs.Props.C134_bit_strings`
* `Ecrs.Props.C134_random_permutations`
* `Ecrs.Ga.C135_bit_string_rate`
* `Ecrs.Ga.C135_bit_string_converges`
* `Ecrs.Ga.C135_permutation_rate`
* `Ecrs.Ga.C135_permutation_converges`
* `Ecrs.Aco.C136_next_vertex`
* `Ecrs.Aco.C136_next_vertex_exploiting`
* `Ecrs.Aco.C136_ant_system_refines`
* `Ecrs.Aco.C136_first_vertex`
* `Ecrs.Aco.C136_tour`
* `Ecrs.Aco.C136_ant_system`
* `Ecrs.Aco.C136_missed`
* `Ecrs.Aco.C136_tour_bound`
* `Ecrs.Aco.C136_acs_step`
* `Ecrs.Aco.C136_acs_refines`
* `Ecrs.Aco.C137_stagnation`
* `Ecrs.Aco.C137_never_shortest`
* `Ecrs.Aco.C137_refines`
* `Ecrs.C138_weighted_sample`
* `Ecrs.C138_temperature`
* `Ecrs.C138_cooling`
* `Ecrs.C138_panics`
* `Ecrs.C138_whole_population`
* `Ecrs.C138_law`
* `Ecrs.C138_small_fitness`
* `Ecrs.C138_takes_the_best`
* `Ecrs.C138_refines`
* `Ecrs.Ga.C139_bsc`
* `Ecrs.Ga.C139_bsc_limit`
* `Ecrs.Ga.C139_rvc`
* `Ecrs.Ga.C139_ackley`
* `Ecrs.Ga.C139_boltzmann_returns`
* `Ecrs.Ga.C139_ga`
* `Ecrs.Ga.C140_gene_values`
* `Ecrs.Ga.C140_no_convergence`
* `Ecrs.Ga.C140_never_exact`
* `Ecrs.Ga.C140_sphere`
* `Ecrs.Ga.C140_ga`
* `Ecrs.Coco.C141_random_search`
* `Ecrs.Coco.C141_ga_search`
* `Ecrs.Coco.C141_ga_overspends`
* `Ecrs.Coco.C141_ga_in_box`
* `Ecrs.Coco.C141_experiment`
* `Ecrs.Coco.C141_rejects`
* `Ecrs.Ff.C142_initial_population_forgotten`
* `Ecrs.Ff.C142_ff`
* `Ecrs.Ff.C142_ff_forgets`
* `Ecrs.Ff.C142_ff_logging`
* `Ecrs.Pso.C142_pso`
* `Ecrs.Ff.C143_cooling`
* `Ecrs.Ff.C143_default`
* `Ecrs.Ga.C144_new_solver`
* `Ecrs.Ga.C144_iteration_time_is_previous`
* `Ecrs.Ff.C145_firefly`
* `Ecrs.Ga.C145_permutations`
* `Ecrs.Ga.C145_points`
* `Ecrs.Ga.C145_bit_strings`
* `Ecrs.Ga.C145_roulette_scale`
* `Ecrs.Ga.C145_roulette_shift`
* `Ecrs.Pso.C145_pso`
* `Ecrs.Ff.C146_firefly`
* `Ecrs.Ff.C146_firefly_walk_ignores_box`
* `Ecrs.Pso.C146_pso`
* `Ecrs.Props.C147_firefly_rastrigin`
* `Ecrs.Props.C147_any_dimension`
* `Ecrs.Props.C147_nonempty`
* `Ecrs.Props.C147_chains`
* `Ecrs.Props.C147_plane`
* `Ecrs.Props.C147_other_dimensions`
* `Ecrs.Props.C147_where_defined`
* `Ecrs.Props.C147_plane_errors`
* `Ecrs.Props.C147_plane_errors_matter`
* `Ecrs.Props.C147_branin_constants`
* `Ecrs.Props.C147_space_errors`
* `Ecrs.Props.C147_more_errors`
* `Ecrs.Props.C147_sum_errors`
* `Ecrs.Props.C147_sum_errors_matter`
* `Ecrs.Props.C147_deb_errors`
* `Ecrs.Props.C147_numbering_errors`
* `Ecrs.Props.C147_window_errors`
* `Ecrs.Props.C147_sargan`
* `Ecrs.Props.C147_product_errors`
* `Ecrs.Props.C147_fit_errors`
* `Ecrs.Props.C147_sum_formula_errors`
* `Ecrs.Props.C147_powell_errors`
* `Ecrs.Props.C147_brad`
* `Ecrs.Props.C147_misplaced_operations`
* `Ecrs.Props.C147_devilliers_glasser2`
* `Ecrs.Props.C147_devilliers_glasser2_minimum`
* `Ecrs.Props.C147_biggs56`
* `Ecrs.Props.C147_ripple`
* `Ecrs.Props.C147_ripple1_unbounded`
* `Ecrs.Props.C147_langermann`
* `Ecrs.Ff.C148_firefly_console`
* `Ecrs.Pso.C148_swarm_console`
* `Ecrs.Pso.C148_swarm_console_interval`
* `Ecrs.Aco.C148_ant_console`
* `Ecrs.Jssp.C150_first_operations_first`
* `Ecrs.Jssp.C150_unreachable_optimum`
* `Ecrs.Jssp.C150_run`
* `Ecrs.Aco.C151_rates`
* `Ecrs.Aco.C151_bounds`
* `Ecrs.Ga.C152_sus_unbiased`
* `Ecrs.Ga.C152_sus_missed`
* `Ecrs.Props.C153_mean`
* `Ecrs.Props.C153_settles`
* `Ecrs.Props.C153_bounded`
* `Ecrs.Props.C153_spreads`
* `Ecrs.Props.C153_default`
* `Ecrs.Props.C154_single_point_position`
* `Ecrs.Props.C154_single_point_linkage`
* `Ecrs.Props.C154_two_point_position`
* `Ecrs.Props.C154_two_point_linkage`
* `Ecrs.Props.C154_uniform_position`
* `Ecrs.Props.C154_uniform_linkage`
* `Ecrs.Props.C154_uniform_parameterized_position`
* `Ecrs.Props.C154_uniform_parameterized_linkage`
* `Ecrs.Props.C154_shuffle_position`
* `Ecrs.Props.C154_shuffle_linkage`
* `Ecrs.Props.C155_selection`
* `Ecrs.Props.C155_growth`
* `Ecrs.Props.C155_mutation`
* `Ecrs.Props.C155_crossover_pair`
* `Ecrs.Props.C155_crossover`
* `Ecrs.Props.C155_generation`
* `Ecrs.Ff.C156_too_few_panics`
* `Ecrs.Benches.C156_ff_bench`
* `Ecrs.Benches.C156_preset_small_panics`
* `Ecrs.Benches.C156_preset_large_returns`
* `Ecrs.Benches.C156_aco_bench`
* `Ecrs.Benches.C156_aco_small_medium`
* `Ecrs.Ga.C157_fresh`
* `Ecrs.Ga.C157_no_overflow`
* `Ecrs.Ga.C157_sus_no_overflow`
* `Ecrs.Ga.C157_almost_surely`
* `Ecrs.Props.C158_crossover`
* `Ecrs.Props.C158_converged`
* `Ecrs.Props.C158_fixed_locus`
* `Ecrs.Props.C158_takeover`
* `Ecrs.Props.C159_order`
* `Ecrs.Props.C159_fresh_equal`
* `Ecrs.Props.C159_fresh_is_best`
* `Ecrs.Props.C159_new_is_worse`
* `Ecrs.Props.C159_jssp`
* `Ecrs.Props.C159_solution`
* `Ecrs.RepoTests.C160_selection_tests`
* `Ecrs.RepoTests.C160_crossover_tests`
* `Ecrs.RepoTests.C160_permutation_crossover_tests`
* `Ecrs.RepoTests.C160_mutation_tests`
* `Ecrs.RepoTests.C160_interchange_flaky`
* `Ecrs.RepoTests.C160_population_tests`
* `Ecrs.RepoTests.C160_replacement_tests_vacuous`
* `Ecrs.RepoTests.C160_random_order_vacuous`
* `Ecrs.RepoTests.C160_roulette_test`
* `Ecrs.RepoTests.C160_sus_test`
* `Ecrs.RepoTests.C160_boltzmann_test`
* `Ecrs.Ga.C161_box`
* `Ecrs.Ga.C161_unit`
* `Ecrs.Ga.C161_end_reached`
* `Ecrs.Ga.C161_coarse`
* `Ecrs.Ga.C161_no_overflow`
* `Ecrs.Props.C162_crossover`
* `Ecrs.Props.C162_binomial`
* `Ecrs.Props.C162_mean`
* `Ecrs.Props.C162_diversity`
* `Ecrs.Props.C162_not_fixed`
* `Ecrs.Props.C162_fixation`
* `Ecrs.Aco.C163_fitness`
* `Ecrs.Aco.C163_best`
* `Ecrs.Aco.C163_goodness`
* `Ecrs.Aco.C163_step`
* `Ecrs.Aco.C163_tours`
* `Ecrs.Aco.C163_no_trail`
* `Ecrs.Aco.C163_run`
* `Ecrs.Aco.C163_step_chance`
* `Ecrs.Props.C164_nobody`
* `Ecrs.Props.C164_selected`
* `Ecrs.Props.C164_first`
* `Ecrs.Props.C164_odd`
* `Ecrs.Props.C164_zero_total`
* `Ecrs.Props.C164_pool_empty`
* `Ecrs.Props.C164_pool`
* `Ecrs.Props.C164_checked_returns`
* `Ecrs.Props.C164_checked_selects`
* `Ecrs.Props.C164_signed_first`
* `Ecrs.Props.C164_signed_nobody`
* `Ecrs.Props.C164_generation`
* `Ecrs.Props.C164_run`
* `Ecrs.Props.C164_textbook`
* `Ecrs.Props.C165_reversing_first`
* `Ecrs.Props.C165_reversing_left`
* `Ecrs.Props.C165_reversing_right`
* `Ecrs.Props.C165_reversing_rate_one`
* `Ecrs.Props.C165_inversion_unchanged`
* `Ecrs.Props.C165_inversion_first`
* `Ecrs.Props.C165_inversion_last`
* `Ecrs.Props.C165_inversion_ends`
* `Ecrs.Props.C165_interchange_law`
* `Ecrs.Props.C165_interchange_biased`
* `Ecrs.Props.C165_interchange_pair`
* `Ecrs.Props.C165_interchange_three`
* `Ecrs.Ff.C166_mean`
* `Ecrs.Ff.C166_default_mean`
* `Ecrs.Ff.C166_up`
* `Ecrs.Ff.C166_walk_mean`
* `Ecrs.Ff.C166_total_drift`
* `Ecrs.Ff.C166_default_drift`
* `Ecrs.Csv.C167_pso`
* `Ecrs.Csv.C167_ff`
* `Ecrs.Csv.C167_aco`
* `Ecrs.Ga.C168_black_box`
* `Ecrs.Ga.C168_per_outcome`
* `Ecrs.Ga.C168_needles`
* `Ecrs.Ga.C168_some_needle`
* `Ecrs.Ga.C168_waiting`
* `Ecrs.Ga.C168_bit_string`
* `Ecrs.Ga.C168_bit_string_waiting`
* `Ecrs.Ga.C168_bit_string_upper`
* `Ecrs.Ga.C168_permutation`
* `Ecrs.Ga.C168_permutation_waiting`
* `Ecrs.Ga.C168_permutation_upper`
* `Ecrs.Pso.C169_pso`
* `Ecrs.Pso.C169_pso_needles`
* `Ecrs.Pso.C169_pso_chance`
* `Ecrs.Pso.C169_pso_limit`
* `Ecrs.Ff.C169_ff_needles`
* `Ecrs.Ff.C169_ff_chance`
* `Ecrs.Csv.C170_pso`
* `Ecrs.Csv.C170_ff`
* `Ecrs.Csv.C170_aco`
* `Ecrs.Csv.C170_lossless`
* `Ecrs.Csv.C170_not_finite`
* `Ecrs.Jssp.C171_loads_iff`
* `Ecrs.Jssp.C171_one_reading`
* `Ecrs.Jssp.C171_layout`
* `Ecrs.Jssp.C171_written`
* `Ecrs.Jssp.C171_last_line`
* `Ecrs.Jssp.C171_blank_line_panics`
* `Ecrs.Jssp.C171_second_newline_panics`
* `Ecrs.Jssp.C171_word_panics`
* `Ecrs.Jssp.C172_staged`
* `Ecrs.Jssp.C172_solver`
* `Ecrs.Jssp.C172_random_search`
* `Ecrs.Jssp.C173_solver_rate`
* `Ecrs.Jssp.C173_random_search_rate`
* `Ecrs.Jssp.C173_solver_converges`
* `Ecrs.Jssp.C173_random_search_converges`
* `Ecrs.Jssp.C173_describable_makespan`
* `Ecrs.Jssp.C173_not_the_optimum`
* `Ecrs.Jssp.C174_total_duration`
* `Ecrs.Jssp.C174_factor`
* `Ecrs.Jssp.C174_one`
* `Ecrs.Jssp.C174_solver`
* `Ecrs.Jssp.C174_random_search`
* `Ecrs.Jssp.C174_factor_two`
* `Ecrs.C175_measurable`
* `Ecrs.Ga.C175_bit_strings`
* `Ecrs.Ga.C175_permutations`
* `Ecrs.Jssp.C175_job_shop_solver`
* `Ecrs.Jssp.C175_job_shop_random_search`
* `Ecrs.Ga.C176_average_waiting`
* `Ecrs.Ga.C176_needle`
* `Ecrs.Pso.C176_pso_generations`
* `Ecrs.Pso.C176_pso_time`
* `Ecrs.Pso.C177_pso_resumes`
* `Ecrs.Ff.C177_ff_second_run`
* `Ecrs.Ff.C177_ff_forgets`
* `Ecrs.Props.C178_uniform`
* `Ecrs.Props.C178_uniform_parameterized`
* `Ecrs.Props.C178_shuffle`
* `Ecrs.Props.C178_flip_bit`
* `Ecrs.Props.C178_single_point_depends`
* `Ecrs.Pso.C178_pso`
* `Ecrs.Aco.C178_ant_system`
* `Ecrs.Aco.C178_pheromones`
* `Ecrs.Props.C178_select_random`
* `Ecrs.Props.C178_select_rank_r`
* `Ecrs.Props.C178_select_rank`
* `Ecrs.Props.C178_select_roulette`
* `Ecrs.Props.C178_select_unique`
* `Ecrs.Props.C178_select_tournament`
