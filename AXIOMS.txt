Axioms the theorems of MANIFEST.json depend on (#print axioms; regenerate with tools/mkaxioms.py).

[none]
  BaumEva.C79_vega

[propext]
  BaumEva.C51_crossover_frozen
  BaumEva.C63_input_data

[propext, Classical.choice, Quot.sound]
  BaumEva.C01_bit_budget_least
  BaumEva.C02_binary_lossless
  BaumEva.C02_binary_read_injective
  BaumEva.C03_gray_width
  BaumEva.C03_gray_string_roundtrip
  BaumEva.C04_gray_neighbours
  BaumEva.C04_gray_neighbour_strings
  BaumEva.C05_decode_in_range
  BaumEva.C05_decode_grid
  BaumEva.C05_decode_lower_end
  BaumEva.C05_decode_upper_end
  BaumEva.C05_decode_exactly
  BaumEva.C06_decode_encode_identity
  BaumEva.C06_decode_injective
  BaumEva.C07_encode_nearest
  BaumEva.C07_reject_length
  BaumEva.C07_reject_range
  BaumEva.C08_grid_fineness_refuted
  BaumEva.C08_grid_fineness_partial
  BaumEva.C08_grid_step_below_double
  BaumEva.C09_degenerate_rejected
  BaumEva.C09_nondegenerate_accepted
  BaumEva.C10_fill_shape
  BaumEva.C10_fill_binary
  BaumEva.C10_fill_no_phenotype
  BaumEva.C11_oversized_rejected
  BaumEva.C11_input_adopted
  BaumEva.C11_input_encoded
  BaumEva.C12_generated_in_pools
  BaumEva.C12_every_pool_value_drawable
  BaumEva.C13_generated_tracks
  BaumEva.C13_too_long_raises
  BaumEva.C13_fitting_succeeds
  BaumEva.C14_one_point
  BaumEva.C15_two_point
  BaumEva.C15_short_raises
  BaumEva.C17_order
  BaumEva.C17_order_permutation
  BaumEva.C17_short_raises
  BaumEva.C18_length_partial
  BaumEva.C19_one_child_per_pair
  BaumEva.C19_children_of_pairs
  BaumEva.C19_odd_parents_fail
  BaumEva.C20_bit_mutation
  BaumEva.C20_differs_exactly
  BaumEva.C20_succeeds
  BaumEva.C20_execute_frame
  BaumEva.C21_permutes
  BaumEva.C21_changes
  BaumEva.C21_inversion_exact
  BaumEva.C21_swap_exact
  BaumEva.C21_movement_exact
  BaumEva.C21_short_raises
  BaumEva.C22_categorical
  BaumEva.C22_positions
  BaumEva.C22_stays_in_pools
  BaumEva.C22_no_error
  BaumEva.C23_trigger_count_partial
  BaumEva.C23_probability_refuted
  BaumEva.C23_bounds_partial
  BaumEva.C24_accepted_levels
  BaumEva.C24_word_levels
  BaumEva.C24_bit_word_levels
  BaumEva.C24_rejection
  BaumEva.C24_categorical
  BaumEva.C26_tournament_parents
  BaumEva.C26_population_kept
  BaumEva.C26_size_rejected
  BaumEva.C26_size_accepted
  BaumEva.C26_no_exception
  BaumEva.C27_wheel
  BaumEva.C27_width
  BaumEva.C27_accepted
  BaumEva.C27_roulette_parents
  BaumEva.C28_prefers_better_partial
  BaumEva.C28_negative_reversed
  BaumEva.C28_prefers_better_refuted
  BaumEva.C28_zero_scores_refuted
  BaumEva.C29_index_in_range
  BaumEva.C29_zero_sum
  BaumEva.C29_single_index_never_ends
  BaumEva.C29_no_other_failure
  BaumEva.C29_population_kept
  BaumEva.C30_average_ranks
  BaumEva.C30_rank_sum
  BaumEva.C30_ranked_proportional
  BaumEva.C31_ranks_partial
  BaumEva.C31_ranks_refuted
  BaumEva.C31_sentinel
  BaumEva.C31_half_too_low
  BaumEva.C31_proportional
  BaumEva.C31_no_preference
  BaumEva.C32_target_range
  BaumEva.C32_target_order
  BaumEva.C33_evaluated
  BaumEva.C33_minimisation
  BaumEva.C34_feasible_iff
  BaumEva.C35_one_call_each
  BaumEva.C36_in_place_partial
  BaumEva.C36_left_swapped
  BaumEva.C36_in_place_refuted
  BaumEva.C37_dynamic
  BaumEva.C37_formula
  BaumEva.C37_dynamic_rejects
  BaumEva.C38_constructor
  BaumEva.C38_adaptive
  BaumEva.C38_formula
  BaumEva.C39_evaluated
  BaumEva.C39_infeasible_below_partial
  BaumEva.C39_generation_zero
  BaumEva.C39_infeasible_below_refuted
  BaumEva.C40_static_partial
  BaumEva.C40_static_refuted
  BaumEva.C40_equalities_free
  BaumEva.C40_intervals_raise
  BaumEva.C40_coefficients_unused
  BaumEva.C40_exact
  BaumEva.C40_empty_table
  BaumEva.C41_again_partial
  BaumEva.C41_again_ffga_partial
  BaumEva.C41_again_vega_partial
  BaumEva.C41_repeat_refuted
  BaumEva.C41_one_constraint
  BaumEva.C41_unconditional_partial
  BaumEva.C41_ffga_partial
  BaumEva.C41_vega_partial
  BaumEva.C42_best_of_history
  BaumEva.C43_elitism
  BaumEva.C43_survives
  BaumEva.C44_histories
  BaumEva.C45_update_counts
  BaumEva.C45_no_improve
  BaumEva.C46_never_early
  BaumEva.C46_early_exact
  BaumEva.C46_facades
  BaumEva.C47_size_partial
  BaumEva.C47_size_refuted
  BaumEva.C48_binary
  BaumEva.C48_combinatory
  BaumEva.C48_categorical
  BaumEva.C49_best_is_snapshot
  BaumEva.C50_facade
  BaumEva.C50_single
  BaumEva.C50_ffga
  BaumEva.C50_vega
  BaumEva.C50_collector
  BaumEva.C51_selection_frozen
  BaumEva.C51_vega_selection_frozen
  BaumEva.C51_frozen_refuted
  BaumEva.C51_frozen_vega_refuted
  BaumEva.C51_frozen_ffga_refuted
  BaumEva.C51_fresh_draws_partial
  BaumEva.C52_duplicate_exact
  BaumEva.C52_sort_stable
  BaumEva.C53_rank
  BaumEva.C53_rank_one
  BaumEva.C53_vectors
  BaumEva.C53_after_evaluation
  BaumEva.C54_pareto_set
  BaumEva.C54_in_runs
  BaumEva.C55_never_lost
  BaumEva.C55_vectors
  BaumEva.C55_facade
  BaumEva.C55_ranked_loses_front
  BaumEva.C56_lexicographic_partial
  BaumEva.C56_first_objective
  BaumEva.C56_never_lost_refuted
  BaumEva.C57_next_size_partial
  BaumEva.C57_grows
  BaumEva.C57_size_refuted
  BaumEva.C58_new_scores_partial
  BaumEva.C58_scores_refuted
  BaumEva.C58_survivors
  BaumEva.C58_survivors_dominated
  BaumEva.C59_worst_survives_partial
  BaumEva.C59_best_survives_refuted
  BaumEva.C60_tournament_blocks
  BaumEva.C60_balanced_last
  BaumEva.C60_ranked_last
  BaumEva.C61_reversed
  BaumEva.C61_in_order_partial
  BaumEva.C61_in_order_refuted
  BaumEva.C62_tournament_size_refuted
  BaumEva.C62_input_data_ffga
  BaumEva.C62_input_data_vega
  BaumEva.C62_input_data_refuted
  BaumEva.C62_ffga_ignores_penalty
  BaumEva.C62_ffga_penalty_refuted
  BaumEva.C62_adaptive_no_children
  BaumEva.C62_adaptive_ffga
  BaumEva.C62_adaptive_refuted
  BaumEva.C62_vega_penalty_partial
  BaumEva.C63_shape
  BaumEva.C63_singleton_raises
  BaumEva.C64_snapshots_partial
  BaumEva.C64_snapshots_refuted
  BaumEva.C65_no_exception
  BaumEva.C65_random_without_children
  BaumEva.C65_single_bit
  BaumEva.C65_repeated_value
  BaumEva.C65_categorical_default_level
  BaumEva.C66_single
  BaumEva.C66_ffga
  BaumEva.C66_vega
  BaumEva.C66_first
  BaumEva.C67_binary
  BaumEva.C67_categorical
  BaumEva.C67_tracks
  BaumEva.C67_every_population
  BaumEva.C68_bits
  BaumEva.C68_categorical
  BaumEva.C68_swap_any
  BaumEva.C68_movement_any
  BaumEva.C68_inversion_any
  BaumEva.C68_rearrangements
  BaumEva.C68_twopoint_any
  BaumEva.C68_order_any
  BaumEva.C69_winners
  BaumEva.C69_pairs
  BaumEva.C69_stuck
  BaumEva.C70_completable_partial
  BaumEva.C70_hang_refuted
  BaumEva.C71_budget
  BaumEva.C71_bound
  BaumEva.C72_truthful
  BaumEva.C72_best_of_all
  BaumEva.C73_warm_start
  BaumEva.C73_warm_start_binary
  BaumEva.C73_no_worse_than_input
  BaumEva.C74_truthful
  BaumEva.C74_best_feasible_refuted
  BaumEva.C74_best_of_feasible_partial
  BaumEva.C75_single
  BaumEva.C75_ffga
  BaumEva.C75_vega
  BaumEva.C75_vega_probe
  BaumEva.C75_tournament_partial
  BaumEva.C75_tournament_refuted
  BaumEva.C76_monotone
  BaumEva.C76_shift
  BaumEva.C76_ffga
  BaumEva.C76_vega
  BaumEva.C77_categorical
  BaumEva.C77_combinatory
  BaumEva.C77_binary
  BaumEva.C77_ffga
  BaumEva.C77_vega_partial
  BaumEva.C77_vega_refuted
  BaumEva.C78_single
  BaumEva.C78_better
  BaumEva.C78_ffga
  BaumEva.C78_vega
  BaumEva.C79_mean
  BaumEva.C79_between
  BaumEva.C80_records
  BaumEva.C80_continue
  BaumEva.C81_complete
  BaumEva.C81_records
  BaumEva.C81_resume
  BaumEva.C82_points_partial
  BaumEva.C82_tracks
  BaumEva.C82_tuples
  BaumEva.C82_points_refuted
  BaumEva.C83_ffga
  BaumEva.C83_vega
  BaumEva.C83_total
  BaumEva.C84_ffga
  BaumEva.C84_vega_partial
  BaumEva.C84_vega_refuted
  BaumEva.C85_ffga_truthful
  BaumEva.C85_vega_truthful
  BaumEva.C85_ffga_complete
  BaumEva.C86_next_generation
  BaumEva.C86_optimum
  BaumEva.C87_ffga_no_exception
  BaumEva.C87_vega_no_exception
  BaumEva.C87_ffga_random_small
  BaumEva.C87_vega_three_individuals
  BaumEva.C87_vega_random_childless
  BaumEva.C87_vega_short_target
  BaumEva.C88_draws
  BaumEva.C88_level
  BaumEva.C88_prefers
  BaumEva.C88_strict
  BaumEva.C88_exact
  BaumEva.C88_binomial
  BaumEva.C88_pair
  BaumEva.C89_ffga_completable
  BaumEva.C89_ffga_single_never_returns
  BaumEva.C90_vega_completable_partial
  BaumEva.C90_vega_hang_refuted
  BaumEva.C91_binary64_is_rounding
  BaumEva.C91_float_decode_refuted
  BaumEva.C91_float_decode_partial
  BaumEva.C91_float_points_ordered
  BaumEva.C91_float_exact_grids
  BaumEva.C92_float_roundtrip_refuted
  BaumEva.C92_float_roundtrip_partial
  BaumEva.C92_float_points_distinct
  BaumEva.C92_float_fine_grid_refuted
  BaumEva.C93_float_index_refuted
  BaumEva.C93_float_selection_raises_refuted
  BaumEva.C93_float_index_partial
  BaumEva.C93_float_total
  BaumEva.C94_float_tiny_share_refuted
  BaumEva.C94_float_proportional_refuted
  BaumEva.C94_float_proportional_partial
  BaumEva.C94_float_spread_suffices
  BaumEva.C95_float_score_refuted
  BaumEva.C95_float_penalty_swallowed_refuted
  BaumEva.C95_float_score_partial
  BaumEva.C95_float_minimise_exact
  BaumEva.C96_float_count
  BaumEva.C96_float_count_mono
  BaumEva.C97_ffga_float_refuted
  BaumEva.C97_ffga_float_partial
  BaumEva.C98_float_best_refuted
  BaumEva.C98_float_best_partial
  BaumEva.C99_float_box_refuted
  BaumEva.C99_float_box_partial
  BaumEva.C100_reevaluated
  BaumEva.C100_no_worse
  BaumEva.C100_accepted
  BaumEva.C101_float_reuse_refuted
  BaumEva.C101_float_reuse_partial
  BaumEva.C102_assembled_no_exception
  BaumEva.C102_roulette_needs_target
  BaumEva.C102_misfits_raise
  BaumEva.C103_same_program
  BaumEva.C103_same_result
  BaumEva.C103_vega
  BaumEva.C103_vega_conditions
  BaumEva.C103_ffga
  BaumEva.C103_other_component
  BaumEva.C104_vega_no_exception
  BaumEva.C104_ffga_no_exception
  BaumEva.C104_needs_binary
  BaumEva.C104_too_many_objectives
  BaumEva.C104_tournament_outgrows
  BaumEva.C104_ranked_empties
  BaumEva.C104_one_needs_binary
  BaumEva.C105_dynamic
  BaumEva.C105_adaptive
  BaumEva.C106_float_feasible
  BaumEva.C107_late
  BaumEva.C107_missed
  BaumEva.C107_optimum
  BaumEva.C107_vanishes
  BaumEva.C108_returns
  BaumEva.C108_found
  BaumEva.C108_optimum
  BaumEva.C108_enough
  BaumEva.C109_stops
  BaumEva.C109_needs_limit
  BaumEva.C109_budget
  BaumEva.C109_best_of_all
  BaumEva.C109_goal
  BaumEva.C109_no_exception
  BaumEva.C109_collector
  BaumEva.C109_ffga
  BaumEva.C109_vega
  BaumEva.C110_stops
  BaumEva.C110_budget
  BaumEva.C110_truthful
  BaumEva.C110_best_of_all
  BaumEva.C110_float_best
  BaumEva.C110_best_of_feasible
  BaumEva.C110_float_feasible
  BaumEva.C111_missed
  BaumEva.C111_advanced_missed
  BaumEva.C111_optimum
  BaumEva.C111_advanced_optimum
  BaumEva.C111_vanishes
  BaumEva.C112_returns
  BaumEva.C112_advanced_returns
  BaumEva.C112_found
  BaumEva.C112_optimum
  BaumEva.C112_goal
  BaumEva.C112_slow
  BaumEva.C112_patience
  BaumEva.C113_ffga_returns
  BaumEva.C113_vega_returns
  BaumEva.C114_ffga_missed
  BaumEva.C114_vega_missed
  BaumEva.C114_ffga_front
  BaumEva.C114_vega_found
  BaumEva.C115_appends
  BaumEva.C115_twice
  BaumEva.C115_size_refuted
  BaumEva.C115_best_refuted
  BaumEva.C115_unused_partial
  BaumEva.C116_two_per_pair
  BaumEva.C116_complementary_partial
  BaumEva.C116_order
  BaumEva.C116_twins
  BaumEva.C116_flips_cancel
  BaumEva.C116_size
  BaumEva.C117_mean
  BaumEva.C117_mean_bounds
  BaumEva.C117_first
  BaumEva.C117_stale
  BaumEva.C117_same_length_partial
  BaumEva.C117_word_refuted
  BaumEva.C118_best
  BaumEva.C118_histories
  BaumEva.C118_no_improve
  BaumEva.C118_stops
  BaumEva.C118_elitism
  BaumEva.C118_library
  BaumEva.C118_two_children
  BaumEva.C118_keep_all
  BaumEva.C118_needs_elite
  BaumEva.C119_point
  BaumEva.C119_as_good
  BaumEva.C119_found
  BaumEva.C119_collector
  BaumEva.C119_advanced
  BaumEva.C119_ffga
  BaumEva.C119_vega
  BaumEva.C119_ffga_front
  BaumEva.C119_ffga_front_bound
  BaumEva.C120_search
  BaumEva.C120_reported
  BaumEva.C120_genotype
  BaumEva.C120_reported_refuted
  BaumEva.C120_tours_refuted
  BaumEva.C121_no_new_values
  BaumEva.C121_values
  BaumEva.C121_chance
  BaumEva.C121_optimum
  BaumEva.C121_refuted
  BaumEva.C122_common
  BaumEva.C122_equal
  BaumEva.C122_order_changes
  BaumEva.C122_order_genes
  BaumEva.C122_converged
  BaumEva.C122_order_converged
  BaumEva.C123_late
  BaumEva.C123_missed
  BaumEva.C123_vanishes
  BaumEva.C123_found
  BaumEva.C123_optimum
  BaumEva.C124_appends
  BaumEva.C124_level
  BaumEva.C124_size
  BaumEva.C124_word_broken
  BaumEva.C124_word_refuted
  BaumEva.C125_tour
  BaumEva.C125_found
  BaumEva.C126_missed
  BaumEva.C126_advanced_missed
  BaumEva.C126_found
  BaumEva.C126_optimum
  BaumEva.C126_expected
  BaumEva.C127_any_order
  BaumEva.C127_by_position
  BaumEva.C127_ffga
  BaumEva.C127_vega_any_order
  BaumEva.C127_vega
  BaumEva.C127_transferred
  BaumEva.C127_shrinks
  BaumEva.C127_dominated_preferred
  BaumEva.C128_dominance
  BaumEva.C128_reorder
  BaumEva.C128_redundant
  BaumEva.C128_vega_differs
  BaumEva.C129_draws
  BaumEva.C129_fair
  BaumEva.C129_uniform
  BaumEva.C129_one_point
  BaumEva.C129_two_point
  BaumEva.C129_ends
  BaumEva.C129_block_one_point
  BaumEva.C129_block_two_point
  BaumEva.C129_block_uniform
  BaumEva.C130_mutation
  BaumEva.C130_child
  BaumEva.C130_tight
  BaumEva.C130_one_way
  BaumEva.C131_standard
  BaumEva.C131_gray
  BaumEva.C131_gray_ends
  BaumEva.C131_mutation
  BaumEva.C131_mean
  BaumEva.C132_swap
  BaumEva.C132_inversion
  BaumEva.C132_movement
  BaumEva.C132_draws
  BaumEva.C132_neighbours

[propext, Quot.sound]
  BaumEva.C03_gray_bijection
  BaumEva.C03_gray_loop_terminates
  BaumEva.C14_every_cut_possible
  BaumEva.C14_short_raises
  BaumEva.C16_uniform
  BaumEva.C16_every_mask_possible
  BaumEva.C18_length_refuted
  BaumEva.C21_shift_exact
  BaumEva.C25_winner_is_best
  BaumEva.C25_winner_exists
  BaumEva.C46_stopping_rule
  BaumEva.C52_sort_total
  BaumEva.C68_shift_any
  BaumEva.C68_onepoint_any
  BaumEva.C68_uniform_any
  BaumEva.C68_either_child
  BaumEva.C116_uniform
  BaumEva.C116_complementary_refuted
  BaumEva.C122_order_refuted
  BaumEva.C122_order_common_refuted
