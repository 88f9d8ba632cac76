{
 "claims": [
  {
   "property": "C01",
   "status": "proved",
   "theorems": [
    "BaumEva.C01_bit_budget_least"
   ],
   "note": "All integers k; least bit count, reported interval count, loop termination (fuel irrelevant)."
  },
  {
   "property": "C02",
   "status": "proved",
   "theorems": [
    "BaumEva.C02_binary_lossless",
    "BaumEva.C02_binary_read_injective"
   ],
   "note": "All v and n >= 1; plus injectivity of reading."
  },
  {
   "property": "C03",
   "status": "proved",
   "theorems": [
    "BaumEva.C03_gray_bijection",
    "BaumEva.C03_gray_width",
    "BaumEva.C03_gray_loop_terminates",
    "BaumEva.C03_gray_string_roundtrip"
   ],
   "note": "Both round trips on all naturals, width preservation, loop termination, round trip on strings."
  },
  {
   "property": "C04",
   "status": "proved",
   "theorems": [
    "BaumEva.C04_gray_neighbours",
    "BaumEva.C04_gray_neighbour_strings"
   ],
   "note": "On bit level for all v and on fixed-width strings."
  },
  {
   "property": "C05",
   "status": "proved",
   "theorems": [
    "BaumEva.C05_decode_in_range",
    "BaumEva.C05_decode_grid",
    "BaumEva.C05_decode_lower_end",
    "BaumEva.C05_decode_upper_end",
    "BaumEva.C05_decode_exactly"
   ],
   "note": "Range, grid formula, both ends; hypothesis Prepared is what fill establishes (C10)."
  },
  {
   "property": "C06",
   "status": "proved",
   "theorems": [
    "BaumEva.C06_decode_encode_identity",
    "BaumEva.C06_decode_injective"
   ],
   "note": "Identity of encode after decode and injectivity of decode, exact arithmetic."
  },
  {
   "property": "C07",
   "status": "proved",
   "theorems": [
    "BaumEva.C07_encode_nearest",
    "BaumEva.C07_reject_length",
    "BaumEva.C07_reject_range"
   ],
   "note": "Nearest grid point, rejection of wrong length and out-of-range numbers."
  },
  {
   "property": "C08",
   "status": "partial",
   "theorems": [
    "BaumEva.C08_grid_fineness_refuted",
    "BaumEva.C08_grid_fineness_partial",
    "BaumEva.C08_grid_step_below_double"
   ],
   "note": "Full statement is false of the code (refuted for (0, 3/2, 1)); holds when the step divides the range, and the real step is always below twice the requested one."
  },
  {
   "property": "C09",
   "status": "proved",
   "theorems": [
    "BaumEva.C09_degenerate_rejected",
    "BaumEva.C09_nondegenerate_accepted"
   ],
   "note": "Degenerate genes rejected with unchanged state; converse: all other gene lists accepted."
  },
  {
   "property": "C10",
   "status": "proved",
   "theorems": [
    "BaumEva.C10_fill_shape",
    "BaumEva.C10_fill_binary",
    "BaumEva.C10_fill_no_phenotype"
   ],
   "note": "For all specs, sizes, inputs and tapes: size, indices, empty scores, phenotype exactly for binary populations."
  },
  {
   "property": "C11",
   "status": "proved",
   "theorems": [
    "BaumEva.C11_oversized_rejected",
    "BaumEva.C11_input_adopted",
    "BaumEva.C11_input_encoded"
   ],
   "note": "Oversized input rejected; categorical/order input adopted verbatim, binary input encoded."
  },
  {
   "property": "C12",
   "status": "proved",
   "theorems": [
    "BaumEva.C12_generated_in_pools",
    "BaumEva.C12_every_pool_value_drawable"
   ],
   "note": "Generated tuples lie in the pools; conversely every pool value is drawn by some draw."
  },
  {
   "property": "C13",
   "status": "proved",
   "theorems": [
    "BaumEva.C13_generated_tracks",
    "BaumEva.C13_too_long_raises",
    "BaumEva.C13_fitting_succeeds"
   ],
   "note": "Generated tracks are repetition-free of the declared length; too long tracks raise; fitting ones succeed on long enough tapes."
  },
  {
   "property": "C14",
   "status": "proved",
   "theorems": [
    "BaumEva.C14_one_point",
    "BaumEva.C14_every_cut_possible",
    "BaumEva.C14_short_raises"
   ],
   "note": "Position-wise statement for all parents and draws; every inner cut is reachable; short genotypes raise."
  },
  {
   "property": "C15",
   "status": "proved",
   "theorems": [
    "BaumEva.C15_two_point",
    "BaumEva.C15_short_raises"
   ],
   "note": "Position-wise statement for all parents and draws; short genotypes raise."
  },
  {
   "property": "C16",
   "status": "proved",
   "theorems": [
    "BaumEva.C16_uniform",
    "BaumEva.C16_every_mask_possible"
   ],
   "note": "Position-wise statement; conversely every mixture is reachable."
  },
  {
   "property": "C17",
   "status": "proved",
   "theorems": [
    "BaumEva.C17_order",
    "BaumEva.C17_order_permutation",
    "BaumEva.C17_short_raises"
   ],
   "note": "Length, repetition-freeness, gene set, segment in place, cyclic order of the rest; permutations of one set stay permutations."
  },
  {
   "property": "C18",
   "status": "partial",
   "theorems": [
    "BaumEva.C18_length_refuted",
    "BaumEva.C18_length_partial"
   ],
   "note": "Full statement is false of the code (refuted with parents [0,1,2], [1,1,1]); holds when the other parent is repetition-free; children are never longer."
  },
  {
   "property": "C19",
   "status": "proved",
   "theorems": [
    "BaumEva.C19_one_child_per_pair",
    "BaumEva.C19_children_of_pairs",
    "BaumEva.C19_odd_parents_fail"
   ],
   "note": "Frame on the heap, freshness, pairing; hypothesis: parents are allocated objects."
  },
  {
   "property": "C20",
   "status": "proved",
   "theorems": [
    "BaumEva.C20_bit_mutation",
    "BaumEva.C20_differs_exactly",
    "BaumEva.C20_succeeds",
    "BaumEva.C20_execute_frame"
   ],
   "note": "Draw-by-draw statement, alphabet, success on long tapes, frame of execute for every mutation class."
  },
  {
   "property": "C21",
   "status": "proved",
   "theorems": [
    "BaumEva.C21_permutes",
    "BaumEva.C21_changes",
    "BaumEva.C21_inversion_exact",
    "BaumEva.C21_swap_exact",
    "BaumEva.C21_movement_exact",
    "BaumEva.C21_shift_exact",
    "BaumEva.C21_short_raises"
   ],
   "note": "Permutation, change on repetition-free genotypes, exact effect of each operator, short genotypes raise."
  },
  {
   "property": "C22",
   "status": "proved",
   "theorems": [
    "BaumEva.C22_categorical",
    "BaumEva.C22_positions",
    "BaumEva.C22_stays_in_pools",
    "BaumEva.C22_no_error"
   ],
   "note": "Refines the draw-by-draw relation CatMut; stays in pools; no error when all pools offer a choice."
  },
  {
   "property": "C23",
   "status": "partial",
   "theorems": [
    "BaumEva.C23_trigger_count_partial",
    "BaumEva.C23_probability_refuted",
    "BaumEva.C23_bounds_partial"
   ],
   "note": "Full statement is false of the code (level 0 still mutates); exact count of triggering draws proved."
  },
  {
   "property": "C24",
   "status": "proved",
   "theorems": [
    "BaumEva.C24_accepted_levels",
    "BaumEva.C24_word_levels",
    "BaumEva.C24_bit_word_levels",
    "BaumEva.C24_rejection",
    "BaumEva.C24_categorical"
   ],
   "note": "Exact acceptance sets, meaning of the words, rejection leaves state unchanged."
  },
  {
   "property": "C25",
   "status": "proved",
   "theorems": [
    "BaumEva.C25_winner_is_best",
    "BaumEva.C25_winner_exists"
   ],
   "note": ""
  },
  {
   "property": "C26",
   "status": "proved",
   "theorems": [
    "BaumEva.C26_tournament_parents",
    "BaumEva.C26_population_kept",
    "BaumEva.C26_size_rejected",
    "BaumEva.C26_size_accepted",
    "BaumEva.C26_no_exception"
   ],
   "note": ""
  },
  {
   "property": "C27",
   "status": "proved",
   "theorems": [
    "BaumEva.C27_wheel",
    "BaumEva.C27_width",
    "BaumEva.C27_accepted",
    "BaumEva.C27_roulette_parents"
   ],
   "note": ""
  },
  {
   "property": "C28",
   "status": "partial",
   "theorems": [
    "BaumEva.C28_prefers_better_partial",
    "BaumEva.C28_negative_reversed",
    "BaumEva.C28_prefers_better_refuted",
    "BaumEva.C28_zero_scores_refuted"
   ],
   "note": "Refuted in general (negative scores reverse the preference exactly; score 0 gets half of its neighbour's share or nothing). Partial theorem: holds for strictly positive scores."
  },
  {
   "property": "C29",
   "status": "proved",
   "theorems": [
    "BaumEva.C29_index_in_range",
    "BaumEva.C29_zero_sum",
    "BaumEva.C29_single_index_never_ends",
    "BaumEva.C29_no_other_failure",
    "BaumEva.C29_population_kept"
   ],
   "note": ""
  },
  {
   "property": "C30",
   "status": "proved",
   "theorems": [
    "BaumEva.C30_average_ranks",
    "BaumEva.C30_rank_sum",
    "BaumEva.C30_ranked_proportional"
   ],
   "note": ""
  },
  {
   "property": "C31",
   "status": "partial",
   "theorems": [
    "BaumEva.C31_ranks_partial",
    "BaumEva.C31_ranks_refuted",
    "BaumEva.C31_sentinel",
    "BaumEva.C31_half_too_low",
    "BaumEva.C31_proportional",
    "BaumEva.C31_no_preference"
   ],
   "note": "Refuted for lowest score -1 (the sentinel of the loop). C31_ranks_partial: every sorted population whose lowest score is not -1. C31_sentinel gives the exact ranks for the rest: m/2 for the m individuals with score -1, which is one half too low (C31_half_too_low), average ranks for the others unless there is only one other, which then also gets m/2; C31_proportional: the shares that follow; C31_no_preference: with one better individual everybody has the same share."
  },
  {
   "property": "C32",
   "status": "proved",
   "theorems": [
    "BaumEva.C32_target_range",
    "BaumEva.C32_target_order"
   ],
   "note": ""
  },
  {
   "property": "C33",
   "status": "proved",
   "theorems": [
    "BaumEva.C33_evaluated",
    "BaumEva.C33_minimisation"
   ],
   "note": ""
  },
  {
   "property": "C34",
   "status": "proved",
   "theorems": [
    "BaumEva.C34_feasible_iff"
   ],
   "note": ""
  },
  {
   "property": "C35",
   "status": "proved",
   "theorems": [
    "BaumEva.C35_one_call_each"
   ],
   "note": ""
  },
  {
   "property": "C36",
   "status": "partial",
   "theorems": [
    "BaumEva.C36_in_place_partial",
    "BaumEva.C36_left_swapped",
    "BaumEva.C36_in_place_refuted"
   ],
   "note": "Refuted for binary populations (C36_in_place_refuted; C36_left_swapped says exactly what is left behind: every individual with genotype and phenotype exchanged). C36_in_place_partial: populations without phenotype, any outcome."
  },
  {
   "property": "C37",
   "status": "proved",
   "theorems": [
    "BaumEva.C37_dynamic",
    "BaumEva.C37_formula",
    "BaumEva.C37_dynamic_rejects"
   ],
   "note": ""
  },
  {
   "property": "C38",
   "status": "proved",
   "theorems": [
    "BaumEva.C38_constructor",
    "BaumEva.C38_adaptive",
    "BaumEva.C38_formula"
   ],
   "note": ""
  },
  {
   "property": "C39",
   "status": "partial",
   "theorems": [
    "BaumEva.C39_evaluated",
    "BaumEva.C39_infeasible_below_partial",
    "BaumEva.C39_generation_zero",
    "BaumEva.C39_infeasible_below_refuted"
   ],
   "note": "Refuted in generation 0, where dynamic and adaptive penalties are 0 for every violation (C39_generation_zero). C39_infeasible_below_partial / C39_evaluated: from generation 1 on, for positive parameters."
  },
  {
   "property": "C40",
   "status": "partial",
   "theorems": [
    "BaumEva.C40_static_partial",
    "BaumEva.C40_static_refuted",
    "BaumEva.C40_equalities_free",
    "BaumEva.C40_intervals_raise",
    "BaumEva.C40_coefficients_unused",
    "BaumEva.C40_exact",
    "BaumEva.C40_empty_table"
   ],
   "note": "Refuted (C40_static_refuted). C40_equalities_free, C40_intervals_raise, C40_coefficients_unused state the three defects for all inputs, C40_exact what is computed, C40_empty_table what happens with an empty list of intervals. C40_static_partial: the claim for '<=' constraints with a single interval and equal coefficient tables."
  },
  {
   "property": "C41",
   "status": "partial",
   "theorems": [
    "BaumEva.C41_again_partial",
    "BaumEva.C41_again_ffga_partial",
    "BaumEva.C41_again_vega_partial",
    "BaumEva.C41_repeat_refuted",
    "BaumEva.C41_one_constraint",
    "BaumEva.C41_unconditional_partial",
    "BaumEva.C41_ffga_partial",
    "BaumEva.C41_vega_partial"
   ],
   "note": "False of the code for single-objective conditional tasks (refuted for every facade and every state after a successful call). For unconditional and for multi-objective tasks a second call with the draws of the first has the same outcome as the first (C41_again_*_partial)."
  },
  {
   "property": "C42",
   "status": "proved",
   "theorems": [
    "BaumEva.C42_best_of_history"
   ],
   "note": "Any operators, any number of generations; membership, maximality and first index."
  },
  {
   "property": "C43",
   "status": "proved",
   "theorems": [
    "BaumEva.C43_elitism",
    "BaumEva.C43_survives"
   ],
   "note": "Best individual (same object) is the last elite; both transfer modes."
  },
  {
   "property": "C44",
   "status": "proved",
   "theorems": [
    "BaumEva.C44_histories"
   ],
   "note": "By the run invariant Hist: lengths, order, monotonicity, end."
  },
  {
   "property": "C45",
   "status": "proved",
   "theorems": [
    "BaumEva.C45_update_counts",
    "BaumEva.C45_no_improve"
   ],
   "note": "Independent count `stale` over the history of best scores; update alone also for arbitrary populations."
  },
  {
   "property": "C46",
   "status": "proved",
   "theorems": [
    "BaumEva.C46_stopping_rule",
    "BaumEva.C46_never_early",
    "BaumEva.C46_early_exact",
    "BaumEva.C46_facades"
   ],
   "note": "Loop counts for any operators (also multi-objective); exactness of early stop for single-objective runs; facades pass the parameters on."
  },
  {
   "property": "C47",
   "status": "partial",
   "theorems": [
    "BaumEva.C47_size_partial",
    "BaumEva.C47_size_refuted"
   ],
   "note": "Full statement is false of the code: from the second generation on the population has num_individ+1 members (partial theorem, for at least one pair; refutation by a concrete run)."
  },
  {
   "property": "C48",
   "status": "proved",
   "theorems": [
    "BaumEva.C48_binary",
    "BaumEva.C48_combinatory",
    "BaumEva.C48_categorical"
   ],
   "note": "For all three facades, over all recorded generations of a run that returns normally; binary genes must be Proper (left < right, step > 0)."
  },
  {
   "property": "C49",
   "status": "proved",
   "theorems": [
    "BaumEva.C49_best_is_snapshot"
   ],
   "note": "Between updates nothing writes to the recorded best individual; replaced only by a strictly better one."
  },
  {
   "property": "C50",
   "status": "proved",
   "theorems": [
    "BaumEva.C50_facade",
    "BaumEva.C50_single",
    "BaumEva.C50_ffga",
    "BaumEva.C50_vega",
    "BaumEva.C50_collector"
   ],
   "note": "Equality of the whole outcome for every facade and set_population, all prior random states."
  },
  {
   "property": "C51",
   "status": "partial",
   "theorems": [
    "BaumEva.C51_selection_frozen",
    "BaumEva.C51_vega_selection_frozen",
    "BaumEva.C51_crossover_frozen",
    "BaumEva.C51_frozen_refuted",
    "BaumEva.C51_frozen_vega_refuted",
    "BaumEva.C51_frozen_ffga_refuted",
    "BaumEva.C51_fresh_draws_partial"
   ],
   "note": "False of the code: with a seed every selection and crossover restarts the stream, so a generation does not depend on the draws left over (proved for all operators). Without a seed draws are consumed one after the other (partial)."
  },
  {
   "property": "C52",
   "status": "proved",
   "theorems": [
    "BaumEva.C52_duplicate_exact",
    "BaumEva.C52_sort_stable",
    "BaumEva.C52_sort_total"
   ],
   "note": "Exactness of duplicate detection; order, permutation and stability of the sort; the sort succeeds iff all scores are set."
  },
  {
   "property": "C53",
   "status": "proved",
   "theorems": [
    "BaumEva.C53_rank",
    "BaumEva.C53_rank_one",
    "BaumEva.C53_vectors",
    "BaumEva.C53_after_evaluation"
   ],
   "note": "Ranks after assign_ranks for every population without repeated references and equally long objective vectors; instance after evaluation in the loop."
  },
  {
   "property": "C54",
   "status": "proved",
   "theorems": [
    "BaumEva.C54_pareto_set",
    "BaumEva.C54_in_runs"
   ],
   "note": "After every update of a multi-objective run: copies of exactly the non-dominated members, non-empty; in whole VEGA and FFGA runs."
  },
  {
   "property": "C55",
   "status": "proved",
   "theorems": [
    "BaumEva.C55_never_lost",
    "BaumEva.C55_vectors",
    "BaumEva.C55_facade",
    "BaumEva.C55_ranked_loses_front"
   ],
   "note": "For every generation of CollectorGA with FFGA components (balanced selection or any that keeps ranks) and of the FFGA facade with transfer best."
  },
  {
   "property": "C56",
   "status": "partial",
   "theorems": [
    "BaumEva.C56_lexicographic_partial",
    "BaumEva.C56_first_objective",
    "BaumEva.C56_never_lost_refuted"
   ],
   "note": "False of the code (C56_never_lost_refuted: a concrete VEGA run loses a point of its Pareto set without gaining one that dominates it). What holds: the members transferred are the lexicographically largest score vectors of the previous population (C56_lexicographic_partial), so the best value of the first objective is never lost (C56_first_objective)."
  },
  {
   "property": "C57",
   "status": "partial",
   "theorems": [
    "BaumEva.C57_next_size_partial",
    "BaumEva.C57_grows",
    "BaumEva.C57_size_refuted"
   ],
   "note": "False of the code (C57_size_refuted: concrete FFGA run with 5, 7, 9 members). What holds for every generation of every run: size = int(children_percent*num_individ) + size of the Pareto set (C57_next_size_partial; 11 for transfer random), and while no member dominates another the population grows by the number of children (C57_grows)."
  },
  {
   "property": "C58",
   "status": "partial",
   "theorems": [
    "BaumEva.C58_new_scores_partial",
    "BaumEva.C58_scores_refuted",
    "BaumEva.C58_survivors",
    "BaumEva.C58_survivors_dominated"
   ],
   "note": "False of the code for survivors (C58_scores_refuted, concrete run). Newly evaluated individuals have score 1/(1+rank) in every generation of every run (C58_new_scores_partial). With transfer best every survivor has score exactly 1/2 whatever its rank, and nobody has more (C58_survivors; C58_survivors_dominated is a run with a dominated survivor)."
  },
  {
   "property": "C59",
   "status": "partial",
   "theorems": [
    "BaumEva.C59_worst_survives_partial",
    "BaumEva.C59_best_survives_refuted"
   ],
   "note": "False of the code (C59_best_survives_refuted, concrete run). In every random-transfer FFGA generation an individual of the worst rank survives (C59_worst_survives_partial)."
  },
  {
   "property": "C60",
   "status": "proved",
   "theorems": [
    "BaumEva.C60_tournament_blocks",
    "BaumEva.C60_balanced_last",
    "BaumEva.C60_ranked_last"
   ],
   "note": "Blocks for the tournament; for balanced and ranked selection the parents are the selection by the last objective alone."
  },
  {
   "property": "C61",
   "status": "partial",
   "theorems": [
    "BaumEva.C61_reversed",
    "BaumEva.C61_in_order_partial",
    "BaumEva.C61_in_order_refuted"
   ],
   "note": "Refuted for conditional tasks: C61_reversed shows that the objectives are always listed in reverse. C61_in_order_partial: unconditional tasks."
  },
  {
   "property": "C62",
   "status": "partial",
   "theorems": [
    "BaumEva.C62_tournament_size_refuted",
    "BaumEva.C62_input_data_ffga",
    "BaumEva.C62_input_data_vega",
    "BaumEva.C62_input_data_refuted",
    "BaumEva.C62_ffga_ignores_penalty",
    "BaumEva.C62_ffga_penalty_refuted",
    "BaumEva.C62_adaptive_no_children",
    "BaumEva.C62_adaptive_ffga",
    "BaumEva.C62_adaptive_refuted",
    "BaumEva.C62_vega_penalty_partial"
   ],
   "note": "False of the code: no VEGA or FFGA run depends on tournament_size; an objective that needs input_data never completes a run; FFGA runs are identical for penalties that differ in value only; AdaptivePenalty raises KeyError once a child is evaluated. What holds: evaluation uses input_data and the VEGA score contains the configured penalty in every generation (C62_vega_penalty_partial)."
  },
  {
   "property": "C63",
   "status": "proved",
   "theorems": [
    "BaumEva.C63_shape",
    "BaumEva.C63_singleton_raises",
    "BaumEva.C63_input_data"
   ],
   "note": ""
  },
  {
   "property": "C64",
   "status": "partial",
   "theorems": [
    "BaumEva.C64_snapshots_partial",
    "BaumEva.C64_snapshots_refuted"
   ],
   "note": "False of the code (C64_snapshots_refuted: rank of a recorded individual changes later in a concrete run). Everything of a recorded individual except its index and rank stays fixed in every run, and best_solution is a copy (C64_snapshots_partial)."
  },
  {
   "property": "C65",
   "status": "proved",
   "theorems": [
    "BaumEva.C65_no_exception",
    "BaumEva.C65_random_without_children",
    "BaumEva.C65_single_bit",
    "BaumEva.C65_repeated_value",
    "BaumEva.C65_categorical_default_level"
   ],
   "note": "C65_no_exception: with Admissible parameters the only error of the model is .exhausted (finite list of draws), i.e. Python raises nothing; whether a run can fail to terminate is a separate question (the second-parent loop of the tournament redraws until the index differs). C65_random_without_children, C65_single_bit, C65_repeated_value, C65_categorical_default_level: each unchecked condition is needed."
  },
  {
   "property": "C66",
   "status": "proved",
   "theorems": [
    "BaumEva.C66_single",
    "BaumEva.C66_ffga",
    "BaumEva.C66_vega",
    "BaumEva.C66_first"
   ],
   "note": "Proved for BinaryGA, CombinatoryGA, CategoricalGA, FFGA (whole observable outcome, also when the call raises) and VEGA (same result; whole outcome when it succeeds). The history is any sequence of facade calls over the same score type, successful or not, with arbitrary re-seeding in between. CollectorGA is not covered."
  },
  {
   "property": "C67",
   "status": "proved",
   "theorems": [
    "BaumEva.C67_binary",
    "BaumEva.C67_categorical",
    "BaumEva.C67_tracks",
    "BaumEva.C67_every_population"
   ],
   "note": "Uniformity is stated as: each target has exactly one tuple of reduced draws (draws below the size of the range) leading to it, so under independent uniform draws all targets have the same probability. Probability itself (that random.randint is uniform) is trusted."
  },
  {
   "property": "C68",
   "status": "proved",
   "theorems": [
    "BaumEva.C68_bits",
    "BaumEva.C68_categorical",
    "BaumEva.C68_swap_any",
    "BaumEva.C68_movement_any",
    "BaumEva.C68_inversion_any",
    "BaumEva.C68_shift_any",
    "BaumEva.C68_rearrangements",
    "BaumEva.C68_onepoint_any",
    "BaumEva.C68_twopoint_any",
    "BaumEva.C68_order_any",
    "BaumEva.C68_uniform_any",
    "BaumEva.C68_either_child"
   ],
   "note": "Reachability by some draws of the generator; single applications for bit/categorical mutation, finite sequences for the four combinatory mutations."
  },
  {
   "property": "C69",
   "status": "proved",
   "theorems": [
    "BaumEva.C69_winners",
    "BaumEva.C69_pairs",
    "BaumEva.C69_stuck"
   ],
   "note": ""
  },
  {
   "property": "C70",
   "status": "partial",
   "theorems": [
    "BaumEva.C70_completable_partial",
    "BaumEva.C70_hang_refuted"
   ],
   "note": "False as stated. C70_completable_partial proves it under the extra hypothesis tournament_size <= int(children_percent * num_individ) (and no fixed seed, since a fixed seed replays the same draws). C70_hang_refuted gives an admissible call (four individuals, one child per generation, tournaments of three) and draws after which no continuation lets optimize() return: three of the five places of the population hold the same elite, so both parents can never differ."
  },
  {
   "property": "C71",
   "status": "proved",
   "theorems": [
    "BaumEva.C71_budget",
    "BaumEva.C71_bound"
   ],
   "note": "Successful runs; c.children is floor(children_percent * num_individ), 0 if negative."
  },
  {
   "property": "C72",
   "status": "proved",
   "theorems": [
    "BaumEva.C72_truthful",
    "BaumEva.C72_best_of_all"
   ],
   "note": ""
  },
  {
   "property": "C73",
   "status": "proved",
   "theorems": [
    "BaumEva.C73_warm_start",
    "BaumEva.C73_warm_start_binary",
    "BaumEva.C73_no_worse_than_input"
   ],
   "note": ""
  },
  {
   "property": "C74",
   "status": "partial",
   "theorems": [
    "BaumEva.C74_truthful",
    "BaumEva.C74_best_feasible_refuted",
    "BaumEva.C74_best_of_feasible_partial"
   ],
   "note": "The claim that best_solution is feasible once a feasible point was evaluated is refuted by a concrete run (penalties charge nothing in generation 0, so an infeasible individual found there stays best). Proved: flags, objective values and scores are truthful for everybody, and no feasible evaluated point is better than best_solution, so a feasible best_solution is the best feasible point."
  },
  {
   "property": "C75",
   "status": "partial",
   "theorems": [
    "BaumEva.C75_single",
    "BaumEva.C75_ffga",
    "BaumEva.C75_vega",
    "BaumEva.C75_vega_probe",
    "BaumEva.C75_tournament_partial",
    "BaumEva.C75_tournament_refuted"
   ],
   "note": "Refuted for the tournament size, which is looked at only after the first generation has been evaluated and never if num_generations is 1 (C75_tournament_refuted). Proved: everything else, and that with a bad size and at least two generations a run never returns and evaluates at most num_individ individuals."
  },
  {
   "property": "C76",
   "status": "proved",
   "theorems": [
    "BaumEva.C76_monotone",
    "BaumEva.C76_shift",
    "BaumEva.C76_ffga",
    "BaumEva.C76_vega"
   ],
   "note": "Strictly increasing functions: BinaryGA, CombinatoryGA, CategoricalGA without constraints and without obj_value; FFGA and VEGA componentwise without constraints. Constant shift: all single-objective runs."
  },
  {
   "property": "C77",
   "status": "partial",
   "theorems": [
    "BaumEva.C77_categorical",
    "BaumEva.C77_combinatory",
    "BaumEva.C77_binary",
    "BaumEva.C77_ffga",
    "BaumEva.C77_vega_partial",
    "BaumEva.C77_vega_refuted"
   ],
   "note": "Refuted for VEGA without conditions, which calls the objective at the origin, a point that need not belong to the box (C77_vega_refuted). Proved for CategoricalGA, CombinatoryGA, BinaryGA, FFGA and VEGA with conditions."
  },
  {
   "property": "C78",
   "status": "proved",
   "theorems": [
    "BaumEva.C78_single",
    "BaumEva.C78_better",
    "BaumEva.C78_ffga",
    "BaumEva.C78_vega"
   ],
   "note": "BinaryGA, CombinatoryGA, CategoricalGA, FFGA, VEGA. That the exception of a shorter run is raised by the longer one is stated for FFGA and VEGA without printing."
  },
  {
   "property": "C79",
   "status": "proved",
   "theorems": [
    "BaumEva.C79_mean",
    "BaumEva.C79_between",
    "BaumEva.C79_vega"
   ],
   "note": "C79_mean describes every call; C79_between single-objective runs; C79_vega the TypeError for score lists."
  },
  {
   "property": "C80",
   "status": "proved",
   "theorems": [
    "BaumEva.C80_records",
    "BaumEva.C80_continue"
   ],
   "note": "Any number of calls with any single-objective components; between calls the limits, random state, seed, mutation level and conditions may change."
  },
  {
   "property": "C81",
   "status": "proved",
   "theorems": [
    "BaumEva.C81_complete",
    "BaumEva.C81_records",
    "BaumEva.C81_resume"
   ],
   "note": "Proofs/Touch.lean and Props/Crash.lean: which individuals each component can write, also when it raises; the crash leaves the state of the last completed generation up to things nothing recorded refers to."
  },
  {
   "property": "C82",
   "status": "partial",
   "theorems": [
    "BaumEva.C82_points_partial",
    "BaumEva.C82_tracks",
    "BaumEva.C82_tuples",
    "BaumEva.C82_points_refuted"
   ],
   "note": "Proved in full for permutations and categories (C82_tracks, C82_tuples). For binary genes refuted by a concrete run (C82_points_refuted: base_fitness.py swaps genotype and phenotype before the evaluation loop and swaps back after it, so an exception leaves them exchanged); C82_points_partial proves it for any number of calls that all return."
  },
  {
   "property": "C83",
   "status": "proved",
   "theorems": [
    "BaumEva.C83_ffga",
    "BaumEva.C83_vega",
    "BaumEva.C83_total"
   ],
   "note": "Exact up to the order of calls; objective vectors of one length assumed (otherwise the ranking itself is undefined). Calls of obj_function and of conditions share one function in the library, so this counts all of them."
  },
  {
   "property": "C84",
   "status": "partial",
   "theorems": [
    "BaumEva.C84_ffga",
    "BaumEva.C84_vega_partial",
    "BaumEva.C84_vega_refuted"
   ],
   "note": "Holds for FFGA. For VEGA refuted by a run with the range 1..8: the call that counts the objectives is at 0. All other calls, all individuals and the Pareto set are in range."
  },
  {
   "property": "C85",
   "status": "proved",
   "theorems": [
    "BaumEva.C85_ffga_truthful",
    "BaumEva.C85_vega_truthful",
    "BaumEva.C85_ffga_complete"
   ],
   "note": "Completeness is for FFGA with transfer_parents=best; for VEGA it is false (C56)."
  },
  {
   "property": "C86",
   "status": "proved",
   "theorems": [
    "BaumEva.C86_next_generation",
    "BaumEva.C86_optimum"
   ],
   "note": "C86_next_generation: the generations of the finished run, then one with the chosen points; C86_optimum: best_solution is then at least as good as any given point. Point is stated with OnGrid / IsTuple; the grid of binary genes is exactly the set of decodings (C05_decode_exactly). Uncertain: rate below 0.999 (determines_mutation draws one of 1000 values), where 'strong' needs at least four bits. Not claimed for CombinatoryGA: order crossover and the rearranging mutations can only rearrange genes that survive, see C68."
  },
  {
   "property": "C87",
   "status": "proved",
   "theorems": [
    "BaumEva.C87_ffga_no_exception",
    "BaumEva.C87_vega_no_exception",
    "BaumEva.C87_ffga_random_small",
    "BaumEva.C87_vega_three_individuals",
    "BaumEva.C87_vega_random_childless",
    "BaumEva.C87_vega_short_target"
   ],
   "note": "An execution is a tape of draws; the only failure left is that the tape ends (the run is unfinished). Termination of the roulette loop is not part of the claim: FFGA with a single individual and a child to produce loops forever."
  },
  {
   "property": "C88",
   "status": "proved",
   "theorems": [
    "BaumEva.C88_draws",
    "BaumEva.C88_level",
    "BaumEva.C88_prefers",
    "BaumEva.C88_strict",
    "BaumEva.C88_exact",
    "BaumEva.C88_binomial",
    "BaumEva.C88_pair"
   ],
   "note": "Draws are counted after reduction to the number of remaining candidates (random.sample as selection without replacement, every candidate equally likely)."
  },
  {
   "property": "C89",
   "status": "proved",
   "theorems": [
    "BaumEva.C89_ffga_completable",
    "BaumEva.C89_ffga_single_never_returns"
   ],
   "note": ""
  },
  {
   "property": "C90",
   "status": "partial",
   "theorems": [
    "BaumEva.C90_vega_completable_partial",
    "BaumEva.C90_vega_hang_refuted"
   ],
   "note": "False of the code as stated: with one child per objective VEGA's elites can fill three of five places with one object, which then wins every tournament of three, and the search for a second parent never ends (C90_vega_hang_refuted: admissible call, concrete draws, all continuations). Proved when a generation has at least three children, or none."
  },
  {
   "property": "C91",
   "status": "partial",
   "theorems": [
    "BaumEva.C91_binary64_is_rounding",
    "BaumEva.C91_float_decode_refuted",
    "BaumEva.C91_float_decode_partial",
    "BaumEva.C91_float_points_ordered",
    "BaumEva.C91_float_exact_grids"
   ],
   "note": "Refuted in binary64 (C91_float_decode_refuted: gene (0, 3.1, 1), '11' decodes to 3.1000000000000005). Proved for every rounding: one value per gene, within 16 unit roundoffs of the larger end of the exact grid point, never below the lower end, and only the last grid point can exceed the upper end; dyadic grids (integer variables) are exact."
  },
  {
   "property": "C92",
   "status": "partial",
   "theorems": [
    "BaumEva.C92_float_roundtrip_refuted",
    "BaumEva.C92_float_roundtrip_partial",
    "BaumEva.C92_float_points_distinct",
    "BaumEva.C92_float_fine_grid_refuted"
   ],
   "note": "Refuted in binary64 (C92_float_roundtrip_refuted: the decoded 3.1000000000000005 is rejected as out of range). Proved for every rounding and grid steps of at least 64 unit roundoffs: decoded values that lie in the range are encoded back to their bit string. C92_float_fine_grid_refuted: without the bound on the step bit strings are confused."
  },
  {
   "property": "C93",
   "status": "partial",
   "theorems": [
    "BaumEva.C93_float_index_refuted",
    "BaumEva.C93_float_selection_raises_refuted",
    "BaumEva.C93_float_index_partial",
    "BaumEva.C93_float_total"
   ],
   "note": "Refuted in binary64 (C93_float_index_refuted, C93_float_selection_raises_refuted: seven equal scores, IndexError). Proved for every rounding: the answer is a position of the population for all random numbers below the last entry of the wheel, hence for all but the 8 n largest of the 2^53 values of random()."
  },
  {
   "property": "C94",
   "status": "partial",
   "theorems": [
    "BaumEva.C94_float_tiny_share_refuted",
    "BaumEva.C94_float_proportional_refuted",
    "BaumEva.C94_float_proportional_partial",
    "BaumEva.C94_float_spread_suffices"
   ],
   "note": "Refuted in binary64 (C94_float_tiny_share_refuted: a share of 2^-100 is selected for almost half of all random numbers). Proved for every rounding if every share is at least 16 unit roundoffs (C94_float_spread_suffices gives this for ranks): exact windows, entries within 8 n unit roundoffs of the exact cumulative shares."
  },
  {
   "property": "C95",
   "status": "partial",
   "theorems": [
    "BaumEva.C95_float_score_refuted",
    "BaumEva.C95_float_penalty_swallowed_refuted",
    "BaumEva.C95_float_score_partial",
    "BaumEva.C95_float_minimise_exact"
   ],
   "note": "Refuted in binary64 (strictness fails next to the target, and penalties vanish beside large objective values). Proved for every rounding: scores exist, lie in (0, 1], are 1 on the target, never increase with distance and penalty, strictly decrease beyond a relative difference of 16 unit roundoffs; unpenalised minimisation is exact."
  },
  {
   "property": "C96",
   "status": "proved",
   "theorems": [
    "BaumEva.C96_float_count",
    "BaumEva.C96_float_count_mono"
   ],
   "note": ""
  },
  {
   "property": "C97",
   "status": "partial",
   "theorems": [
    "BaumEva.C97_ffga_float_refuted",
    "BaumEva.C97_ffga_float_partial"
   ],
   "note": "False as stated: an admissible FFGA run of seven equal individuals raises IndexError for random() = 1 - 2^-53 (C97_ffga_float_refuted). Proved for every rounding when no draw is among the 8n largest of 2^53, n bounding the population sizes (C97_ffga_float_partial)."
  },
  {
   "property": "C98",
   "status": "partial",
   "theorems": [
    "BaumEva.C98_float_best_refuted",
    "BaumEva.C98_float_best_partial"
   ],
   "note": "False as stated: scores of points closer to the target than 2^-53 all round to 1 and the first is kept (C98_float_best_refuted). Proved for every rounding: exact without a target, up to a relative 16 ulp of 1 + distance with one (C98_float_best_partial)."
  },
  {
   "property": "C99",
   "status": "partial",
   "theorems": [
    "BaumEva.C99_float_box_refuted",
    "BaumEva.C99_float_box_partial"
   ],
   "note": "False as stated: over the gene (0, 3.1, 1) the objective is called with 3.1000000000000005 (C99_float_box_refuted). Proved for every rounding: never below the lower end, within 16 unit roundoffs of a grid point, and only the last grid point can exceed the upper end on coarse grids (C99_float_box_partial)."
  },
  {
   "property": "C100",
   "status": "proved",
   "theorems": [
    "BaumEva.C100_reevaluated",
    "BaumEva.C100_no_worse",
    "BaumEva.C100_accepted"
   ],
   "note": ""
  },
  {
   "property": "C101",
   "status": "partial",
   "theorems": [
    "BaumEva.C101_float_reuse_refuted",
    "BaumEva.C101_float_reuse_partial"
   ],
   "note": "False as stated: a run over the gene (0, 3.1, 1) reports 3.1000000000000005, which is rejected as input (C101_float_reuse_refuted). Proved for every rounding for points that lie in the ranges, on grids with a step of at least 64 unit roundoffs (C101_float_reuse_partial)."
  },
  {
   "property": "C102",
   "status": "proved",
   "theorems": [
    "BaumEva.C102_assembled_no_exception",
    "BaumEva.C102_roulette_needs_target",
    "BaumEva.C102_misfits_raise"
   ],
   "note": ""
  },
  {
   "property": "C103",
   "status": "proved",
   "theorems": [
    "BaumEva.C103_same_program",
    "BaumEva.C103_same_result",
    "BaumEva.C103_vega",
    "BaumEva.C103_vega_conditions",
    "BaumEva.C103_ffga",
    "BaumEva.C103_other_component"
   ],
   "note": ""
  },
  {
   "property": "C104",
   "status": "proved",
   "theorems": [
    "BaumEva.C104_vega_no_exception",
    "BaumEva.C104_ffga_no_exception",
    "BaumEva.C104_needs_binary",
    "BaumEva.C104_too_many_objectives",
    "BaumEva.C104_tournament_outgrows",
    "BaumEva.C104_ranked_empties",
    "BaumEva.C104_one_needs_binary"
   ],
   "note": ""
  },
  {
   "property": "C105",
   "status": "proved",
   "theorems": [
    "BaumEva.C105_dynamic",
    "BaumEva.C105_adaptive"
   ],
   "note": ""
  },
  {
   "property": "C106",
   "status": "proved",
   "theorems": [
    "BaumEva.C106_float_feasible"
   ],
   "note": ""
  },
  {
   "property": "C107",
   "status": "proved",
   "theorems": [
    "BaumEva.C107_late",
    "BaumEva.C107_missed",
    "BaumEva.C107_optimum",
    "BaumEva.C107_vanishes"
   ],
   "note": ""
  },
  {
   "property": "C108",
   "status": "proved",
   "theorems": [
    "BaumEva.C108_returns",
    "BaumEva.C108_found",
    "BaumEva.C108_optimum",
    "BaumEva.C108_enough"
   ],
   "note": ""
  },
  {
   "property": "C109",
   "status": "proved",
   "theorems": [
    "BaumEva.C109_stops",
    "BaumEva.C109_needs_limit",
    "BaumEva.C109_budget",
    "BaumEva.C109_best_of_all",
    "BaumEva.C109_goal",
    "BaumEva.C109_no_exception",
    "BaumEva.C109_collector",
    "BaumEva.C109_ffga",
    "BaumEva.C109_vega"
   ],
   "note": ""
  },
  {
   "property": "C110",
   "status": "proved",
   "theorems": [
    "BaumEva.C110_stops",
    "BaumEva.C110_budget",
    "BaumEva.C110_truthful",
    "BaumEva.C110_best_of_all",
    "BaumEva.C110_float_best",
    "BaumEva.C110_best_of_feasible",
    "BaumEva.C110_float_feasible"
   ],
   "note": ""
  },
  {
   "property": "C111",
   "status": "proved",
   "theorems": [
    "BaumEva.C111_missed",
    "BaumEva.C111_advanced_missed",
    "BaumEva.C111_optimum",
    "BaumEva.C111_advanced_optimum",
    "BaumEva.C111_vanishes"
   ],
   "note": ""
  },
  {
   "property": "C112",
   "status": "proved",
   "theorems": [
    "BaumEva.C112_returns",
    "BaumEva.C112_advanced_returns",
    "BaumEva.C112_found",
    "BaumEva.C112_optimum",
    "BaumEva.C112_goal",
    "BaumEva.C112_slow",
    "BaumEva.C112_patience"
   ],
   "note": ""
  },
  {
   "property": "C113",
   "status": "proved",
   "theorems": [
    "BaumEva.C113_ffga_returns",
    "BaumEva.C113_vega_returns"
   ],
   "note": ""
  },
  {
   "property": "C114",
   "status": "proved",
   "theorems": [
    "BaumEva.C114_ffga_missed",
    "BaumEva.C114_vega_missed",
    "BaumEva.C114_ffga_front",
    "BaumEva.C114_vega_found"
   ],
   "note": ""
  },
  {
   "property": "C115",
   "status": "partial",
   "theorems": [
    "BaumEva.C115_appends",
    "BaumEva.C115_twice",
    "BaumEva.C115_size_refuted",
    "BaumEva.C115_best_refuted",
    "BaumEva.C115_unused_partial"
   ],
   "note": "False of the code as stated (C115_size_refuted, C115_best_refuted; C115_twice says what happens in every such program). Proved: what fill appends (C115_appends), and the claim for objects no run has used (C115_unused_partial). fill() twice without set_params() in between: see C124."
  },
  {
   "property": "C116",
   "status": "partial",
   "theorems": [
    "BaumEva.C116_two_per_pair",
    "BaumEva.C116_complementary_partial",
    "BaumEva.C116_order",
    "BaumEva.C116_uniform",
    "BaumEva.C116_complementary_refuted",
    "BaumEva.C116_twins",
    "BaumEva.C116_flips_cancel",
    "BaumEva.C116_size"
   ],
   "note": "Proved: two new children per pair from one crossover (C116_two_per_pair), complementary for one- and two-point crossover, permutations for order crossover (C116_order), size of the next generation (C116_size). The full claim is false for UniformCrossover (C116_complementary_refuted): its children share one list (C116_uniform, C116_twins), and inverting every bit cancels out (C116_flips_cancel)."
  },
  {
   "property": "C117",
   "status": "partial",
   "theorems": [
    "BaumEva.C117_mean",
    "BaumEva.C117_mean_bounds",
    "BaumEva.C117_first",
    "BaumEva.C117_stale",
    "BaumEva.C117_same_length_partial",
    "BaumEva.C117_word_refuted"
   ],
   "note": "Proved for the first population (C117_first) and for later ones with genotypes of the same length (C117_same_length_partial). For other lengths false of the code (C117_word_refuted); C117_stale says what the mean is then."
  },
  {
   "property": "C118",
   "status": "proved",
   "theorems": [
    "BaumEva.C118_best",
    "BaumEva.C118_histories",
    "BaumEva.C118_no_improve",
    "BaumEva.C118_stops",
    "BaumEva.C118_elitism",
    "BaumEva.C118_library",
    "BaumEva.C118_two_children",
    "BaumEva.C118_keep_all",
    "BaumEva.C118_needs_elite"
   ],
   "note": ""
  },
  {
   "property": "C119",
   "status": "proved",
   "theorems": [
    "BaumEva.C119_point",
    "BaumEva.C119_as_good",
    "BaumEva.C119_found",
    "BaumEva.C119_collector",
    "BaumEva.C119_advanced",
    "BaumEva.C119_ffga",
    "BaumEva.C119_vega",
    "BaumEva.C119_ffga_front",
    "BaumEva.C119_ffga_front_bound"
   ],
   "note": ""
  },
  {
   "property": "C120",
   "status": "proved",
   "theorems": [
    "BaumEva.C120_search",
    "BaumEva.C120_reported",
    "BaumEva.C120_genotype",
    "BaumEva.C120_reported_refuted",
    "BaumEva.C120_tours_refuted"
   ],
   "note": ""
  },
  {
   "property": "C121",
   "status": "proved",
   "theorems": [
    "BaumEva.C121_no_new_values",
    "BaumEva.C121_values",
    "BaumEva.C121_chance",
    "BaumEva.C121_optimum",
    "BaumEva.C121_refuted"
   ],
   "note": ""
  },
  {
   "property": "C122",
   "status": "proved",
   "theorems": [
    "BaumEva.C122_common",
    "BaumEva.C122_equal",
    "BaumEva.C122_order_changes",
    "BaumEva.C122_order_genes",
    "BaumEva.C122_converged",
    "BaumEva.C122_order_converged",
    "BaumEva.C122_order_refuted",
    "BaumEva.C122_order_common_refuted"
   ],
   "note": ""
  },
  {
   "property": "C123",
   "status": "proved",
   "theorems": [
    "BaumEva.C123_late",
    "BaumEva.C123_missed",
    "BaumEva.C123_vanishes",
    "BaumEva.C123_found",
    "BaumEva.C123_optimum"
   ],
   "note": ""
  },
  {
   "property": "C124",
   "status": "proved",
   "theorems": [
    "BaumEva.C124_appends",
    "BaumEva.C124_level",
    "BaumEva.C124_size",
    "BaumEva.C124_word_broken",
    "BaumEva.C124_word_refuted"
   ],
   "note": ""
  },
  {
   "property": "C125",
   "status": "proved",
   "theorems": [
    "BaumEva.C125_tour",
    "BaumEva.C125_found"
   ],
   "note": ""
  },
  {
   "property": "C126",
   "status": "proved",
   "theorems": [
    "BaumEva.C126_missed",
    "BaumEva.C126_advanced_missed",
    "BaumEva.C126_found",
    "BaumEva.C126_optimum",
    "BaumEva.C126_expected"
   ],
   "note": ""
  },
  {
   "property": "C127",
   "status": "proved",
   "theorems": [
    "BaumEva.C127_any_order",
    "BaumEva.C127_by_position",
    "BaumEva.C127_ffga",
    "BaumEva.C127_vega_any_order",
    "BaumEva.C127_vega",
    "BaumEva.C127_transferred",
    "BaumEva.C127_shrinks",
    "BaumEva.C127_dominated_preferred"
   ],
   "note": ""
  },
  {
   "property": "C128",
   "status": "proved",
   "theorems": [
    "BaumEva.C128_dominance",
    "BaumEva.C128_reorder",
    "BaumEva.C128_redundant",
    "BaumEva.C128_vega_differs"
   ],
   "note": ""
  },
  {
   "property": "C129",
   "status": "proved",
   "theorems": [
    "BaumEva.C129_draws",
    "BaumEva.C129_fair",
    "BaumEva.C129_uniform",
    "BaumEva.C129_one_point",
    "BaumEva.C129_two_point",
    "BaumEva.C129_ends",
    "BaumEva.C129_block_one_point",
    "BaumEva.C129_block_two_point",
    "BaumEva.C129_block_uniform"
   ],
   "note": ""
  },
  {
   "property": "C130",
   "status": "proved",
   "theorems": [
    "BaumEva.C130_mutation",
    "BaumEva.C130_child",
    "BaumEva.C130_tight",
    "BaumEva.C130_one_way"
   ],
   "note": ""
  },
  {
   "property": "C131",
   "status": "proved",
   "theorems": [
    "BaumEva.C131_standard",
    "BaumEva.C131_gray",
    "BaumEva.C131_gray_ends",
    "BaumEva.C131_mutation",
    "BaumEva.C131_mean"
   ],
   "note": ""
  },
  {
   "property": "C132",
   "status": "proved",
   "theorems": [
    "BaumEva.C132_swap",
    "BaumEva.C132_inversion",
    "BaumEva.C132_movement",
    "BaumEva.C132_draws",
    "BaumEva.C132_neighbours"
   ],
   "note": ""
  }
 ]
}