{
"C01": "All integers k; least bit count, reported interval count, loop termination (fuel irrelevant).",
"C02": "All v and n >= 1; plus injectivity of reading.",
"C03": "Both round trips on all naturals, width preservation, loop termination, round trip on strings.",
"C04": "On bit level for all v and on fixed-width strings.",
"C05": "Range, grid formula, both ends; hypothesis Prepared is what fill establishes (C10).",
"C06": "Identity of encode after decode and injectivity of decode, exact arithmetic.",
"C07": "Nearest grid point, rejection of wrong length and out-of-range numbers.",
"C08": "Full statement is false of the code (refuted for (0, 3/2, 1)); holds when the step divides the range, and the real step is always below twice the requested one.",
"C09": "Degenerate genes rejected with unchanged state; converse: all other gene lists accepted.",
"C10": "For all specs, sizes, inputs and tapes: size, indices, empty scores, phenotype exactly for binary populations.",
"C101": "False as stated: a run over the gene (0, 3.1, 1) reports 3.1000000000000005, which is rejected as input (C101_float_reuse_refuted). Proved for every rounding for points that lie in the ranges, on grids with a step of at least 64 unit roundoffs (C101_float_reuse_partial).",
"C11": "Oversized input rejected; categorical/order input adopted verbatim, binary input encoded.",
"C115": "False of the code as stated (C115_size_refuted, C115_best_refuted; C115_twice says what happens in every such program). Proved: what fill appends (C115_appends), and the claim for objects no run has used (C115_unused_partial). fill() twice without set_params() in between: see C124.",
"C116": "Proved: two new children per pair from one crossover (C116_two_per_pair), complementary for one- and two-point crossover, permutations for order crossover (C116_order), size of the next generation (C116_size). The full claim is false for UniformCrossover (C116_complementary_refuted): its children share one list (C116_uniform, C116_twins), and inverting every bit cancels out (C116_flips_cancel).",
"C117": "Proved for the first population (C117_first) and for later ones with genotypes of the same length (C117_same_length_partial). For other lengths false of the code (C117_word_refuted); C117_stale says what the mean is then.",
"C12": "Generated tuples lie in the pools; conversely every pool value is drawn by some draw.",
"C13": "Generated tracks are repetition-free of the declared length; too long tracks raise; fitting ones succeed on long enough tapes.",
"C14": "Position-wise statement for all parents and draws; every inner cut is reachable; short genotypes raise.",
"C15": "Position-wise statement for all parents and draws; short genotypes raise.",
"C16": "Position-wise statement; conversely every mixture is reachable.",
"C17": "Length, repetition-freeness, gene set, segment in place, cyclic order of the rest; permutations of one set stay permutations.",
"C18": "Full statement is false of the code (refuted with parents [0,1,2], [1,1,1]); holds when the other parent is repetition-free; children are never longer.",
"C19": "Frame on the heap, freshness, pairing; hypothesis: parents are allocated objects.",
"C20": "Draw-by-draw statement, alphabet, success on long tapes, frame of execute for every mutation class.",
"C21": "Permutation, change on repetition-free genotypes, exact effect of each operator, short genotypes raise.",
"C22": "Refines the draw-by-draw relation CatMut; stays in pools; no error when all pools offer a choice.",
"C23": "Full statement is false of the code (level 0 still mutates); exact count of triggering draws proved.",
"C24": "Exact acceptance sets, meaning of the words, rejection leaves state unchanged.",
"C28": "Refuted in general (negative scores reverse the preference exactly; score 0 gets half of its neighbour's share or nothing). Partial theorem: holds for strictly positive scores.",
"C31": "Refuted for lowest score -1 (the sentinel of the loop). C31_ranks_partial: every sorted population whose lowest score is not -1. C31_sentinel gives the exact ranks for the rest: m/2 for the m individuals with score -1, which is one half too low (C31_half_too_low), average ranks for the others unless there is only one other, which then also gets m/2; C31_proportional: the shares that follow; C31_no_preference: with one better individual everybody has the same share.",
"C36": "Refuted for binary populations (C36_in_place_refuted; C36_left_swapped says exactly what is left behind: every individual with genotype and phenotype exchanged). C36_in_place_partial: populations without phenotype, any outcome.",
"C39": "Refuted in generation 0, where dynamic and adaptive penalties are 0 for every violation (C39_generation_zero). C39_infeasible_below_partial / C39_evaluated: from generation 1 on, for positive parameters.",
"C40": "Refuted (C40_static_refuted). C40_equalities_free, C40_intervals_raise, C40_coefficients_unused state the three defects for all inputs, C40_exact what is computed, C40_empty_table what happens with an empty list of intervals. C40_static_partial: the claim for '<=' constraints with a single interval and equal coefficient tables.",
"C41": "False of the code for single-objective conditional tasks (refuted for every facade and every state after a successful call). For unconditional and for multi-objective tasks a second call with the draws of the first has the same outcome as the first (C41_again_*_partial).",
"C42": "Any operators, any number of generations; membership, maximality and first index.",
"C43": "Best individual (same object) is the last elite; both transfer modes.",
"C44": "By the run invariant Hist: lengths, order, monotonicity, end.",
"C45": "Independent count `stale` over the history of best scores; update alone also for arbitrary populations.",
"C46": "Loop counts for any operators (also multi-objective); exactness of early stop for single-objective runs; facades pass the parameters on.",
"C47": "Full statement is false of the code: from the second generation on the population has num_individ+1 members (partial theorem, for at least one pair; refutation by a concrete run).",
"C48": "For all three facades, over all recorded generations of a run that returns normally; binary genes must be Proper (left < right, step > 0).",
"C49": "Between updates nothing writes to the recorded best individual; replaced only by a strictly better one.",
"C50": "Equality of the whole outcome for every facade and set_population, all prior random states.",
"C51": "False of the code: with a seed every selection and crossover restarts the stream, so a generation does not depend on the draws left over (proved for all operators). Without a seed draws are consumed one after the other (partial).",
"C52": "Exactness of duplicate detection; order, permutation and stability of the sort; the sort succeeds iff all scores are set.",
"C53": "Ranks after assign_ranks for every population without repeated references and equally long objective vectors; instance after evaluation in the loop.",
"C54": "After every update of a multi-objective run: copies of exactly the non-dominated members, non-empty; in whole VEGA and FFGA runs.",
"C55": "For every generation of CollectorGA with FFGA components (balanced selection or any that keeps ranks) and of the FFGA facade with transfer best.",
"C56": "False of the code (C56_never_lost_refuted: a concrete VEGA run loses a point of its Pareto set without gaining one that dominates it). What holds: the members transferred are the lexicographically largest score vectors of the previous population (C56_lexicographic_partial), so the best value of the first objective is never lost (C56_first_objective).",
"C57": "False of the code (C57_size_refuted: concrete FFGA run with 5, 7, 9 members). What holds for every generation of every run: size = int(children_percent*num_individ) + size of the Pareto set (C57_next_size_partial; 11 for transfer random), and while no member dominates another the population grows by the number of children (C57_grows).",
"C58": "False of the code for survivors (C58_scores_refuted, concrete run). Newly evaluated individuals have score 1/(1+rank) in every generation of every run (C58_new_scores_partial). With transfer best every survivor has score exactly 1/2 whatever its rank, and nobody has more (C58_survivors; C58_survivors_dominated is a run with a dominated survivor).",
"C59": "False of the code (C59_best_survives_refuted, concrete run). In every random-transfer FFGA generation an individual of the worst rank survives (C59_worst_survives_partial).",
"C60": "Blocks for the tournament; for balanced and ranked selection the parents are the selection by the last objective alone.",
"C61": "Refuted for conditional tasks: C61_reversed shows that the objectives are always listed in reverse. C61_in_order_partial: unconditional tasks.",
"C62": "False of the code: no VEGA or FFGA run depends on tournament_size; an objective that needs input_data never completes a run; FFGA runs are identical for penalties that differ in value only; AdaptivePenalty raises KeyError once a child is evaluated. What holds: evaluation uses input_data and the VEGA score contains the configured penalty in every generation (C62_vega_penalty_partial).",
"C64": "False of the code (C64_snapshots_refuted: rank of a recorded individual changes later in a concrete run). Everything of a recorded individual except its index and rank stays fixed in every run, and best_solution is a copy (C64_snapshots_partial).",
"C65": "C65_no_exception: with Admissible parameters the only error of the model is .exhausted (finite list of draws), i.e. Python raises nothing; whether a run can fail to terminate is a separate question (the second-parent loop of the tournament redraws until the index differs). C65_random_without_children, C65_single_bit, C65_repeated_value, C65_categorical_default_level: each unchecked condition is needed.",
"C66": "Proved for BinaryGA, CombinatoryGA, CategoricalGA, FFGA (whole observable outcome, also when the call raises) and VEGA (same result; whole outcome when it succeeds). The history is any sequence of facade calls over the same score type, successful or not, with arbitrary re-seeding in between. CollectorGA is not covered.",
"C67": "Uniformity is stated as: each target has exactly one tuple of reduced draws (draws below the size of the range) leading to it, so under independent uniform draws all targets have the same probability. Probability itself (that random.randint is uniform) is trusted.",
"C68": "Reachability by some draws of the generator; single applications for bit/categorical mutation, finite sequences for the four combinatory mutations.",
"C70": "False as stated. C70_completable_partial proves it under the extra hypothesis tournament_size <= int(children_percent * num_individ) (and no fixed seed, since a fixed seed replays the same draws). C70_hang_refuted gives an admissible call (four individuals, one child per generation, tournaments of three) and draws after which no continuation lets optimize() return: three of the five places of the population hold the same elite, so both parents can never differ.",
"C71": "Successful runs; c.children is floor(children_percent * num_individ), 0 if negative.",
"C74": "The claim that best_solution is feasible once a feasible point was evaluated is refuted by a concrete run (penalties charge nothing in generation 0, so an infeasible individual found there stays best). Proved: flags, objective values and scores are truthful for everybody, and no feasible evaluated point is better than best_solution, so a feasible best_solution is the best feasible point.",
"C75": "Refuted for the tournament size, which is looked at only after the first generation has been evaluated and never if num_generations is 1 (C75_tournament_refuted). Proved: everything else, and that with a bad size and at least two generations a run never returns and evaluates at most num_individ individuals.",
"C76": "Strictly increasing functions: BinaryGA, CombinatoryGA, CategoricalGA without constraints and without obj_value; FFGA and VEGA componentwise without constraints. Constant shift: all single-objective runs.",
"C77": "Refuted for VEGA without conditions, which calls the objective at the origin, a point that need not belong to the box (C77_vega_refuted). Proved for CategoricalGA, CombinatoryGA, BinaryGA, FFGA and VEGA with conditions.",
"C78": "BinaryGA, CombinatoryGA, CategoricalGA, FFGA, VEGA. That the exception of a shorter run is raised by the longer one is stated for FFGA and VEGA without printing.",
"C79": "C79_mean describes every call; C79_between single-objective runs; C79_vega the TypeError for score lists.",
"C80": "Any number of calls with any single-objective components; between calls the limits, random state, seed, mutation level and conditions may change.",
"C81": "Proofs/Touch.lean and Props/Crash.lean: which individuals each component can write, also when it raises; the crash leaves the state of the last completed generation up to things nothing recorded refers to.",
"C82": "Proved in full for permutations and categories (C82_tracks, C82_tuples). For binary genes refuted by a concrete run (C82_points_refuted: base_fitness.py swaps genotype and phenotype before the evaluation loop and swaps back after it, so an exception leaves them exchanged); C82_points_partial proves it for any number of calls that all return.",
"C83": "Exact up to the order of calls; objective vectors of one length assumed (otherwise the ranking itself is undefined). Calls of obj_function and of conditions share one function in the library, so this counts all of them.",
"C84": "Holds for FFGA. For VEGA refuted by a run with the range 1..8: the call that counts the objectives is at 0. All other calls, all individuals and the Pareto set are in range.",
"C85": "Completeness is for FFGA with transfer_parents=best; for VEGA it is false (C56).",
"C86": "C86_next_generation: the generations of the finished run, then one with the chosen points; C86_optimum: best_solution is then at least as good as any given point. Point is stated with OnGrid / IsTuple; the grid of binary genes is exactly the set of decodings (C05_decode_exactly). Uncertain: rate below 0.999 (determines_mutation draws one of 1000 values), where 'strong' needs at least four bits. Not claimed for CombinatoryGA: order crossover and the rearranging mutations can only rearrange genes that survive, see C68.",
"C87": "An execution is a tape of draws; the only failure left is that the tape ends (the run is unfinished). Termination of the roulette loop is not part of the claim: FFGA with a single individual and a child to produce loops forever.",
"C88": "Draws are counted after reduction to the number of remaining candidates (random.sample as selection without replacement, every candidate equally likely).",
"C90": "False of the code as stated: with one child per objective VEGA's elites can fill three of five places with one object, which then wins every tournament of three, and the search for a second parent never ends (C90_vega_hang_refuted: admissible call, concrete draws, all continuations). Proved when a generation has at least three children, or none.",
"C91": "Refuted in binary64 (C91_float_decode_refuted: gene (0, 3.1, 1), '11' decodes to 3.1000000000000005). Proved for every rounding: one value per gene, within 16 unit roundoffs of the larger end of the exact grid point, never below the lower end, and only the last grid point can exceed the upper end; dyadic grids (integer variables) are exact.",
"C92": "Refuted in binary64 (C92_float_roundtrip_refuted: the decoded 3.1000000000000005 is rejected as out of range). Proved for every rounding and grid steps of at least 64 unit roundoffs: decoded values that lie in the range are encoded back to their bit string. C92_float_fine_grid_refuted: without the bound on the step bit strings are confused.",
"C93": "Refuted in binary64 (C93_float_index_refuted, C93_float_selection_raises_refuted: seven equal scores, IndexError). Proved for every rounding: the answer is a position of the population for all random numbers below the last entry of the wheel, hence for all but the 8 n largest of the 2^53 values of random().",
"C94": "Refuted in binary64 (C94_float_tiny_share_refuted: a share of 2^-100 is selected for almost half of all random numbers). Proved for every rounding if every share is at least 16 unit roundoffs (C94_float_spread_suffices gives this for ranks): exact windows, entries within 8 n unit roundoffs of the exact cumulative shares.",
"C95": "Refuted in binary64 (strictness fails next to the target, and penalties vanish beside large objective values). Proved for every rounding: scores exist, lie in (0, 1], are 1 on the target, never increase with distance and penalty, strictly decrease beyond a relative difference of 16 unit roundoffs; unpenalised minimisation is exact.",
"C97": "False as stated: an admissible FFGA run of seven equal individuals raises IndexError for random() = 1 - 2^-53 (C97_ffga_float_refuted). Proved for every rounding when no draw is among the 8n largest of 2^53, n bounding the population sizes (C97_ffga_float_partial).",
"C98": "False as stated: scores of points closer to the target than 2^-53 all round to 1 and the first is kept (C98_float_best_refuted). Proved for every rounding: exact without a target, up to a relative 16 ulp of 1 + distance with one (C98_float_best_partial).",
"C99": "False as stated: over the gene (0, 3.1, 1) the objective is called with 3.1000000000000005 (C99_float_box_refuted). Proved for every rounding: never below the lower end, within 16 unit roundoffs of a grid point, and only the last grid point can exceed the upper end on coarse grids (C99_float_box_partial)."
}