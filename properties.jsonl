{"id": "C01", "title": "Bit budget of a gene is the least sufficient one", "statement": "For every requested number of grid intervals k, the bit count n chosen for a gene is the smallest n with 2**n - 1 >= k, and the reported number of intervals is exactly 2**n - 1; the search terminates for every k.", "quantifier": "all integers k (including k <= 0)", "why_tests_cant": "the search is unbounded; a test samples finitely many k and cannot show minimality or termination for all of them", "anchors": ["baumeva/ga/populations/binary_population.py:get_real_number_of_points"]}
{"id": "C02", "title": "Fixed-width binary encoding is lossless and never truncates", "statement": "Encoding an index v on n >= 1 bits yields exactly n symbols, all \"0\"/\"1\", whose base-2 reading is v, whenever v < 2**n; it raises exactly when v >= 2**n.", "quantifier": "all indices v and widths n >= 1", "why_tests_cant": "unbounded v and n", "anchors": ["baumeva/ga/populations/binary_population.py:index_to_binary", "baumeva/ga/populations/binary_population.py:binary_individ_to_float"]}
{"id": "C03", "title": "Gray coding is a bijection on every width", "statement": "For every natural v, decoding the Gray code of v returns v and Gray-coding the decoding of v returns v; both maps keep values below 2**n below 2**n, so no index of an n-bit gene is lost or made unencodable by is_gray=True.", "quantifier": "all naturals v, all widths n", "why_tests_cant": "unbounded integers; XOR/shift loops of unbounded length", "anchors": ["baumeva/ga/populations/binary_gray_population.py:get_gray_value", "baumeva/ga/populations/binary_gray_population.py:get_index_from_gray", "baumeva/ga/populations/binary_gray_population.py:index_to_binary"]}
{"id": "C04", "title": "Neighbouring grid points differ in one bit under Gray coding", "statement": "For every index v, the Gray codes of v and v+1 differ in exactly one bit position; hence the fixed-width encodings of neighbouring grid points differ in exactly one symbol.", "quantifier": "all naturals v and all widths that can hold v+1", "why_tests_cant": "unbounded integers", "anchors": ["baumeva/ga/populations/binary_gray_population.py:get_gray_value", "baumeva/ga/populations/binary_gray_population.py:index_to_binary"]}
{"id": "C05", "title": "Decoded values stay inside the declared gene range", "statement": "For every list of genes (lo, hi, step) with lo < hi accepted by fill(), every genotype of \"0\"/\"1\" symbols of the right length decodes (binary and Gray) to one number per gene, each within [lo, hi]; the index-0 genotype decodes to lo and the index-(2**n-1) genotype decodes to exactly hi.", "quantifier": "all gene lists, all genotypes of the population length, both codings; arithmetic exact", "why_tests_cant": "number of genes, bits and ranges is unbounded", "anchors": ["baumeva/ga/populations/binary_population.py:get_gens_params", "baumeva/ga/populations/binary_population.py:binary_individ_to_float", "baumeva/ga/populations/binary_gray_population.py:binary_individ_to_float"]}
{"id": "C06", "title": "Decode followed by encode is the identity on genotypes", "statement": "For every accepted gene list with lo < hi and every well-formed genotype, encoding the decoded phenotype gives back the same genotype, for binary and Gray coding (exact arithmetic).", "quantifier": "all gene lists and genotypes; arithmetic exact", "why_tests_cant": "infinitely many genotypes and ranges", "anchors": ["baumeva/ga/populations/binary_population.py:float_individ_to_binary", "baumeva/ga/populations/binary_population.py:binary_individ_to_float", "baumeva/ga/populations/binary_gray_population.py:binary_individ_to_float"]}
{"id": "C07", "title": "User-supplied individuals are encoded to the nearest grid point", "statement": "For every accepted gene list with lo < hi and every input individual with one in-range number per gene, encoding succeeds and the decoded value of each gene is within half a real step of the input; an individual of wrong length or with an out-of-range gene is rejected with an exception.", "quantifier": "all gene lists and input individuals; arithmetic exact", "why_tests_cant": "continuum of inputs", "anchors": ["baumeva/ga/populations/binary_population.py:float_individ_to_binary", "baumeva/ga/populations/binary_population.py:index_to_binary"]}
{"id": "C08", "title": "The grid is at least as fine as the requested step", "statement": "The real step used for a gene is no larger than the step the user asked for. (Holds when the step divides the range; refuted in general.)", "quantifier": "all genes (lo, hi, step) with positive step not larger than the range", "why_tests_cant": "continuum of ranges and steps", "anchors": ["baumeva/ga/populations/binary_population.py:get_gens_params"]}
{"id": "C09", "title": "Degenerate genes are rejected, not silently mis-encoded", "statement": "If any gene of a binary population has a zero step, a range smaller than the step (including lo = hi) or a negative step, then fill() raises ZeroDivisionError before any individual exists, whatever the other genes and draws are.", "quantifier": "all gene lists containing a degenerate gene, all random draws; arithmetic exact", "why_tests_cant": "unbounded gene lists and draws", "anchors": ["baumeva/ga/populations/binary_population.py:get_gens_params", "baumeva/ga/populations/binary_population.py:fill"]}
{"id": "C10", "title": "Initial population has exactly num_individ well-formed members", "statement": "After a successful fill() of any population class the population holds exactly num_individ pairwise distinct individual objects with idx_individ 0..num_individ-1, feasible True and no score; for binary populations every genotype consists of \"0\"/\"1\" of total bit length and every phenotype is the decoding of its genotype.", "quantifier": "all population classes, sizes, gene declarations, valid input populations and random draws", "why_tests_cant": "every random draw sequence and size", "anchors": ["baumeva/ga/populations/cat_population.py:fill", "baumeva/ga/populations/binary_population.py:fill", "baumeva/ga/populations/base_population.py:reset_idx_individ", "baumeva/ga/populations/base_population.py:add_dict"]}
{"id": "C11", "title": "Input individuals are adopted first and in order; oversized input is rejected", "statement": "An input population longer than num_individ raises; otherwise the first len(input_population) individuals of the initial population are the input individuals in order (verbatim copies for categorical/ordinal, encoded for binary).", "quantifier": "all input populations and sizes", "why_tests_cant": "unbounded lists", "anchors": ["baumeva/ga/populations/cat_population.py:set_params", "baumeva/ga/populations/cat_population.py:fill", "baumeva/ga/populations/binary_population.py:set_params", "baumeva/ga/populations/binary_population.py:fill"]}
{"id": "C12", "title": "Generated categorical genes come from their pools", "statement": "Every generated categorical genotype has one value per declared gene; each value is an element of the declared list, or of start, start+step, ... not exceeding end for a declared (start, end, step) with positive step.", "quantifier": "all gene declarations and random draws", "why_tests_cant": "all draws", "anchors": ["baumeva/ga/populations/cat_population.py:get_generated_individ"]}
{"id": "C13", "title": "Generated ordinal individuals are repetition-free tracks", "statement": "For gens (a, b, k) with 0 <= k <= b-a+1 every generated genotype has exactly k pairwise different integers from [a, b]; for k > b-a+1 generation raises ValueError.", "quantifier": "all a, b, k and random draws", "why_tests_cant": "all draws", "anchors": ["baumeva/ga/populations/order_cat_population.py:get_generated_individ"]}
{"id": "C14", "title": "One-point crossover inherits a prefix and the complementary suffix", "statement": "For parents of equal length L >= 2 and every draw, some cut 1 <= c <= L-1 exists such that one child is parent 1 before c and parent 2 from c on and the other the reverse; both children have length L; for L < 2 the operation raises ValueError.", "quantifier": "all parents and draws", "why_tests_cant": "all lengths, contents, draws", "anchors": ["baumeva/ga/crossovers/one_point_crossover.py:crossover"]}
{"id": "C15", "title": "Two-point crossover exchanges exactly one inner segment", "statement": "For parents of equal length L >= 3 and every draw, cuts 1 <= c < d <= L-1 exist such that the children agree with their own parent outside [c, d) and with the other parent inside; for L < 3 the operation raises ValueError.", "quantifier": "all parents and draws", "why_tests_cant": "all lengths, contents, draws", "anchors": ["baumeva/ga/crossovers/two_point_crossover.py:crossover"]}
{"id": "C16", "title": "Uniform crossover takes each gene from a parent at the same locus", "statement": "Every gene of the child equals the gene of one of the two parents at the same position, and the length is that of the parents.", "quantifier": "all parents and draws", "why_tests_cant": "all draws", "anchors": ["baumeva/ga/crossovers/uniform_crossover.py:crossover"]}
{"id": "C17", "title": "Order crossover preserves repetition-freeness and length", "statement": "For repetition-free parents of the same length L >= 3 and every draw, both children have length L, contain no repetition and only genes of the parents; the segment of the own parent stays in place; if both parents are arrangements of the same set, so are the children. For L < 3 it raises ValueError.", "quantifier": "all repetition-free parents and draws", "why_tests_cant": "factorially many parents and all draws", "anchors": ["baumeva/ga/crossovers/order_crossover.py:crossover", "baumeva/ga/crossovers/order_crossover.py:get_idx_segment"]}
{"id": "C18", "title": "Order crossover needs repetition-free parents", "statement": "Order crossover keeps the length of a genotype for arbitrary parents. (Refuted for parents with repeated genes: the child can be shorter.)", "quantifier": "all parents of equal length", "why_tests_cant": "depends on repeated values; unbounded", "anchors": ["baumeva/ga/crossovers/order_crossover.py:crossover"]}
{"id": "C19", "title": "Every parent pair yields exactly one fresh child; parents are untouched", "statement": "After crossover.execute the number of children is exactly half the number of parents, children are new objects without score, marked feasible, and no existing individual was changed.", "quantifier": "all populations, parents, draws, all four crossovers (num_offsprings at its default)", "why_tests_cant": "all heaps and draws", "anchors": ["baumeva/ga/crossovers/base_crossover.py:execute", "baumeva/ga/crossovers/base_crossover.py:get_children", "baumeva/ga/populations/base_population.py:get_empty_individ"]}
{"id": "C20", "title": "Bit mutation flips exactly the drawn positions and keeps the alphabet", "statement": "For every child and draws, the mutated genotype has the same length, is over \"0\"/\"1\" if it was before, and differs exactly at the positions whose draw triggered mutation.", "quantifier": "all genotypes and draws", "why_tests_cant": "2**L subsets of positions", "anchors": ["baumeva/ga/mutations/bin_string_mutation.py:get_mutation"]}
{"id": "C21", "title": "Combinatorial mutations only rearrange genes, and do rearrange them", "statement": "Inversion, movement, shift and swap mutation return a permutation of the genotype for every genotype and draw, and on repetition-free genotypes the result always differs from the input; too short genotypes (< 2, for shift < 3) raise ValueError.", "quantifier": "all genotypes and draws", "why_tests_cant": "factorially many genotypes, all draws", "anchors": ["baumeva/ga/mutations/inversion_mutation.py", "baumeva/ga/mutations/movement_mutation.py", "baumeva/ga/mutations/shift_mutation.py", "baumeva/ga/mutations/swap_mutation.py"]}
{"id": "C22", "title": "Categorical mutation replaces a gene by a different value of its pool", "statement": "Every gene that triggers mutation and whose pool has at least two different values is replaced by a different value of that pool; other genes are unchanged; the length is unchanged.", "quantifier": "all genotypes, pools, draws", "why_tests_cant": "all draws and pools", "anchors": ["baumeva/ga/mutations/categorical_mutation.py:get_mutation"]}
{"id": "C23", "title": "Mutation probability equals mutation_lvl", "statement": "Out of the 1000 equally likely draws, exactly mutation_lvl*1000 trigger mutation. (Refuted: exactly min(1000, floor(1000*lvl)+1) draws trigger; in particular mutation_lvl=0.0 still mutates.)", "quantifier": "all levels in [0,1] and all draws", "why_tests_cant": "continuum of levels; rare event 1/1000", "anchors": ["baumeva/ga/mutations/base_combinatory_mutation.py:determines_mutation", "baumeva/ga/mutations/bin_string_mutation.py:determines_mutation", "baumeva/ga/mutations/categorical_mutation.py:determines_mutation"]}
{"id": "C24", "title": "Mutation level validation", "statement": "Combinatorial and bit mutations accept exactly the strings weak/normal/strong and floats in [0,1] and raise on everything else (including ints); CategoricalMutation accepts only floats in [0,1] - every string, including its own default, raises.", "quantifier": "all level values", "why_tests_cant": "infinite value domain", "anchors": ["baumeva/ga/mutations/base_combinatory_mutation.py:check_mutation", "baumeva/ga/mutations/bin_string_mutation.py:check_mutation", "baumeva/ga/mutations/categorical_mutation.py:check_mutation"]}
{"id": "C25", "title": "Tournament winner is a best participant", "statement": "The individual returned from a tournament is one of its participants and no participant has a strictly higher score.", "quantifier": "all populations, tournaments, score orders", "why_tests_cant": "all score configurations", "anchors": ["baumeva/ga/selections/tournament_selection.py:get_best", "baumeva/ga/selections/vega_tournament_selection.py:get_best"]}
{"id": "C26", "title": "Tournament selection yields int(children_percent*num_individ) pairs of different individuals", "statement": "When tournament selection returns, ga_data.parents holds exactly 2*int(children_percent*num_individ) fresh copies of population members, in pairs of two different individuals; a tournament size < 2 or >= num_individ is rejected; the population keeps its members, genotypes and scores.", "quantifier": "all populations, percentages, draws", "why_tests_cant": "all draws; unbounded retry loop", "anchors": ["baumeva/ga/selections/tournament_selection.py:tournament", "baumeva/ga/selections/tournament_selection.py:execute", "baumeva/ga/selections/tournament_selection.py:check_tournament_size", "baumeva/ga/selections/base_selection.py:execute"]}
{"id": "C27", "title": "Roulette selection is exactly proportional for positive scores", "statement": "If all scores are positive, the drawn index i satisfies cum[i] <= r < cum[i+1] for the random number r, where cum are the cumulative score shares; so every r in [0,1) selects exactly one existing individual and individual i owns an interval of width score_i/sum.", "quantifier": "all positive score lists and all r in [0,1); arithmetic exact", "why_tests_cant": "continuum of r and scores", "anchors": ["baumeva/ga/selections/balanced_selection.py:add_probabilities", "baumeva/ga/selections/balanced_selection.py:get_index"]}
{"id": "C28", "title": "Roulette prefers better individuals", "statement": "Of two individuals the one with the higher score has at least the selection probability of the other. (Refuted when scores are negative, i.e. when minimising without obj_value: probabilities are then inversely ordered.)", "quantifier": "all score lists with non-zero sum", "why_tests_cant": "continuum of scores", "anchors": ["baumeva/ga/selections/balanced_selection.py:add_probabilities", "baumeva/ga/fitness/hyperbola_fitness.py:get_fitness_score"]}
{"id": "C29", "title": "Roulette always returns an index of an existing individual", "statement": "For every score list with non-zero sum (any signs) and every r in [0,1), the returned index is between 0 and len(population)-1; a zero sum raises ZeroDivisionError; a population that can only ever produce one index makes the pair loop run for ever.", "quantifier": "all score lists and draws; arithmetic exact", "why_tests_cant": "continuum; non-termination", "anchors": ["baumeva/ga/selections/balanced_selection.py:get_index", "baumeva/ga/selections/balanced_selection.py:balanced_selection"]}
{"id": "C30", "title": "Ranked selection assigns average ranks to ties", "statement": "For a population sorted by score whose lowest score is not -1, rank selection gives individual i the mean of the 1-based positions of all individuals with an equal score; ranks sum to n(n+1)/2.", "quantifier": "all sorted score lists; arithmetic exact", "why_tests_cant": "all tie patterns", "anchors": ["baumeva/ga/selections/ranked_selection.py:add_probabilities"]}
{"id": "C31", "title": "Ranked selection treats the score -1 specially by accident", "statement": "The average-rank property of C30 holds for every sorted score list. (Refuted: with lowest score exactly -1 the ranks are wrong, because -1 is used as the \"no previous score\" sentinel.)", "quantifier": "all sorted score lists", "why_tests_cant": "single exceptional value in a continuum", "anchors": ["baumeva/ga/selections/ranked_selection.py:add_probabilities"]}
{"id": "C32", "title": "Target fitness lies in (0,1], is 1 exactly on target, and orders by distance", "statement": "With obj_value given and penalty >= 0 the score is in (0,1]; it is 1 iff the objective equals the target and the penalty is 0; for equal penalties a strictly smaller distance gives a strictly larger score, and for equal distance a strictly larger penalty gives a strictly smaller score.", "quantifier": "all objective values, targets, penalties; arithmetic exact", "why_tests_cant": "continuum", "anchors": ["baumeva/ga/fitness/hyperbola_fitness.py:get_fitness_score"]}
{"id": "C33", "title": "Minimisation fitness reverses the penalised objective order", "statement": "Without obj_value, score(x) > score(y) iff objective(x)+penalty(x) < objective(y)+penalty(y).", "quantifier": "all objective values and penalties; arithmetic exact", "why_tests_cant": "continuum", "anchors": ["baumeva/ga/fitness/hyperbola_fitness.py:get_fitness_score"]}
{"id": "C34", "title": "feasible is True exactly when all constraints hold", "statement": "After evaluation of a conditional task, an individual is marked feasible iff every \"<=\" value is <= 0 and every other constraint value is 0.", "quantifier": "all constraint lists and values", "why_tests_cant": "unbounded constraint lists", "anchors": ["baumeva/ga/fitness/base_fitness.py:execute"]}
{"id": "C35", "title": "The objective is called once per new individual, on the decoded value, and never for survivors", "statement": "A single-objective fitness.execute calls the objective exactly once per individual without score, in population order, with the phenotype for binary populations and the genotype otherwise; individuals that already have a score keep all their fields; afterwards genotype and phenotype are in their own places.", "quantifier": "all populations (including ones containing the same object several times) and objectives", "why_tests_cant": "all heaps", "anchors": ["baumeva/ga/fitness/base_fitness.py:execute", "baumeva/ga/fitness/base_fitness.py:calc_obj_func", "baumeva/ga/populations/binary_population.py:swap", "baumeva/ga/populations/binary_population.py:get_phenotype"]}
{"id": "C36", "title": "An exception of the objective leaves the population usable", "statement": "If the objective raises during fitness.execute, genotypes and phenotypes are still in their own places. (Refuted for binary populations: they are left swapped.)", "quantifier": "all crash points", "why_tests_cant": "needs a fault at every evaluation", "anchors": ["baumeva/ga/fitness/base_fitness.py:execute", "baumeva/ga/populations/binary_population.py:swap"]}
{"id": "C37", "title": "Dynamic penalty measures violation and grows with the generation", "statement": "In every arithmetic, with positive delta, c, exponents (natural or not) and generation >= 1 the dynamic penalty is >= 0, is 0 iff all constraints hold, and is non-decreasing in the generation index; unknown constraint signs and length mismatches raise.", "quantifier": "all constraint values, parameters, generations", "why_tests_cant": "continuum", "anchors": ["baumeva/ga/penalties/dynamic_penalty.py", "baumeva/ga/penalties/base_penalty.py:execute"]}
{"id": "C38", "title": "Adaptive penalty weight follows the feasibility of the best solution", "statement": "For generation >= 1 the adaptive penalty is delta*(10/betta_1)*S if the best solution so far is feasible and delta*betta_2*10*S otherwise, S the sum of powered violations (exactly with exact arithmetic); in every arithmetic it is >= 0 and 0 iff all constraints hold; construction rejects betta_1 <= 1, betta_2 <= 1 and equal bettas.", "quantifier": "all values and parameters", "why_tests_cant": "continuum", "anchors": ["baumeva/ga/penalties/adaptive_penalty.py"]}
{"id": "C39", "title": "Violated constraints are penalised in every generation", "statement": "An infeasible individual is scored strictly below a feasible one with the same objective value. (Refuted: in generation 0 dynamic and adaptive penalties are identically 0, so an infeasible individual of generation 0 can stay best_solution for the whole run.)", "quantifier": "all tasks and runs; arithmetic exact", "why_tests_cant": "history property: an early individual blocks all later ones", "anchors": ["baumeva/ga/penalties/dynamic_penalty.py:execute", "baumeva/ga/penalties/adaptive_penalty.py:execute", "baumeva/ga/ga_data.py:update"]}
{"id": "C40", "title": "Static penalty charges violated constraints by their interval coefficient", "statement": "A violated constraint contributes (coefficient of the interval containing the value * |value|)**2. (Refuted: violated equalities contribute nothing, two or more disjoint inequality intervals always raise, and inequality coefficients are never used.)", "quantifier": "all interval tables and values", "why_tests_cant": "continuum", "anchors": ["baumeva/ga/penalties/static_penalty.py:get_sum_conditional_func"]}
{"id": "C41", "title": "optimize() can be repeated on the same object", "statement": "Calling optimize() a second time behaves like the first call. (Refuted for single-objective conditional tasks: the first call removes \"optimize\" from the user list and the second raises.)", "quantifier": "all conditional tasks", "why_tests_cant": "call-history property", "anchors": ["baumeva/ga/fitness/base_fitness.py:set_opt_value", "baumeva/binary_ga.py:optimize"]}
{"id": "C42", "title": "best_solution is the best individual of the whole history", "statement": "After every generation best_solution has the maximal score among all individuals of all generations so far, is a member of one of them, and carries the index of the first generation in which that score was reached.", "quantifier": "all runs: all operators, sizes, generations, draws", "why_tests_cant": "history property over all executions", "anchors": ["baumeva/ga/ga_data.py:update", "baumeva/collector_ga.py:optimize"]}
{"id": "C43", "title": "Elitism: the best individual survives into the next generation", "statement": "NewGeneration keeps the best individual (same object) of the old population as last member of the new one, for transfer_parents \"best\" and \"random\" and any number of children.", "quantifier": "all sorted populations, children, draws", "why_tests_cant": "all duplicates patterns and draws", "anchors": ["baumeva/ga/new_generation.py:execute", "baumeva/ga/new_generation.py:add_best", "baumeva/ga/new_generation.py:add_parents"]}
{"id": "C44", "title": "historical_best is non-decreasing and ends in best_solution", "statement": "In every single-objective run historical_best never decreases, its last entry is the score of best_solution, and historical_worst[g] <= historical_mediocre[g] <= historical_best[g]; all three have idx_generation entries.", "quantifier": "all runs", "why_tests_cant": "history property over all executions", "anchors": ["baumeva/ga/ga_data.py:update", "baumeva/ga/new_generation.py:execute"]}
{"id": "C45", "title": "num_generation_no_improve counts generations since the last improvement", "statement": "After every update, num_generation_no_improve equals the number of most recent generations whose best score did not exceed the best score before them.", "quantifier": "all score histories", "why_tests_cant": "unbounded histories", "anchors": ["baumeva/ga/ga_data.py:update"]}
{"id": "C46", "title": "Stopping rule", "statement": "A run performs at least one and at most max(1,num_generations) generations; it ends early exactly when num_generation_no_improve exceeds early_stop (i.e. after early_stop+1 generations without improvement); with early_stop=None the facades never stop early.", "quantifier": "all runs and parameters", "why_tests_cant": "all histories; off-by-one at unbounded parameter", "anchors": ["baumeva/binary_ga.py:optimize", "baumeva/combinatory_ga.py:optimize", "baumeva/categorical_ga.py:optimize", "baumeva/collector_ga.py:optimize"]}
{"id": "C47", "title": "Population size per generation", "statement": "Every generation has num_individ individuals. (Refuted: from the second generation on it has exactly num_individ+1 whenever 1 <= int(children_percent*num_individ) <= num_individ.)", "quantifier": "all single-objective runs", "why_tests_cant": "all runs, draws", "anchors": ["baumeva/ga/new_generation.py:execute", "baumeva/ga/new_generation.py:add_best", "baumeva/ga/new_generation.py:add_parents"]}
{"id": "C48", "title": "Genotypes stay well-formed in every generation", "statement": "In every generation of a BinaryGA run every genotype is a \"0\"/\"1\" string of the total bit length with phenotype equal to its decoding within the gene ranges; of a CombinatoryGA run (valid input) a repetition-free track over the declared values; of a CategoricalGA run (valid input) a tuple of pool values.", "quantifier": "all runs: parameters, objectives, draws; arithmetic exact", "why_tests_cant": "invariant over all executions", "anchors": ["baumeva/binary_ga.py:optimize", "baumeva/combinatory_ga.py:optimize", "baumeva/categorical_ga.py:optimize"]}
{"id": "C49", "title": "best_solution is a snapshot", "statement": "No later step of the run changes a recorded best_solution other than by replacing it with a strictly better one (selection, crossover, mutation, transfer and evaluation never write through to it).", "quantifier": "all runs", "why_tests_cant": "aliasing over all heaps", "anchors": ["baumeva/ga/ga_data.py:update"]}
{"id": "C50", "title": "A fixed seed makes runs reproducible", "statement": "With generator.rnd_seed set, the result of optimize() does not depend on the prior state of the random module.", "quantifier": "all prior random states, all configurations", "why_tests_cant": "all prior states", "anchors": ["baumeva/ga/populations/base_population.py:__init__", "baumeva/global_generator.py"]}
{"id": "C51", "title": "A fixed seed does not freeze the random stream", "statement": "With generator.rnd_seed set, successive generations use fresh random draws. (Refuted: every selection and every crossover re-seeds, so the draws of every generation are the same and the next population is a function of the current one alone.)", "quantifier": "all seeded runs", "why_tests_cant": "stream-level property over all generations", "anchors": ["baumeva/ga/populations/base_population.py:__init__", "baumeva/ga/populations/base_population.py:get_empty_copy", "baumeva/ga/selections/base_selection.py:execute", "baumeva/ga/crossovers/base_crossover.py:execute"]}
{"id": "C52", "title": "Duplicate detection is exact; sorting is stable and complete", "statement": "is_duplicate is True iff two listed individuals have equal genotypes; sort_by_dict(\"score\") rearranges the population into ascending score order keeping the order of equal scores and losing nobody.", "quantifier": "all populations", "why_tests_cant": "all lists", "anchors": ["baumeva/ga/populations/base_population.py:is_duplicate", "baumeva/ga/populations/base_population.py:sort_by_dict"]}
{"id": "C53", "title": "rank is one plus the number of dominating individuals", "statement": "After ranking, the rank of every individual equals 1 + the number of individuals of the population that are <= in every objective and < in at least one, for populations of pairwise different objects and objective vectors of equal length; hence rank 1 iff non-dominated.", "quantifier": "all populations and objective functions", "why_tests_cant": "all dominance patterns", "anchors": ["baumeva/ga/fitness/multi_fitness.py:inferior", "baumeva/ga/fitness/multi_fitness.py:assign_ranks"]}
{"id": "C54", "title": "The reported Pareto set is exactly the set of non-dominated individuals", "statement": "After update, best_solution[\"pareto_set\"] consists of exactly the non-dominated individuals of the current population and is non-empty.", "quantifier": "all populations", "why_tests_cant": "all dominance patterns", "anchors": ["baumeva/ga/multi_ga_data.py:update", "baumeva/ga/fitness/multi_fitness.py:assign_ranks"]}
{"id": "C55", "title": "FFGA never loses a Pareto point", "statement": "With FFGA and transfer \"best\", for every individual of a generation there is a member of the next generation's Pareto set that is at least as good in every objective.", "quantifier": "all FFGA generations, draws", "why_tests_cant": "history property", "anchors": ["baumeva/ga/multi_new_generation.py:add_best", "baumeva/ga/multi_new_generation.py:execute", "baumeva/ga/multi_ga_data.py:update"]}
{"id": "C56", "title": "VEGA never loses a Pareto point", "statement": "Same as C55 for VEGA. (Refuted: VEGA transfers the lexicographically largest score vectors, so a Pareto point can disappear from best_solution.)", "quantifier": "all VEGA generations; arithmetic exact", "why_tests_cant": "history property", "anchors": ["baumeva/ga/new_generation.py:execute", "baumeva/vega.py:optimize"]}
{"id": "C57", "title": "FFGA population size", "statement": "FFGA keeps the population at num_individ. (Refuted: the next population is all children plus the whole Pareto set, so it can grow in every generation.)", "quantifier": "all FFGA runs", "why_tests_cant": "unbounded growth only visible over long runs", "anchors": ["baumeva/ga/multi_new_generation.py:add_best", "baumeva/ga/multi_new_generation.py:execute"]}
{"id": "C58", "title": "FFGA score reflects the current rank", "statement": "After evaluation every individual has score 1/(1+rank). (Refuted: survivors keep the score of their first evaluation while their rank is recomputed; holds for newly evaluated individuals.)", "quantifier": "all FFGA generations", "why_tests_cant": "history property", "anchors": ["baumeva/ga/fitness/ffga_fitness.py:get_fitness_score", "baumeva/ga/fitness/base_fitness.py:execute"]}
{"id": "C59", "title": "FFGA with transfer_parents=\"random\" keeps the best individual", "statement": "The guaranteed survivor of \"random\" transfer is a best individual. (Refuted for FFGA: the guaranteed survivor is the last of the rank-sorted list, i.e. one with the worst rank.)", "quantifier": "all FFGA generations", "why_tests_cant": "order of lists", "anchors": ["baumeva/ga/multi_new_generation.py:execute", "baumeva/ga/new_generation.py:add_parents"]}
{"id": "C60", "title": "VEGA selects parents for every objective", "statement": "After VEGA tournament selection the parents consist of num_objectives blocks of int(children_percent*num_individ/num_objectives) pairs, block i won by score i. For VEGABalancedSelection/VEGARankedSelection only the block of the last objective survives.", "quantifier": "all populations, objective counts, draws; arithmetic exact", "why_tests_cant": "all draws", "anchors": ["baumeva/ga/selections/vega_tournament_selection.py:tournament", "baumeva/ga/selections/vega_balanced_selection.py:execute", "baumeva/ga/selections/vega_ranked_selection.py:execute"]}
{"id": "C61", "title": "Objective order is preserved for conditional multi-objective tasks", "statement": "obj_score lists the objective values in the order in which the function returns them. (Refuted: with a penalty the order is reversed, so obj_value[i] is compared with the wrong objective; without penalty the order is kept.)", "quantifier": "all condition lists and values", "why_tests_cant": "unbounded lists", "anchors": ["baumeva/ga/fitness/multi_fitness.py:set_opt_value", "baumeva/ga/fitness/multi_fitness.py:set_obj_score", "baumeva/ga/fitness/vega_hyperbola_fitness.py:get_fitness_score"]}
{"id": "C62", "title": "Parameters of the facades are honoured", "statement": "tournament_size, input_data and penalty given to VEGA/FFGA take effect. (Refuted: VEGA and FFGA results do not depend on tournament_size; ranking calls the objective without input_data; AdaptivePenalty raises KeyError from generation 1 on.)", "quantifier": "all configurations", "why_tests_cant": "parametric in all other settings", "anchors": ["baumeva/vega.py:optimize", "baumeva/ffga.py:optimize", "baumeva/ga/fitness/multi_fitness.py:inferior", "baumeva/ga/penalties/adaptive_penalty.py:execute"]}
{"id": "C63", "title": "Shape of the objective result is checked", "statement": "A conditional objective must return exactly as many values as conditions; an unconditional one a scalar; everything else raises. A one-element tuple is accepted by the check but replaced by None, so scoring it raises TypeError. Falsy input_data is not passed.", "quantifier": "all return values", "why_tests_cant": "all shapes", "anchors": ["baumeva/ga/fitness/base_fitness.py:check_input", "baumeva/ga/fitness/base_fitness.py:calc_obj_func"]}
{"id": "C64", "title": "Recorded Pareto sets in historical_best are snapshots", "statement": "Entries of MultiGaData.historical_best do not change later. (Refuted: they reference the live individuals whose rank is rewritten; best_solution[\"pareto_set\"] is a snapshot.)", "quantifier": "all runs", "why_tests_cant": "aliasing over time", "anchors": ["baumeva/ga/multi_ga_data.py:update", "baumeva/ga/fitness/multi_fitness.py:assign_ranks"]}
{"id": "C65", "title": "Single-objective runs raise no exception", "statement": "optimize() of BinaryGA, CombinatoryGA and CategoricalGA raises no exception when the genes are usable (proper ranges with at least two bits in total; tracks of length 3..number of values; non-empty pools that do not repeat a single value), the input population is valid and fits, 2 <= tournament_size < num_individ, the mutation level is admissible for the class, transfer_parents is \"best\" or \"random\" with at least one child per generation, and the objective returns a number (or one value per condition) on the whole search space. Dropping the conditions nobody checks (one child, two bits, different pool values, float level for CategoricalGA) makes it raise.", "quantifier": "all configurations, objectives, histories, draws; exact arithmetic or any rounding, genes then given by machine numbers", "why_tests_cant": "unbounded runs, every random outcome", "anchors": ["baumeva/binary_ga.py:optimize", "baumeva/combinatory_ga.py:optimize", "baumeva/categorical_ga.py:optimize"]}
{"id": "C66", "title": "The outcome of a call does not depend on earlier calls", "statement": "Calling optimize() of any facade gives the same outcome (same exception, or the same result: final population contents, best solution, histories, objective calls) whatever was run before in the process, as long as the settings of the call, the seed, the random numbers still to come (when no seed is given) and the conditions list handed over are the same. No value computed by an earlier run, no individual of an earlier run and no class-level state leaks into a later call.", "quantifier": "all sequences of earlier calls (successful or failed), all configurations, objectives and draws", "why_tests_cant": "unbounded histories; heap aliasing", "anchors": ["baumeva/binary_ga.py:optimize", "baumeva/combinatory_ga.py:optimize", "baumeva/categorical_ga.py:optimize", "baumeva/vega.py:optimize", "baumeva/ffga.py:optimize"]}
{"id": "C67", "title": "Initial individuals are uniformly distributed over the search space", "statement": "For a binary population every bit string, for a combinatory population every arrangement without repetition and for a categorical population every combination of pool values is produced by exactly one combination of reduced random draws, i.e. all possible initial genotypes are equally likely (a pool that repeats a value gives that value its multiplicity as weight). Consequently every list of genotypes of the search space is the initial population for some draws.", "quantifier": "all gene definitions, all target genotypes, all population sizes; arithmetic exact", "why_tests_cant": "needs every draw sequence; a test sees a sample of one", "anchors": ["baumeva/ga/populations/binary_population.py:get_generated_individ", "baumeva/ga/populations/cat_population.py:get_generated_individ", "baumeva/ga/populations/order_cat_population.py:get_generated_individ"]}
{"id": "C68", "title": "No part of the search space is cut off from variation", "statement": "Bit and categorical mutation at a level below 0.999 can turn any genotype of the space into any other in one application; swap, movement, inversion (and shift for three or more genes) can turn any arrangement into exactly its permutations in finitely many applications; every admissible cut of one-point, two-point and ordered crossover, every mask of uniform crossover, and either of the two children can come out.", "quantifier": "all genotypes, all pairs of points, all draws", "why_tests_cant": "reachability over unbounded sequences of mutations", "anchors": ["baumeva/ga/mutations/bin_string_mutation.py:get_mutation", "baumeva/ga/mutations/categorical_mutation.py:get_mutation", "baumeva/ga/mutations/swap_mutation.py:get_mutation", "baumeva/ga/mutations/movement_mutation.py:get_mutation", "baumeva/ga/mutations/inversion_mutation.py:get_mutation", "baumeva/ga/mutations/shift_mutation.py:get_mutation", "baumeva/ga/crossovers/base_crossover.py:get_children", "baumeva/ga/crossovers/one_point_crossover.py:crossover", "baumeva/ga/crossovers/two_point_crossover.py:crossover", "baumeva/ga/crossovers/order_crossover.py:crossover", "baumeva/ga/crossovers/uniform_crossover.py:crossover"]}
{"id": "C69", "title": "Which individuals can become parents in a tournament", "statement": "In a population of scored individuals an individual can win a tournament (for some random draws) exactly if at least tournament_size members, itself included, are no better; so the tournament_size - 1 worst never reproduce and everybody else can. Every pair of possible winners with different index entries can come out as a pair of parents. If all possible winners are one and the same individual, the search for the second parent never ends.", "quantifier": "all populations, scores, tournament sizes and draws", "why_tests_cant": "a statement about all outcomes of a random process", "anchors": ["baumeva/ga/selections/tournament_selection.py:get_best", "baumeva/ga/selections/tournament_selection.py:tournament"]}
{"id": "C70", "title": "A run can always be completed", "statement": "Whatever has been drawn so far, further draws exist with which optimize() of BinaryGA, CombinatoryGA and CategoricalGA returns: no reachable state of a call with admissible arguments makes the selection loop forever.", "quantifier": "all single-objective facades, all admissible configurations, all objectives, all draws made so far, exact arithmetic or any rounding", "why_tests_cant": "A test sees one run ending; that no sequence of draws leads into a state from which the while loop of the tournament cannot end quantifies over all draws and all their continuations. It is false when a generation has fewer children than tournament_size: the copied elites can collapse to one object.", "anchors": ["baumeva/ga/selections/tournament_selection.py:tournament", "baumeva/ga/new_generation.py:execute", "baumeva/binary_ga.py:optimize"]}
{"id": "C71", "title": "Evaluation budget of a run", "statement": "A finished optimize() of BinaryGA, CombinatoryGA or CategoricalGA has called the objective exactly num_individ + (generations - 1) * int(children_percent * num_individ) times: once for every initial individual and once for every child. The arguments are exactly the points of the individuals of its generations: nothing else is evaluated, and no individual carries over a score from outside the run.", "quantifier": "all single-objective facades, configurations, objectives, penalties, draws", "why_tests_cant": "the number of calls and their arguments over all executions", "anchors": ["baumeva/ga/fitness/base_fitness.py:execute", "baumeva/ga/new_generation.py:execute", "baumeva/binary_ga.py:optimize", "baumeva/combinatory_ga.py:optimize", "baumeva/categorical_ga.py:optimize"]}
{"id": "C72", "title": "The reported best is the best point ever evaluated, with its true value", "statement": "In an unconstrained run every individual of every generation carries the objective value of its own point and the score belonging to it (never a value of another individual or of an earlier state of it); best_solution is a point evaluated in this run, its obj_score is the value the objective returns there, and no point evaluated in the run has a smaller objective value (with a target: a smaller distance from the target).", "quantifier": "all single-objective facades, configurations, objectives, draws; arithmetic exact", "why_tests_cant": "quantifies over everything evaluated in all executions; aliasing of individuals across generations", "anchors": ["baumeva/ga/fitness/base_fitness.py:execute", "baumeva/ga/ga_data.py:update", "baumeva/ga/new_generation.py:execute", "baumeva/binary_ga.py:optimize"]}
{"id": "C73", "title": "A warm start is never made worse", "statement": "Every individual of input_population is evaluated by CombinatoryGA and CategoricalGA as given, and by BinaryGA at a grid point at most half a grid step away in each coordinate (at the individual itself if it is on the grid). Hence in unconstrained runs the best solution is at least as good as every supplied individual.", "quantifier": "all facades, input populations, configurations, objectives, draws; arithmetic exact", "why_tests_cant": "all input populations and executions", "anchors": ["baumeva/ga/populations/base_population.py:fill", "baumeva/ga/populations/binary_population.py:get_phenotype", "baumeva/ga/ga_data.py:update"]}
{"id": "C74", "title": "Feasibility in constrained runs", "statement": "In a run with constraints every individual of every generation and best_solution carry the objective value at the position of optimize for their own point and a feasible flag that is true exactly if the values returned there satisfy the conditions. If a feasible point was evaluated then best_solution is feasible and no feasible point evaluated in the run is better.", "quantifier": "all single-objective facades, conditions, penalties, objectives, draws; arithmetic exact", "why_tests_cant": "quantifies over everything evaluated in all executions", "anchors": ["baumeva/ga/fitness/base_fitness.py:execute", "baumeva/ga/penalties/dynamic_penalty.py:execute", "baumeva/ga/ga_data.py:update"]}
{"id": "C75", "title": "Mistakes in the parameters are reported before the objective is called", "statement": "More input individuals than num_individ, constraints without an entry to optimize, an undocumented mutation level, an unknown transfer_parents, a binary gene without a grid and a binary input individual outside its box make optimize() raise before the objective is called for the first time (VEGA without conditions: after its one probing call), whatever is drawn. A tournament size below 2 or not below num_individ is reported as well.", "quantifier": "all facades, configurations, objectives, draws", "why_tests_cant": "all configurations and executions, including failing ones", "anchors": ["baumeva/ga/populations/base_population.py:set_params", "baumeva/ga/populations/binary_population.py:float_individ_to_binary", "baumeva/ga/new_generation.py:__init__", "baumeva/ga/mutations/base_mutation.py", "baumeva/ga/fitness/base_fitness.py:check_task", "baumeva/ga/selections/tournament_selection.py:execute"]}
{"id": "C76", "title": "Only the order of the objective values matters", "statement": "Replacing an unconstrained objective without target by a strictly increasing function of it leaves the whole run unchanged: the same individuals in every generation, the same number of generations, the same best solution; only the recorded values change by that function. Adding a constant to objective and target changes nothing for any constraints and penalties. For FFGA and VEGA the same holds with one strictly increasing function per objective.", "quantifier": "all configurations, objectives, strictly increasing functions, draws; arithmetic exact", "why_tests_cant": "relates two runs for every objective and every transformation", "anchors": ["baumeva/ga/fitness/hyperbola_fitness.py:get_fitness_score", "baumeva/ga/fitness/vega_hyperbola_fitness.py:get_fitness_score", "baumeva/ga/fitness/ffga_fitness.py:get_fitness_score", "baumeva/ga/selections/tournament_selection.py:execute", "baumeva/ga/ga_data.py:update"]}
{"id": "C77", "title": "Names and units of the gene values do not matter", "statement": "Renaming the values of categorical genes, shifting the numbers of a permutation, or changing the units of all binary genes (x to a*x+d with a > 0 on box and step) together with the objective gives the same run up to this renaming.", "quantifier": "all configurations, injective renamings, a > 0, d, objectives, draws; arithmetic exact", "why_tests_cant": "relates two runs for every renaming and every configuration", "anchors": ["baumeva/ga/populations/cat_population.py:get_generated_individ", "baumeva/ga/populations/order_cat_population.py:get_generated_individ", "baumeva/ga/populations/binary_population.py:get_phenotype", "baumeva/ga/crossovers/base_crossover.py:execute", "baumeva/ga/mutations/base_mutation.py:execute"]}
{"id": "C78", "title": "A longer run extends a shorter one", "statement": "With the same draws, raising num_generations or early_stop leaves everything the shorter run recorded in place: its generations, histories and objective calls are a prefix of those of the longer run (even if that one later raises), an exception of the shorter run is raised by the longer one too, and the answer of a longer single-objective run is at least as good.", "quantifier": "all configurations, objectives, start states, draws and pairs of limits", "why_tests_cant": "relates two runs of any length", "anchors": ["baumeva/ga/populations/base_population.py", "baumeva/ga/ga_data.py:update", "baumeva/ga/multi_ga_data.py:update", "baumeva/ga/new_generation.py", "baumeva/ga/multi_new_generation.py"]}
{"id": "C79", "title": "get_avg_score is the mean of the current scores", "statement": "get_avg_score() leaves the data unchanged and returns the sum of the scores of the current population divided by its size; in single-objective runs it always succeeds and lies between the last entries of historical_worst and historical_best. It raises ZeroDivisionError for an empty population and TypeError while somebody is not evaluated; with the score lists of VEGA it always raises TypeError.", "quantifier": "all populations and scores; all runs, operators, draws and generations", "why_tests_cant": "A test compares one average with one expected number; it cannot cover repeated members and every population a run can produce.", "anchors": ["baumeva/ga/ga_data.py:get_avg_score", "baumeva/ga/multi_ga_data.py:get_avg_score"]}
{"id": "C80", "title": "optimize() of a CollectorGA can be called again to continue the run", "statement": "After any number of optimize() calls on the same storage (with possibly other components, limits, seeds in between) the histories have one entry per generation of all calls, historical_best never decreases, best_solution has the largest score of all recorded generations and num_generation_no_improve counts over all calls. A further call keeps everything recorded, appends first an entry for the population it starts with (no objective call), then at most num_generations-1 new generations with int(children_percent*num_individ) objective calls each, and does not lose the best score. As the counter is not reset, a call made when it already exceeds early_stop ends after one new generation unless that one improves.", "quantifier": "all numbers of calls, all single-objective components, limits, objectives and draws", "why_tests_cant": "Tests call optimize once or twice with fixed draws; the claim is an invariant over any number of calls with any components.", "anchors": ["baumeva/collector_ga.py:optimize", "baumeva/ga/ga_data.py:update", "baumeva/ga/fitness/base_fitness.py:execute"]}
{"id": "C81", "title": "An exception in optimize() loses nothing that was recorded, and the run can be resumed", "statement": "If optimize() of a single-objective CollectorGA raises at any point (objective, operator, exhausted draws), the storage holds exactly what it held after the last generation the call completed: histories, generation number, counter and best_solution, including its contents. This stays true over any sequence of calls that return or raise, with other components in between. A later call that returns keeps all that was recorded, evaluates the members of the population that have no score yet and then int(children_percent*num_individ) children per further generation: no score already paid for is computed again.", "quantifier": "all sequences of calls, points of failure, single-objective components, limits, objectives and draws", "why_tests_cant": "The exception may come from any call of the objective, any component, in any generation of any of the calls; tests can raise at a few chosen places only.", "anchors": ["baumeva/collector_ga.py:optimize", "baumeva/ga/fitness/base_fitness.py:execute", "baumeva/ga/ga_data.py:update", "baumeva/ga/new_generation.py:execute"]}
{"id": "C82", "title": "The objective is only called at points of the search space, also after exceptions", "statement": "Over any sequence of optimize() calls of a CollectorGA that return or raise, every argument the objective ever gets, every member of the population and every recorded individual stays in the search space: repetition-free tracks for permutations (order crossover, any rearranging mutation), pool values at every position for categories (any positional crossover), points of the box for binary genes. (Refuted for binary genes: if the objective raises once, genotypes and phenotypes stay exchanged and the next optimize() hands the objective raw bit strings; it holds for binary genes as long as no call raised.)", "quantifier": "all sequences of calls, points of failure, selections, listed operators, objectives, populations and draws; arithmetic exact", "why_tests_cant": "Tests would have to raise at every evaluation of every generation and inspect every argument of all later calls.", "anchors": ["baumeva/collector_ga.py:optimize", "baumeva/ga/fitness/base_fitness.py:execute", "baumeva/ga/crossovers/base_crossover.py:execute", "baumeva/ga/mutations/base_mutation.py:execute"]}
{"id": "C83", "title": "Exact evaluation budget of the multi-objective runs", "statement": "In a finished FFGA run the objective is called exactly n*(n-1) times for every generation of n individuals (each member once for every other member, to rank them), num_individ times for the first generation and int(children_percent*num_individ) times for every further one; VEGA makes the same calls with m*int(children_percent*num_individ/m) children for m objectives, after one call at the origin that counts the objectives (only without conditions). Every call is at the point of an individual of a recorded generation, and every individual of every generation was evaluated.", "quantifier": "all parameters, objectives with vectors of one length, genes, tapes of draws", "why_tests_cant": "The number of calls depends on generation sizes that vary with the number of non-dominated individuals; tests count calls in a few runs.", "anchors": ["baumeva/ga/fitness/multi_fitness.py:inferior", "baumeva/ga/fitness/multi_fitness.py:assign_ranks", "baumeva/ga/fitness/ffga_fitness.py:execute", "baumeva/vega.py:optimize", "baumeva/ffga.py:optimize"]}
{"id": "C84", "title": "Multi-objective runs stay in the search space", "statement": "In a finished FFGA or VEGA run every individual of every generation and every member of the reported Pareto set is a bit string of the length the genes need whose phenotype is its decoding and lies in the declared ranges, and the objective is only called at points in the declared ranges. (Refuted for VEGA: without conditions it first calls the objective at the origin, whatever the ranges are; all other calls are in range.)", "quantifier": "all parameters, proper gene ranges, objectives with vectors of one length, tapes of draws; arithmetic exact", "why_tests_cant": "Tests see the points of a few runs; the claim is about every call of every run.", "anchors": ["baumeva/ga/populations/binary_population.py:get_phenotype", "baumeva/ga/fitness/multi_fitness.py:execute", "baumeva/vega.py:optimize", "baumeva/ffga.py:optimize"]}
{"id": "C85", "title": "The reported Pareto set is truthful and complete", "statement": "Without constraints every individual of every generation, hence every reported Pareto member, carries the objective values of its own point (for VEGA also the scores computed from them). With transfer_parents=\"best\" and no input_data the Pareto set FFGA reports is the answer for everything the run has looked at: its members were evaluated, every evaluated point is matched by a member in all objectives, and no evaluated point dominates a member.", "quantifier": "all parameters, objectives with vectors of one length, genes, tapes of draws", "why_tests_cant": "A test can compare the reported set with the calls of a few runs; the claim needs the evaluation, ranking, transfer and recording to agree in all runs.", "anchors": ["baumeva/ga/fitness/multi_fitness.py:assign_ranks", "baumeva/ga/fitness/multi_fitness.py:execute", "baumeva/ga/multi_ga_data.py:update", "baumeva/ffga.py:optimize", "baumeva/vega.py:optimize"]}
{"id": "C86", "title": "No point of the search space ever gets out of reach", "statement": "Take any finished run of BinaryGA or CategoricalGA with admissible parameters, at least tournament_size children per generation and a mutation rate below 0.999. The same call with more generations can make the same generations and then one that contains any chosen points of the search space (grid points of the genes, tuples of the categories), as many as there are children, and finish. So for unconstrained tasks a global optimum can be found in the very next generation, whatever the population has converged to.", "quantifier": "all admissible parameters, objectives, past draws, numbers of further generations and target points; arithmetic exact", "why_tests_cant": "Whether a converged population can still leave its local optimum depends on the whole past of the run; tests can only run the algorithm and hope.", "anchors": ["baumeva/binary_ga.py:optimize", "baumeva/categorical_ga.py:optimize", "baumeva/ga/mutations/base_mutation.py:execute", "baumeva/ga/selections/tournament_selection.py", "baumeva/ga/crossovers/base_crossover.py:execute"]}
{"id": "C87", "title": "Multi-objective runs with admissible parameters raise no exception", "statement": "With usable binary genes, input points of the search space, an admissible mutation level and an objective that returns vectors of one length (with a DynamicPenalty or a custom penalty for conditional tasks), FFGA.optimize() and VEGA.optimize() end without an exception. For FFGA one individual is enough, with transfer_parents=\"random\" eleven are needed; VEGA needs four individuals, as many target values as objectives and, with transfer_parents=\"random\", at least one child. Outside these limits the library does raise: ValueError, Exception and IndexError are shown.", "quantifier": "all admissible parameters, objectives, penalties, numbers of generations and tapes of draws; VEGA in any arithmetic, FFGA in exact arithmetic (see C97)", "why_tests_cant": "The exceptions depend on sizes and scores that evolve during the run (empty fronts, samples larger than the population, divisions by rank or penalty); tests see only some populations.", "anchors": ["baumeva/ffga.py:optimize", "baumeva/vega.py:optimize", "baumeva/ga/fitness/multi_fitness.py:execute", "baumeva/ga/fitness/multi_fitness.py:assign_ranks", "baumeva/ga/multi_new_generation.py", "baumeva/ga/selections/balanced_selection.py", "baumeva/ga/selections/vega_tournament_selection.py", "baumeva/ga/multi_ga_data.py:update"]}
{"id": "C88", "title": "How often an individual wins a tournament", "statement": "In a tournament of k among n scored places each of the n(n-1)...(n-k+1) draws is equally likely and decides one winner. The winner is no better than x for exactly c(c-1)...(c-k+1) draws, where c places are no better than x. Equally good places win equally often, better ones strictly more often whenever they can win at all; an individual whose score nobody shares and that has c worse opponents wins with probability choose(c,k-1)/choose(n,k). An individual that fills several places (elites are repeated) wins as often as its places together. A pair of parents is two such tournaments, the second repeated while it yields the index of the first.", "quantifier": "all populations, scores, tie patterns, repeated members and tournament sizes; all draws, counted exactly; single-objective and VEGA tournaments", "why_tests_cant": "Selection pressure is a statement about the distribution over all draws; sampling in a test only estimates it and cannot exclude a bias for particular populations.", "anchors": ["baumeva/ga/selections/tournament_selection.py:tournament", "baumeva/ga/selections/tournament_selection.py:get_best", "baumeva/ga/selections/vega_tournament_selection.py:get_best"]}
{"id": "C89", "title": "FFGA runs with two or more individuals can always be completed", "statement": "With admissible parameters (as in C87) and at least two individuals, FFGA never drives itself into a corner: whatever random numbers a run has consumed so far, there are further ones with which optimize() returns.  The only loop that could run forever, the roulette looking for a second parent at a different place, always has two reachable places.  With a single individual, children_percent >= 1 and two or more generations the opposite holds: optimize() returns for no sequence of draws. (With transfer \"random\" the population must stay below the 2^53 values random.random() can take.)", "quantifier": "for all genes, both codings, all objectives, populations, percentages, transfers, conditions and penalties admissible in the sense of C87, and all finite sequences of random numbers drawn so far; arithmetic exact", "why_tests_cant": "Possible non-termination depends on weights that shrink as populations grow; a test sees single runs and no finite number of them shows that every reachable state has a way on.", "anchors": ["baumeva/ffga.py:optimize", "baumeva/ga/selections/balanced_selection.py:execute", "baumeva/ga/fitness/ffga_fitness.py:get_fitness_score"]}
{"id": "C90", "title": "VEGA runs can always be completed", "statement": "With admissible parameters (as in C87), whatever random numbers a VEGA run has consumed so far, there are further ones with which optimize() returns.", "quantifier": "for all admissible VEGA calls and all finite sequences of random numbers drawn so far, exact arithmetic or any rounding", "why_tests_cant": "That a run cannot get stuck is a statement about all reachable states; the failing ones need an unlucky sequence of elites.", "anchors": ["baumeva/vega.py:optimize", "baumeva/ga/selections/vega_tournament_selection.py:execute", "baumeva/ga/new_generation.py:execute"]}
{"id": "C91", "title": "Machine arithmetic: decoded values stay in the range of their gene", "statement": "With binary64 floats instead of exact numbers, every bit string of the total length decodes to one value per gene, close to the grid point it denotes and inside the range of the gene.", "quantifier": "all genes with machine-number ends, all bit strings, both codings, all roundings with relative error 2^-53", "why_tests_cant": "Whether hi is exceeded depends on the last bit of three roundings; tests with round numbers never see it.", "anchors": ["baumeva/ga/populations/binary_population.py:get_gens_params", "baumeva/ga/populations/binary_population.py:binary_individ_to_float", "baumeva/ga/populations/binary_gray_population.py:binary_individ_to_float"]}
{"id": "C92", "title": "Machine arithmetic: a decoded solution can be fed back as input individual", "statement": "With binary64 floats the values decoded from a bit string are accepted by float_individ_to_binary and encoded to the same bit string, so the result of one run can start the next.", "quantifier": "all genes whose grid step is at least 64 unit roundoffs of the larger end, all bit strings, both codings, all roundings", "why_tests_cant": "Needs an error analysis of decode followed by encode for every index; the failing values differ from valid ones in the last bit.", "anchors": ["baumeva/ga/populations/binary_population.py:float_individ_to_binary", "baumeva/ga/populations/binary_population.py:binary_individ_to_float", "baumeva/ga/populations/binary_population.py:get_gens_params"]}
{"id": "C93", "title": "Machine arithmetic: the roulette wheel always answers a position of the population", "statement": "With binary64 floats get_index returns an index of the population for every value of random(), so selection raises no IndexError.", "quantifier": "all lists of positive scores, all random numbers, all roundings, all ways to sum with the stated error", "why_tests_cant": "The failing random numbers are a few out of 2^53.", "anchors": ["baumeva/ga/selections/balanced_selection.py:add_probabilities", "baumeva/ga/selections/balanced_selection.py:get_index", "baumeva/ga/selections/ranked_selection.py:add_probabilities"]}
{"id": "C94", "title": "Machine arithmetic: roulette selects in proportion to the scores", "statement": "With binary64 floats the wheel answers i exactly for random numbers between the cumulative shares i and i+1, and these are the exact cumulative shares up to a few unit roundoffs.", "quantifier": "all lists of positive scores, all random numbers, all roundings", "why_tests_cant": "Statistical tests use scores of similar size; the failure needs scores of very different magnitude and looks like a legal choice.", "anchors": ["baumeva/ga/selections/balanced_selection.py:add_probabilities", "baumeva/ga/selections/balanced_selection.py:get_index"]}
{"id": "C95", "title": "Machine arithmetic: the score ranks individuals like the exact formula", "statement": "With binary64 floats a smaller distance from the target or a smaller penalty means a higher score; scores with a target lie in (0, 1] and are 1 on the target; without target and penalty the score is exactly the negated objective value.", "quantifier": "all targets, objective values and penalties, all roundings", "why_tests_cant": "Equal scores of different individuals arise only for special magnitudes.", "anchors": ["baumeva/ga/fitness/hyperbola_fitness.py:get_fitness_score"]}
{"id": "C96", "title": "Machine arithmetic: number of selected pairs", "statement": "With rounding the number int(children_percent * num_individ) is at most the population size, grows with children_percent and differs from the exact count by at most one.", "quantifier": "all percentages between 0 and 1, all population sizes up to 2^53, all roundings", "why_tests_cant": "Off-by-one effects of the product occur for scattered combinations only.", "anchors": ["baumeva/ga/selections/balanced_selection.py:get_total_num_parents", "baumeva/ga/selections/tournament_selection.py:get_total_num_parents"]}
{"id": "C97", "title": "Machine arithmetic: FFGA runs raise no exception", "statement": "With admissible parameters (as in C87) FFGA.optimize() raises no exception when every operation is carried out in binary64.", "quantifier": "all admissible FFGA calls and draws; the partial theorem holds for all roundings with relative error 2^-53", "why_tests_cant": "The failing runs need a random number among a few of the 2^53 possible ones.", "anchors": ["baumeva/ffga.py:optimize", "baumeva/ga/selections/balanced_selection.py:get_index", "baumeva/ga/selections/balanced_selection.py:execute"]}
{"id": "C98", "title": "Machine arithmetic: nothing evaluated beats the reported best", "statement": "In an unconstrained run of BinaryGA, CombinatoryGA or CategoricalGA in binary64 the best solution is a point the objective was called with, obj_score is its value, and no point evaluated in the run is smaller or closer to the target.", "quantifier": "all facades, settings, objectives whose values are machine numbers, targets and draws; the partial theorem holds for all roundings", "why_tests_cant": "Points hidden by rounding differ by less than the last bit of a score; tests compare with tolerances.", "anchors": ["baumeva/binary_ga.py:optimize", "baumeva/ga/fitness/hyperbola_fitness.py:get_fitness_score", "baumeva/ga/ga_data.py:update"]}
{"id": "C99", "title": "Machine arithmetic: the objective is called inside the search range", "statement": "In binary64 BinaryGA calls the objective only with values inside the declared ranges of the genes.", "quantifier": "all admissible BinaryGA calls, objectives and draws; the partial theorem holds for all roundings", "why_tests_cant": "Only the last point of particular grids is affected, and only by one unit in the last place.", "anchors": ["baumeva/binary_ga.py:optimize", "baumeva/ga/populations/binary_population.py:binary_individ_to_float", "baumeva/ga/populations/binary_gray_population.py:binary_individ_to_float"]}
{"id": "C100", "title": "Results can be used as input of another run without loss", "statement": "A point evaluated in one run of BinaryGA, CombinatoryGA or CategoricalGA (in particular its best solution) is accepted as input individual by another run on the same genes, is evaluated there unchanged, and the second run reports a solution at least as good as it.", "quantifier": "all pairs of runs with any settings and draws, unconstrained tasks for the comparison; arithmetic exact", "why_tests_cant": "Tests restart from a few solutions; the claim covers every decodable point of every grid and both codings.", "anchors": ["baumeva/binary_ga.py:optimize", "baumeva/combinatory_ga.py:optimize", "baumeva/categorical_ga.py:optimize", "baumeva/ga/populations/binary_population.py:float_individ_to_binary", "baumeva/ga/populations/base_population.py:fill"]}
{"id": "C101", "title": "Machine arithmetic: results can be used as input of another run", "statement": "In binary64 a point evaluated in an admissible run is accepted as input individual by another run and evaluated there unchanged.", "quantifier": "all admissible runs, points and draws; the partial theorem holds for all roundings", "why_tests_cant": "Only the last point of particular grids is affected.", "anchors": ["baumeva/binary_ga.py:optimize", "baumeva/ga/populations/binary_population.py:float_individ_to_binary", "baumeva/ga/populations/binary_population.py:binary_individ_to_float"]}
{"id": "C102", "title": "A genetic algorithm assembled with CollectorGA from components that fit raises no exception", "statement": "A program that gives `CollectorGA` any of the three selections, and a crossover and a mutation which work on the kind of population and on genotypes of that length, then calls `set_population` and `optimize`, raises no exception; the roulette on scores needs a target value.", "quantifier": "all populations, genes, selections, crossovers, mutations, numbers of individuals (at least two), mutation levels, objectives with or without constraints and a penalty, targets, draws; exact arithmetic or any rounding (for the roulettes in machine arithmetic: no random number among the largest 8*population of the 2^53 possible ones)", "why_tests_cant": "The number of combinations of components is large, every component raises exceptions on some input, and constructors do not check that components fit together.", "anchors": ["baumeva/collector_ga.py:set_population", "baumeva/collector_ga.py:optimize", "baumeva/ga/selections/ranked_selection.py:execute", "baumeva/ga/selections/balanced_selection.py:execute", "baumeva/ga/crossovers/two_point_crossover.py:crossover", "baumeva/ga/mutations/shift_mutation.py:get_mutation"]}
{"id": "C103", "title": "Ready-made classes and CollectorGA with the same components are the same program", "statement": "If the constructors accept the parameters, `BinaryGA`, `CombinatoryGA`, `CategoricalGA`, `VEGA` and `FFGA` do exactly what `CollectorGA` does with the components of the class: the same calls of the objective, the same recorded data, the same best solution, or the same exception in the same state. With or without printing, one of the single-objective classes finishes if and only if the collector does.", "quantifier": "all parameters, objectives and draws", "why_tests_cant": "The five classes repeat the main loop instead of using the collector, and a difference shows only in particular runs.", "anchors": ["baumeva/collector_ga.py:optimize", "baumeva/binary_ga.py:optimize", "baumeva/combinatory_ga.py:optimize", "baumeva/categorical_ga.py:optimize", "baumeva/vega.py:optimize", "baumeva/ffga.py:optimize"]}
{"id": "C104", "title": "Multi-objective programs in collector mode raise no exception", "statement": "A program that gives `CollectorGA` a binary population, `VEGAFitness` with any of the three VEGA selections and `NewGeneration`, or `FFGAFitness` with any of the three selections and `MultiNewGeneration`, and a crossover and a mutation which fit the genotypes, raises no exception in `set_population` and `optimize` if the selection suits the populations that occur; with a population that is not binary, no multi-objective program of two or more individuals comes to an end.", "quantifier": "all binary populations (Gray or not), genes, selections, positional crossovers, mutations, mutation levels, vector objectives with or without constraints and a penalty, targets, draws; exact arithmetic or any rounding (for roulettes in machine arithmetic: no random number among the largest 8*population of the 2^53 possible ones)", "why_tests_cant": "Population sizes change from generation to generation and depend on the fronts; whether a tournament still fits, or any member is left, shows only in long runs of particular fronts.", "anchors": ["baumeva/collector_ga.py:set_population", "baumeva/collector_ga.py:optimize", "baumeva/ga/fitness/multi_fitness.py:execute", "baumeva/ga/fitness/ffga_fitness.py:execute", "baumeva/ga/selections/vega_tournament_selection.py:execute", "baumeva/ga/selections/vega_balanced_selection.py:execute", "baumeva/ga/selections/vega_ranked_selection.py:execute", "baumeva/ga/multi_new_generation.py:execute"]}
{"id": "C105", "title": "Machine arithmetic: penalties keep their value up to the rounding of a few operations", "statement": "With natural exponents the computed dynamic penalty differs from delta*(c*generation)**alpha*S by at most 2*(alpha + n + 4)*2^-53 of it, the adaptive penalty from generation 1 on from delta*10/betta_1*S or delta*10*betta_2*S by at most 2*(n + 5)*2^-53 of it; S is the sum of the powered violations and n the number of constraints.", "quantifier": "all roundings with the laws of binary64, parameters, exponents, constraint lists, values and generations", "why_tests_cant": "Error bounds over all values and numbers of constraints.", "anchors": ["baumeva/ga/penalties/dynamic_penalty.py:execute", "baumeva/ga/penalties/adaptive_penalty.py:execute"]}
{"id": "C106", "title": "Machine arithmetic: no feasible point evaluated beats the best solution", "statement": "In a constrained run of BinaryGA, CombinatoryGA or CategoricalGA whose objective returns machine numbers the best solution is a point the objective was called with, obj_score and feasible are what was returned there, and no feasible point evaluated is smaller (minimisation), or closer to the target by more than a relative 16*2^-53 of 1 + distance.", "quantifier": "all roundings with the laws of binary64, facades, settings, objectives, constraints, library penalties with positive parameters and draws", "why_tests_cant": "Quantifies over everything evaluated in every execution, with rounding in scores and penalties.", "anchors": ["baumeva/binary_ga.py:optimize", "baumeva/ga/fitness/base_fitness.py:get_penalty_value", "baumeva/ga/fitness/hyperbola_fitness.py:get_fitness_score", "baumeva/ga/ga_data.py:update"]}
{"id": "C107", "title": "The chance to miss a given solution falls geometrically with the generations", "statement": "Let the random numbers be independent and uniform. The chance that BinaryGA or CategoricalGA returns after n or more generations without having evaluated a given point of the search space is at most (1 - d)^(n-1), where d > 0 depends on the search space only ((1/1000)^bits, or the product of 1/(1000 * number of values) over the genes). In an unconstrained task the chance to return a best solution worse than any given point has the same bound; for runs without early stop both tend to 0 as num_generations grows, uniformly in all other settings.", "quantifier": "all admissible calls with at least one child per generation and an undecided mutation level, all points, numbers of generations and lengths of the random tape; arithmetic exact", "why_tests_cant": "A statement about the probability over all executions; sampling runs can only estimate it.", "anchors": ["baumeva/binary_ga.py:optimize", "baumeva/categorical_ga.py:optimize", "baumeva/ga/mutations/bin_string_mutation.py:get_mutation", "baumeva/ga/mutations/categorical_mutation.py:get_mutation"]}
{"id": "C108", "title": "Runs return, and find any given solution, with probability one in the limit", "statement": "Let the random numbers be independent and uniform. If a generation has at least tournament_size children, optimize() of BinaryGA, CombinatoryGA and CategoricalGA returns with probability one (the chance that L random numbers are enough tends to 1). For BinaryGA and CategoricalGA without early stop in exact arithmetic, the chance to return having evaluated a given point, or (unconstrained) with a best solution at least as good, is at least 1 - (1 - d)^(num_generations - 1) with the d of C107; hence the number of generations that finds an optimum with a given probability below one depends on the search space only.", "quantifier": "all admissible calls, points, roundings (for the return), and probabilities; the range of the random numbers exceeds the population size", "why_tests_cant": "Almost sure termination of an unbounded rejection loop inside every execution cannot be sampled.", "anchors": ["baumeva/binary_ga.py:optimize", "baumeva/combinatory_ga.py:optimize", "baumeva/categorical_ga.py:optimize", "baumeva/ga/selections/tournament_selection.py:execute", "baumeva/ga/ga_data.py:update"]}
{"id": "C109", "title": "The loop of the README (advanced mode) keeps its promises", "statement": "The hand-written loop the README recommends makes num_generations generations after the first one; it ends earlier only if early_stop generations in a row brought no improvement or best_solution has the value looked for. Looking for obj_value without constraints, best_solution has the value exactly if a point with it was evaluated, and from the third generation on everything evaluated before the last generation misses it. The objective is called once per initial individual and once per child, best_solution is the best of all points evaluated, and no exception is raised if the components fit together and early_stop is a number; with early_stop=None no such program returns. Without the goal test the program does exactly what CollectorGA does with num_generations + 1 and early_stop - 1, for single-objective components, FFGA and VEGA.", "quantifier": "all components, objectives, parameters, and draws", "why_tests_cant": "Equality of two programs on all inputs and draws, and a statement about every point ever evaluated, are not samples.", "anchors": ["README.md", "baumeva/ga/ga_data.py:GaData", "baumeva/collector_ga.py:CollectorGA.optimize", "baumeva/ga/multi_ga_data.py:MultiGaData"]}
{"id": "C110", "title": "Programs put together from components keep the promises of the ready-made classes", "statement": "A single-objective program in collector mode with any population class, selection, crossover, mutation and transfer that returns has made at most num_generations generations (exactly as many without early_stop, fewer only after early_stop + 1 generations without improvement); it has called the objective once per initial individual and once per child, and nowhere else; every individual carries the value and score of its own point; best_solution is a point evaluated in this run and no evaluated point (with constraints: no feasible one) is better, in exact arithmetic strictly and in any other arithmetic up to the rounding of the score; with constraints its flag feasible tells the truth.", "quantifier": "all combinations of components, objectives, parameters, states before, and draws", "why_tests_cant": "The combinations of components and all executions cannot be enumerated.", "anchors": ["baumeva/collector_ga.py:CollectorGA", "baumeva/ga/fitness/hyperbola_fitness.py:HyperbolaFitness", "baumeva/ga/fitness/base_fitness.py:BaseFitness.execute", "baumeva/ga/ga_data.py:update"]}
{"id": "C111", "title": "Programs put together from components miss a given solution with a chance that falls geometrically", "statement": "Let the random numbers be independent and uniform. A program in collector mode, or the loop of the README, with a binary or categorical population, the mutation of its class, any crossover that fits and any selection (tournament, roulette, ranked): the chance that it returns after n or more generations without having evaluated a given point of the search space is at most (1 - d)^(n-1), with the d > 0 of C107 that depends on the search space only. In an unconstrained task the chance to end with a best solution worse than a given point has the same bound. Without early stop the number of generations that makes it as small as one likes depends on the search space only, not on the selection, crossover, population size or objective.", "quantifier": "all programs whose components fit together with at least one child per generation and an undecided mutation level, all points, numbers of generations and lengths of the random tape; arithmetic exact", "why_tests_cant": "A statement about the probability over all executions of all combinations of components; sampling runs can only estimate it.", "anchors": ["baumeva/collector_ga.py:optimize", "baumeva/ga/selections/tournament_selection.py:execute", "baumeva/ga/selections/balanced_selection.py:execute", "baumeva/ga/selections/ranked_selection.py:execute", "baumeva/ga/crossovers/uniform_crossover.py:crossover", "baumeva/ga/mutations/bin_string_mutation.py:get_mutation", "baumeva/ga/mutations/categorical_mutation.py:get_mutation"]}
{"id": "C112", "title": "Programs put together from components return, and find what there is to find, with probability one", "statement": "Let the random numbers be independent and uniform. A program in collector mode, or the loop of the README, whose components fit together returns with probability one: the chance that L random numbers are enough tends to 1 with L. With tournaments a generation must have at least tournament_size children; the ranked roulette needs nothing more, and the plain roulette only a target value (positive scores): since the population is in ascending order of the scores, two places of the wheel can always be reached, however much one individual dominates. Without early stop it finds a given point with probability at least 1 - (1 - d)^(num_generations - 1), and in an unconstrained task returns a best solution at least as good as the point; the loop of the README finds the value it looks for unless early_stop ends it before. Probability one is no promise about time: if the best score exceeds 2^53 - 1 times the sum of all others, the plain roulette finds no second parent before random() returns exactly 0.0.", "quantifier": "all programs whose components fit together (C102), all selections, crossovers, mutations, transfers, all points and numbers of generations; probabilities over the random tapes of every length; arithmetic exact", "why_tests_cant": "A statement about the probability over all executions, including ones of unbounded length; a test can only sample executions, and cannot tell a rare exit of a loop from an endless one.", "anchors": ["baumeva/collector_ga.py:optimize", "baumeva/ga/selections/tournament_selection.py:execute", "baumeva/ga/selections/balanced_selection.py:balanced_selection", "baumeva/ga/selections/ranked_selection.py:execute", "baumeva/ga/selections/balanced_selection.py:get_index"]}
{"id": "C113", "title": "FFGA and VEGA runs return with probability one", "statement": "Let the random numbers be independent and uniform. A call of FFGA with at least two individuals (or no children) returns with probability one: the chance that L random numbers are enough tends to 1 with L; with transfer_parents=\"random\" the population must be small enough (below 2^53) for every individual to be reachable on the wheel. A call of VEGA returns with probability one if a generation has at least three children (tournaments of three) or none.", "quantifier": "all admissible calls, objectives, numbers of objectives and generations; the range of the random numbers is at least 2^53 (FFGA, exact arithmetic) or larger than every population (VEGA, every rounding)", "why_tests_cant": "Almost sure termination of the unbounded search for a second parent, in every generation, cannot be sampled: a test that returns proves one execution finite, a test that hangs proves nothing.", "anchors": ["baumeva/ffga.py:FFGA.optimize", "baumeva/vega.py:VEGA.optimize", "baumeva/ga/selections/balanced_selection.py:balanced_selection", "baumeva/ga/selections/vega_tournament_selection.py:execute", "baumeva/ga/multi_ga_data.py:MultiGaData"]}
{"id": "C114", "title": "FFGA finds the Pareto front with probability tending to one", "statement": "Let the random numbers be independent and uniform. The chance that a run of FFGA or VEGA has n generations and never evaluates a given point of the grid is at most (1-d)^(n-1), where d = 1/1000 to the number of bits. FFGA without constraints, with transfer_parents=\"best\" and no early stop, returns with probability as close to one as wanted a pareto_set which is a Pareto front of the whole search space: its members lie on the grid, no point of the grid dominates one of them, and every point of the grid is matched by one of them. How many generations are enough depends on the genes and the chance one is ready to take only.", "quantifier": "all grids, objectives (any number, any vectors), population sizes, levels of mutation below 0.999, points of the grid; the range of the random numbers is a multiple of 1000 (and at least 2^53 for the front); arithmetic exact", "why_tests_cant": "A statement about the distribution of the results of a random search, about all of the search space and about all objectives: a test sees some runs on some functions, and neither a found nor a missed front settles it.", "anchors": ["baumeva/ffga.py:FFGA.optimize", "baumeva/vega.py:VEGA.optimize", "baumeva/ga/mutations/bin_string_mutation.py:get_mutation", "baumeva/ga/multi_new_generation.py:execute", "baumeva/ga/multi_ga_data.py:MultiGaData"]}
{"id": "C115", "title": "A population object can be used for another run", "statement": "set_params() and fill() on a population object that was used before start over: afterwards the list has num_individ individuals, and the best solution after the first update() of a new GaData is the best individual of the population. (False of the code: neither method empties the list or resets is_sorted. After a finished run the list has twice as many individuals, and best_solution is the individual created last, whatever its score. Old individuals keep genotypes and scores. It is true of objects no run has used, if they are empty.)", "quantifier": "all single-objective programs in advanced mode, population classes, operators, objectives, random draws, lengths of the first run; the appending itself for all populations and score types", "why_tests_cant": "The damage depends on state left by an earlier run, and shows only if the individual created last is not the best one; tests create a population object for every run.", "anchors": ["baumeva/ga/populations/base_population.py:fill", "baumeva/ga/populations/binary_population.py:set_params", "baumeva/ga/populations/cat_population.py:set_params", "baumeva/ga/ga_data.py:update", "baumeva/ga/new_generation.py:execute"]}
{"id": "C116", "title": "Two children per pair", "statement": "With crossover.num_offsprings = 2 every pair of parents gets two children, new objects made by one crossover; at every position they carry the genes of both parents, one each, and are mutated independently of each other. (False of the code for UniformCrossover: both children get the same list object, so the genes the coins did not pick are lost, and every mutation but InversionMutation acts on both children twice: they stay equal, and at levels from 0.999 BinStringMutation undoes itself. It is true of OnePointCrossover and TwoPointCrossover; both children of OrderCrossover are permutations of the parents. The next generation has the usual size, or one more than the children if those are at least num_individ.)", "quantifier": "all populations, parents, crossover and mutation classes and levels, random draws, score types", "why_tests_cant": "The children of uniform crossover look right one by one; that they share their genotype shows only in the joint distribution of both after a mutation.", "anchors": ["baumeva/ga/crossovers/base_crossover.py:get_children", "baumeva/ga/crossovers/uniform_crossover.py:crossover", "baumeva/ga/mutations/bin_string_mutation.py:get_mutation", "baumeva/ga/new_generation.py:execute"]}
{"id": "C117", "title": "The named levels of bit mutation stand for a number of bits", "statement": "BinStringMutation('weak' | 'normal' | 'strong') inverts on average 0.3, 1 or 3 bits of a genotype (up to one bit per 1000), on every population it is used on. (False of the code: the word is replaced by a number when the object is first used; a later population with genotypes of another length is mutated at the level of the first, so that c*length/first length bits change. It is true of the first population and of all with the same length.)", "quantifier": "all genotypes, lengths, draws; all states of the first and the later program; the mean is over all lists of draws; arithmetic exact", "why_tests_cant": "Tests create a mutation object for every population and cannot observe a mean.", "anchors": ["baumeva/ga/mutations/bin_string_mutation.py:update_mutation_lvl", "baumeva/ga/mutations/bin_string_mutation.py:determines_mutation", "baumeva/ga/mutations/bin_string_mutation.py:execute"]}
{"id": "C118", "title": "Classes of the user keep the record right as long as they follow a few rules", "statement": "A program whose fitness, selection, crossover, mutation and replacement are classes of the user keeps every promise about its record if: evaluation gives every individual of the population a score, changes no score and no other object; selection, crossover, mutation and replacement together install a population of existing objects (none without a score twice), set is_sorted to False, keep a member with the best score, and leave best_solution and the record alone. Then best_solution is the first individual of the history with the best score of all, the histories have one entry per generation which is the best and worst of that generation, historical_best never decreases, num_generation_no_improve counts the generations since the last improvement, and the run ends as the parameters say. The classes of the library follow the rules, with two children per pair as well; keeping everybody follows them too. The rule about the best member cannot be dropped: with a replacement that keeps the others historical_best can decrease.", "quantifier": "all classes that follow the rules, all initial populations, numbers of generations, executions", "why_tests_cant": "The classes are not written yet; a test can only try some.", "anchors": ["baumeva/collector_ga.py:CollectorGA.optimize", "baumeva/ga/ga_data.py:update", "baumeva/ga/fitness/base_fitness.py:BaseFitness", "baumeva/ga/crossovers/base_crossover.py:BaseCrossover", "baumeva/ga/mutations/base_mutation.py:BaseMutation", "baumeva/ga/selections/base_selection.py:BaseSelection", "baumeva/ga/new_generation.py:NewGeneration"]}
{"id": "C119", "title": "Expected number of generations until a point, or the Pareto front, is found", "statement": "Let the random numbers be independent and uniform. The expected number of generations before the first that contains a given point of the search space is at most 1/d, where d is 1/1000 to the number of bits (or the corresponding product for categories): for the facades, for programs in collector and advanced mode, for FFGA and for VEGA, however many generations, individuals and children there are. The same bounds the expected best_solution[\"idx_generation\"] of an unconstrained task with an optimum. For unconstrained FFGA with transfer_parents=\"best\" the expected number of generations before the individuals of rank 1 are a Pareto front of the whole search space is at most m/d, if m points match all others.", "quantifier": "all objectives, population sizes, numbers of generations, levels of mutation below 0.999 (binary) and points of the search space, all lengths of the stream of random numbers; runs that did not return on the given stream count 0 (C108, C112 and C113 say how rare they are); arithmetic exact", "why_tests_cant": "An expected value over all streams of random numbers, with the same bound for all tasks: averages over some seeds on some functions estimate it and never bound it.", "anchors": ["baumeva/binary_ga.py:BinaryGA.optimize", "baumeva/categorical_ga.py:CategoricalGA.optimize", "baumeva/ffga.py:FFGA.optimize", "baumeva/vega.py:VEGA.optimize", "baumeva/collector_ga.py:CollectorGA.optimize", "baumeva/ga/mutations/bin_string_mutation.py:get_mutation", "baumeva/ga/ga_data.py:update"]}
{"id": "C120", "title": "Objectives that change the list they are given: harmless search, wrong report, broken permutations", "statement": "Suppose the objective function changes the list it is given, e.g. sorts it or appends to it. BinaryGA then proceeds exactly as with a function that works on a copy: same outcome, same draws, genotypes, scores, histories and best individual. But the reported phenotypes are the changed lists: best_solution has the score of the best point evaluated, and as phenotype what the function made of that point - whose own value may be different and which may lie outside the search space. In populations without phenotype (permutations, categories) the changed list is the genotype: every individual evaluated has afterwards the changed list as genotype, individuals scored before keep theirs. CombinatoryGA with an objective that closes the tour it is given breeds lists which are no permutations.", "quantifier": "all functions, all changes to the list (any function from lists to lists), parameters, populations and executions; arithmetic exact", "why_tests_cant": "A test uses well-behaved functions; whether a badly behaved one only affects the report is a statement about every step of every run.", "anchors": ["baumeva/ga/fitness/base_fitness.py:BaseFitness.calc_obj_func", "baumeva/ga/fitness/base_fitness.py:BaseFitness.execute", "baumeva/binary_ga.py:BinaryGA.optimize", "baumeva/combinatory_ga.py:CombinatoryGA.optimize"]}
{"id": "C121", "title": "Values no member of the first generation has are lost for CombinatoryGA", "statement": "When CombinatoryGA arranges k of the values a..b with k smaller than the number of values, every value of every list it ever evaluates occurs in an individual of the first generation. The probability that a run returns and has evaluated any list containing a given value v (not contained in the input population) is at most 1 - ((m-k)/m)^n, where m is the number of values and n the number of randomly generated individuals - however many generations are run. If everything as good as o contains v, the probability of returning something as good as o has the same bound. So enough generations do not find every arrangement with a probability as close to one as one likes.", "quantifier": "all parameters, objectives, input populations, generations, early stops, values and random sources uniform over a multiple of every needed range; arithmetic exact", "why_tests_cant": "A test of a stochastic search cannot tell a value that is improbable from one that is impossible, nor bound a probability over all numbers of generations.", "anchors": ["baumeva/combinatory_ga.py:CombinatoryGA.optimize", "baumeva/ga/populations/order_cat_population.py:OrderCatPopulation", "baumeva/ga/crossovers/order_crossover.py:OrderCrossover", "baumeva/ga/mutations/movement_mutation.py:MovementMutation"]}
{"id": "C122", "title": "Crossover of equal parents: kept by three crossovers, never by OrderCrossover", "statement": "One-point, two-point and uniform crossover give the child whatever both parents have at a position; two equal parents have only children equal to them, and execute on a population of equal individuals gives children equal to them. OrderCrossover does the opposite: if two equal parents have no repetition, no child of them is equal to them (it is another arrangement of the same genes), so one execute replaces every arrangement of a converged population by a different one.", "quantifier": "all parents, random draws, populations and executions", "why_tests_cant": "A test of a few draws cannot show that no draw at all gives the parent back.", "anchors": ["baumeva/ga/crossovers/one_point_crossover.py:OnePointCrossover", "baumeva/ga/crossovers/two_point_crossover.py:TwoPointCrossover", "baumeva/ga/crossovers/uniform_crossover.py:UniformCrossover", "baumeva/ga/crossovers/order_crossover.py:OrderCrossover", "baumeva/ga/crossovers/base_crossover.py:BaseCrossover.execute"]}
{"id": "C123", "title": "CombinatoryGA over permutations finds every tour with enough generations", "statement": "When CombinatoryGA arranges all values a..b (at least three) and a generation has more children than a tournament has entrants, the probability that a run returns after more than m*(D+1) generations without having evaluated a given tour is at most (1-d)^m, where D depends on a and b only and d = B^-(children*(2*tournament_size+6)*(D+1)) is positive. So without early stop the probability of having evaluated a given tour, and in an unconstrained task of returning something at least as good, comes as close to one as one likes with enough generations.", "quantifier": "all admissible parameters with a mutation level below 0.999, objectives, input populations, tours, numbers of generations and random numbers uniform below B; arithmetic exact", "why_tests_cant": "A test sees a few runs; that every tour can be reached from every population, and a positive lower bound for the probability per block of generations, is a statement about all of them.", "anchors": ["baumeva/combinatory_ga.py:CombinatoryGA.optimize", "baumeva/ga/crossovers/order_crossover.py:OrderCrossover", "baumeva/ga/mutations/movement_mutation.py:MovementMutation", "baumeva/ga/selections/tournament_selection.py:TournamentSelection"]}
{"id": "C124", "title": "What calling fill() more than once does", "statement": "After set_params() and m+1 calls of fill() a population has (m+1)*num_individ individuals: in each block the input individuals, then generated ones, encoded, decoded and numbered as after one call, and the objective has not been called. A program in advanced mode that goes on from there has num_individ+1 individuals from the second generation on. But bit mutation at a named level changes only the (m+1)-th part of the number of bits the word stands for, in every generation: get_gens_params appends to idx_bits, whose last entry is taken for the length of the genotypes.", "quantifier": "all populations, numbers of calls, input individuals and random numbers; for the level: all binary genes, selections, positional crossovers, named levels, programs in advanced mode that return; arithmetic exact", "why_tests_cant": "The number of inverted bits is random, and a mean that is too low by a factor shows in no single run; the genotypes look right.", "anchors": ["baumeva/ga/populations/binary_population.py:BinaryPopulation.fill", "baumeva/ga/populations/binary_population.py:BinaryPopulation.get_gens_params", "baumeva/ga/mutations/bin_string_mutation.py:BinStringMutation.execute"]}
{"id": "C125", "title": "Expected number of generations until CombinatoryGA finds a tour", "statement": "When CombinatoryGA arranges all values a..b (at least three) and a generation has more children than a tournament has entrants, the expected number of generations before the first that contains a given tour is at most (D+1)*B^(children*(2*tournament_size+6)*(D+1)), where D depends on a and b only, however long the run and large the population is. In an unconstrained task that has an optimum the same number bounds the expected value of best_solution[\"idx_generation\"].", "quantifier": "all admissible parameters with a mutation level below 0.999, objectives, input populations, tours, numbers of generations, lengths of the random sequence and random numbers uniform below B; arithmetic exact", "why_tests_cant": "An expectation, and a bound that does not depend on the number of generations, is a statement about all runs; tests see a few.", "anchors": ["baumeva/combinatory_ga.py:CombinatoryGA.optimize", "baumeva/ga/crossovers/order_crossover.py:OrderCrossover", "baumeva/ga/ga_data.py:update"]}
{"id": "C126", "title": "Tours are found by CollectorGA and by the advanced loop, with any rearranging mutation", "statement": "Programs built from the parts for CollectorGA or by hand in the loop the README gives for advanced mode, with tournament selection, OrderCrossover, an ordered population of all values a..b (at least three) and any of the mutations that rearrange a genotype (swap, shift, inversion, movement): when a generation has more children than a tournament has entrants, every tour is evaluated with a probability that tends to one with the number of generations, CollectorGA without early stop returns a best solution at least as good as any given tour with that probability (unconstrained task), and the expected number of generations before a given tour appears has a bound that does not depend on the number of generations.", "quantifier": "all admissible parameters with a mutation level below 0.999, objectives, input populations, tours, numbers of generations, lengths of the random sequence and random numbers uniform below B; arithmetic exact", "why_tests_cant": "A statement about the distribution of all runs of all lengths, for four mutations and two programs; a test draws a few runs of one of them.", "anchors": ["baumeva/collector_ga.py:CollectorGA", "baumeva/ga/crossovers/order_crossover.py:OrderCrossover", "baumeva/ga/mutations/swap_mutation.py:SwapMutation", "baumeva/ga/mutations/shift_mutation.py:ShiftMutation", "baumeva/ga/mutations/inversion_mutation.py:InversionMutation", "baumeva/ga/mutations/movement_mutation.py:MovementMutation"]}
{"id": "C127", "title": "Ranked selections prefer dominated individuals in multi-objective programs", "statement": "RankedSelection and VEGARankedSelection number the individuals by their position in the population and average over runs of neighbours with equal scores, whatever the order of the scores is; the share of an individual in the wheel the parents are spun from is that number divided by n(n+1)/2. A multi-objective population is sorted by Pareto rank, best first, so in runs of FFGA with RankedSelection, and of VEGA with VEGARankedSelection while no object occurs twice, an individual dominated by more members never has the smaller share, and has a larger one if the scores differ. Example: four members of the Pareto set own a sixth of the wheel each, the one dominated member a third. With transfer_parents \"best\" the Pareto ranks by which the members to be kept are recognised have been overwritten by then: FFGA with RankedSelection carries over the first individual if the second has another score and nobody otherwise, so from the second generation on the population has at most one member more than there are children.", "quantifier": "all populations of different objects in any order of scores whose first score is not -1, all runs of FFGA and VEGA, all pairs of members; arithmetic exact", "why_tests_cant": "That the preference is reversed in every generation of every run follows from the order two separate components agree on; a test sees parents drawn at random.", "anchors": ["baumeva/ga/selections/ranked_selection.py:RankedSelection", "baumeva/ga/selections/vega_ranked_selection.py:VEGARankedSelection", "baumeva/ga/multi_ga_data.py:MultiGaData"]}
{"id": "C128", "title": "FFGA looks at nothing but domination", "statement": "FFGA without constraints depends on the objectives only through the question which point dominates which: if the objective vectors are rewritten one to one such that the same points dominate each other, the whole run is the same (individuals, draws, ranks, scores, Pareto sets, number of generations), only the recorded vectors are rewritten. In particular the order in which the objectives are listed does not matter, and an additional objective that never contradicts the others (a copy of one, a sum with positive weights, the maximum) changes nothing. For VEGA this is false: with the same draws another Pareto set is reported when the objectives are listed in another order, or one of them twice.", "quantifier": "all configurations, objectives of any number, permutations, redundant objectives, draws, every rounding; the VEGA part is a concrete counterexample", "why_tests_cant": "relates two runs for every pair of equivalent objectives", "anchors": ["baumeva/ga/fitness/multi_fitness.py:inferior", "baumeva/ga/fitness/multi_fitness.py:assign_ranks", "baumeva/ga/fitness/ffga_fitness.py:get_fitness_score", "baumeva/ga/multi_ga_data.py:MultiGaData"]}
{"id": "C129", "title": "Which genes of a parent stay together", "statement": "For a child of two parents: every single gene comes from either parent for half of the draws. Two genes at the positions i < j of n come from different parents for j - i of the n - 1 equally likely cuts of OnePointCrossover, for 2 (j - i)(n - 1 - (j - i)) of the (n - 1)(n - 2) ordered pairs of cuts of TwoPointCrossover, and for half of the draws of UniformCrossover. So the first and the last gene of a child of OnePointCrossover never come from the same parent, those of a child of TwoPointCrossover always do, and only UniformCrossover does not care about the order in which the user lists the genes. A block of w neighbouring genes, for example the bits of one variable, is passed on whole for n - w of the n - 1 cuts of OnePointCrossover, for (n - w)(n - w - 1) of the (n - 1)(n - 2) pairs of cuts of TwoPointCrossover, and for one in 2^(w - 1) draws of UniformCrossover.", "quantifier": "all parents of the same length that differ at the positions in question, all lengths, positions and draws", "why_tests_cant": "exact shares over all outcomes of the random draws, for every length; sampling can only estimate them", "anchors": ["baumeva/ga/crossovers/one_point_crossover.py:crossover", "baumeva/ga/crossovers/two_point_crossover.py:crossover", "baumeva/ga/crossovers/uniform_crossover.py:crossover", "baumeva/ga/crossovers/base_crossover.py:get_children"]}
{"id": "C130", "title": "A mutation changes few legs of a round trip", "statement": "When the genes are places and the objective is the length of the round trip, a mutation is a small step: InversionMutation changes the length by at most two legs of the largest distance, MovementMutation and ShiftMutation by three, SwapMutation by four, whatever the number of places, the draws and the mutation level. None of the four numbers can be lowered. InversionMutation keeps this promise only for distances that do not depend on the direction: otherwise a single inversion can change all legs but two of a trip of any length.", "quantifier": "all genotypes, all distance functions with values between 0 and D (symmetric for InversionMutation), all draws and levels; the counterexample for every number of places from 2 on", "why_tests_cant": "a statement about every distance function and every length of the trip; tests see a few maps", "anchors": ["baumeva/ga/mutations/inversion_mutation.py:get_mutation", "baumeva/ga/mutations/movement_mutation.py:get_mutation", "baumeva/ga/mutations/shift_mutation.py:get_mutation", "baumeva/ga/mutations/swap_mutation.py:get_mutation", "baumeva/ga/mutations/base_combinatory_mutation.py:execute"]}
{"id": "C131", "title": "How far one inverted bit moves a variable", "statement": "A mutation that inverts one bit of a genotype changes exactly one decoded variable. With m bits of this variable behind the inverted one, the variable moves by exactly 2^m grid steps in the standard coding, and by an odd number of steps below 2^(m+1) in the Gray coding. So the last bit means one step in both codings, but in the Gray coding the first bit alone can carry a variable from one end of its range to the other. On average over all values of the variable both codings move it equally far, by 2^m steps.", "quantifier": "all gene specifications, genotypes and positions, both codings; arithmetic exact", "why_tests_cant": "tests look at a few genotypes; the statement covers every genotype, position and number of bits, and the mean is over all values", "anchors": ["baumeva/ga/populations/binary_population.py:binary_individ_to_float", "baumeva/ga/populations/binary_gray_population.py:get_index_from_gray", "baumeva/ga/mutations/bin_string_mutation.py:get_mutation"]}
{"id": "C132", "title": "Which rearrangements a mutation makes how often", "statement": "SwapMutation, InversionMutation and MovementMutation draw one of the n(n - 1) ordered pairs of different positions. Of a track without repetitions, every genotype SwapMutation can make comes out for exactly two of the draws, and so does every genotype InversionMutation can make: the choice is uniform. MovementMutation is not uniform: the genotypes in which two neighbours have changed places come out for two draws, all others for one. Each of the three mutations does nothing but exchange two neighbours for 2(n - 1) of the draws.", "quantifier": "all tracks without repetitions, of all lengths, and all genotypes the mutation can make of them", "why_tests_cant": "exact shares over all outcomes of the random draws, for every length; sampling can only estimate them", "anchors": ["baumeva/ga/mutations/swap_mutation.py:get_mutation", "baumeva/ga/mutations/inversion_mutation.py:get_mutation", "baumeva/ga/mutations/movement_mutation.py:get_mutation"]}
