#!/usr/bin/env python3
"""Writes properties.jsonl. One entry per property; keep in step with DESIGN.md and MANIFEST.json."""
import json, os
P = []
def p(id, title, statement, quantifier, why, *anchors):
    P.append(dict(id=id, title=title, statement=statement, quantifier=quantifier, why_tests_cant=why, anchors=list(anchors)))

BIN='baumeva/ga/populations/binary_population.py'
GRAY='baumeva/ga/populations/binary_gray_population.py'
CAT='baumeva/ga/populations/cat_population.py'
ORD='baumeva/ga/populations/order_cat_population.py'
BASEP='baumeva/ga/populations/base_population.py'
DATA='baumeva/ga/ga_data.py'
MDATA='baumeva/ga/multi_ga_data.py'
NG='baumeva/ga/new_generation.py'
MNG='baumeva/ga/multi_new_generation.py'
BF='baumeva/ga/fitness/base_fitness.py'
MF='baumeva/ga/fitness/multi_fitness.py'
HF='baumeva/ga/fitness/hyperbola_fitness.py'
VF='baumeva/ga/fitness/vega_hyperbola_fitness.py'
FF='baumeva/ga/fitness/ffga_fitness.py'
TS='baumeva/ga/selections/tournament_selection.py'
BS='baumeva/ga/selections/balanced_selection.py'
RS='baumeva/ga/selections/ranked_selection.py'
VTS='baumeva/ga/selections/vega_tournament_selection.py'
VBS='baumeva/ga/selections/vega_balanced_selection.py'
VRS='baumeva/ga/selections/vega_ranked_selection.py'
XO='baumeva/ga/crossovers/'
MU='baumeva/ga/mutations/'
PEN='baumeva/ga/penalties/'

# ---- encoding -------------------------------------------------------------------------------
p('C01','Bit budget of a gene is the least sufficient one',
  'For every requested number of grid intervals k, the bit count n chosen for a gene is the smallest n with 2**n - 1 >= k, and the reported number of intervals is exactly 2**n - 1; the search terminates for every k.',
  'all integers k (including k <= 0)','the search is unbounded; a test samples finitely many k and cannot show minimality or termination for all of them',
  BIN+':get_real_number_of_points')
p('C02','Fixed-width binary encoding is lossless and never truncates',
  'Encoding an index v on n >= 1 bits yields exactly n symbols, all "0"/"1", whose base-2 reading is v, whenever v < 2**n; it raises exactly when v >= 2**n.',
  'all indices v and widths n >= 1','unbounded v and n',
  BIN+':index_to_binary',BIN+':binary_individ_to_float')
p('C03','Gray coding is a bijection on every width',
  'For every natural v, decoding the Gray code of v returns v and Gray-coding the decoding of v returns v; both maps keep values below 2**n below 2**n, so no index of an n-bit gene is lost or made unencodable by is_gray=True.',
  'all naturals v, all widths n','unbounded integers; XOR/shift loops of unbounded length',
  GRAY+':get_gray_value',GRAY+':get_index_from_gray',GRAY+':index_to_binary')
p('C04','Neighbouring grid points differ in one bit under Gray coding',
  'For every index v, the Gray codes of v and v+1 differ in exactly one bit position; hence the fixed-width encodings of neighbouring grid points differ in exactly one symbol.',
  'all naturals v and all widths that can hold v+1','unbounded integers',
  GRAY+':get_gray_value',GRAY+':index_to_binary')
p('C05','Decoded values stay inside the declared gene range',
  'For every list of genes (lo, hi, step) with lo < hi accepted by fill(), every genotype of "0"/"1" symbols of the right length decodes (binary and Gray) to one number per gene, each within [lo, hi]; the index-0 genotype decodes to lo and the index-(2**n-1) genotype decodes to exactly hi.',
  'all gene lists, all genotypes of the population length, both codings','number of genes, bits and ranges is unbounded',
  BIN+':get_gens_params',BIN+':binary_individ_to_float',GRAY+':binary_individ_to_float')
p('C06','Decode followed by encode is the identity on genotypes',
  'For every accepted gene list with lo < hi and every well-formed genotype, encoding the decoded phenotype gives back the same genotype, for binary and Gray coding (exact arithmetic).',
  'all gene lists and genotypes','infinitely many genotypes and ranges',
  BIN+':float_individ_to_binary',BIN+':binary_individ_to_float',GRAY+':binary_individ_to_float')
p('C07','User-supplied individuals are encoded to the nearest grid point',
  'For every accepted gene list with lo < hi and every input individual with one in-range number per gene, encoding succeeds and the decoded value of each gene is within half a real step of the input; an individual of wrong length or with an out-of-range gene is rejected with an exception.',
  'all gene lists and input individuals','continuum of inputs',
  BIN+':float_individ_to_binary',BIN+':index_to_binary')
p('C08','The grid is at least as fine as the requested step',
  'The real step used for a gene is no larger than the step the user asked for. (Holds when the step divides the range; refuted in general.)',
  'all genes (lo, hi, step) with positive step not larger than the range','continuum of ranges and steps',
  BIN+':get_gens_params')
p('C09','Degenerate genes are rejected, not silently mis-encoded',
  'If any gene of a binary population has a zero step, a range smaller than the step (including lo = hi) or a negative step, then fill() raises ZeroDivisionError before any individual exists, whatever the other genes and draws are.',
  'all gene lists containing a degenerate gene, all random draws','unbounded gene lists and draws',
  BIN+':get_gens_params',BIN+':fill')
# ---- populations ----------------------------------------------------------------------------
p('C10','Initial population has exactly num_individ well-formed members',
  'After a successful fill() of any population class the population holds exactly num_individ pairwise distinct individual objects with idx_individ 0..num_individ-1, feasible True and no score; for binary populations every genotype consists of "0"/"1" of total bit length and every phenotype is the decoding of its genotype.',
  'all population classes, sizes, gene declarations, valid input populations and random draws','every random draw sequence and size',
  CAT+':fill',BIN+':fill',BASEP+':reset_idx_individ',BASEP+':add_dict')
p('C11','Input individuals are adopted first and in order; oversized input is rejected',
  'An input population longer than num_individ raises; otherwise the first len(input_population) individuals of the initial population are the input individuals in order (verbatim copies for categorical/ordinal, encoded for binary).',
  'all input populations and sizes','unbounded lists',
  CAT+':set_params',CAT+':fill',BIN+':set_params',BIN+':fill')
p('C12','Generated categorical genes come from their pools',
  'Every generated categorical genotype has one value per declared gene; each value is an element of the declared list, or of start, start+step, ... not exceeding end for a declared (start, end, step) with positive step.',
  'all gene declarations and random draws','all draws',
  CAT+':get_generated_individ')
p('C13','Generated ordinal individuals are repetition-free tracks',
  'For gens (a, b, k) with 0 <= k <= b-a+1 every generated genotype has exactly k pairwise different integers from [a, b]; for k > b-a+1 generation raises ValueError.',
  'all a, b, k and random draws','all draws',
  ORD+':get_generated_individ')
# ---- crossover ------------------------------------------------------------------------------
p('C14','One-point crossover inherits a prefix and the complementary suffix',
  'For parents of equal length L >= 2 and every draw, some cut 1 <= c <= L-1 exists such that one child is parent 1 before c and parent 2 from c on and the other the reverse; both children have length L; for L < 2 the operation raises ValueError.',
  'all parents and draws','all lengths, contents, draws',
  XO+'one_point_crossover.py:crossover')
p('C15','Two-point crossover exchanges exactly one inner segment',
  'For parents of equal length L >= 3 and every draw, cuts 1 <= c < d <= L-1 exist such that the children agree with their own parent outside [c, d) and with the other parent inside; for L < 3 the operation raises ValueError.',
  'all parents and draws','all lengths, contents, draws',
  XO+'two_point_crossover.py:crossover')
p('C16','Uniform crossover takes each gene from a parent at the same locus',
  'Every gene of the child equals the gene of one of the two parents at the same position, and the length is that of the parents.',
  'all parents and draws','all draws',
  XO+'uniform_crossover.py:crossover')
p('C17','Order crossover preserves repetition-freeness and length',
  'For repetition-free parents of the same length L >= 3 and every draw, both children have length L, contain no repetition and only genes of the parents; the segment of the own parent stays in place; if both parents are arrangements of the same set, so are the children. For L < 3 it raises ValueError.',
  'all repetition-free parents and draws','factorially many parents and all draws',
  XO+'order_crossover.py:crossover',XO+'order_crossover.py:get_idx_segment')
p('C18','Order crossover needs repetition-free parents',
  'Order crossover keeps the length of a genotype for arbitrary parents. (Refuted for parents with repeated genes: the child can be shorter.)',
  'all parents of equal length','depends on repeated values; unbounded',
  XO+'order_crossover.py:crossover')
p('C19','Every parent pair yields exactly one fresh child; parents are untouched',
  'After crossover.execute the number of children is exactly half the number of parents, children are new objects without score, marked feasible, and no existing individual was changed.',
  'all populations, parents, draws, all four crossovers (num_offsprings at its default)','all heaps and draws',
  XO+'base_crossover.py:execute',XO+'base_crossover.py:get_children',BASEP+':get_empty_individ')
# ---- mutation -------------------------------------------------------------------------------
p('C20','Bit mutation flips exactly the drawn positions and keeps the alphabet',
  'For every child and draws, the mutated genotype has the same length, is over "0"/"1" if it was before, and differs exactly at the positions whose draw triggered mutation.',
  'all genotypes and draws','2**L subsets of positions',
  MU+'bin_string_mutation.py:get_mutation')
p('C21','Combinatorial mutations only rearrange genes, and do rearrange them',
  'Inversion, movement, shift and swap mutation return a permutation of the genotype for every genotype and draw, and on repetition-free genotypes the result always differs from the input; too short genotypes (< 2, for shift < 3) raise ValueError.',
  'all genotypes and draws','factorially many genotypes, all draws',
  MU+'inversion_mutation.py',MU+'movement_mutation.py',MU+'shift_mutation.py',MU+'swap_mutation.py')
p('C22','Categorical mutation replaces a gene by a different value of its pool',
  'Every gene that triggers mutation and whose pool has at least two different values is replaced by a different value of that pool; other genes are unchanged; the length is unchanged.',
  'all genotypes, pools, draws','all draws and pools',
  MU+'categorical_mutation.py:get_mutation')
p('C23','Mutation probability equals mutation_lvl',
  'Out of the 1000 equally likely draws, exactly mutation_lvl*1000 trigger mutation. (Refuted: exactly min(1000, floor(1000*lvl)+1) draws trigger; in particular mutation_lvl=0.0 still mutates.)',
  'all levels in [0,1] and all draws','continuum of levels; rare event 1/1000',
  MU+'base_combinatory_mutation.py:determines_mutation',MU+'bin_string_mutation.py:determines_mutation',MU+'categorical_mutation.py:determines_mutation')
p('C24','Mutation level validation',
  'Combinatorial and bit mutations accept exactly the strings weak/normal/strong and floats in [0,1] and raise on everything else (including ints); CategoricalMutation accepts only floats in [0,1] - every string, including its own default, raises.',
  'all level values','infinite value domain',
  MU+'base_combinatory_mutation.py:check_mutation',MU+'bin_string_mutation.py:check_mutation',MU+'categorical_mutation.py:check_mutation')
# ---- selection ------------------------------------------------------------------------------
p('C25','Tournament winner is a best participant',
  'The individual returned from a tournament is one of its participants and no participant has a strictly higher score.',
  'all populations, tournaments, score orders','all score configurations',
  TS+':get_best',VTS+':get_best')
p('C26','Tournament selection yields int(children_percent*num_individ) pairs of different individuals',
  'When tournament selection returns, ga_data.parents holds exactly 2*int(children_percent*num_individ) fresh copies of population members, in pairs of two different individuals; a tournament size < 2 or >= num_individ is rejected; the population keeps its members, genotypes and scores.',
  'all populations, percentages, draws','all draws; unbounded retry loop',
  TS+':tournament',TS+':execute',TS+':check_tournament_size','baumeva/ga/selections/base_selection.py:execute')
p('C27','Roulette selection is exactly proportional for positive scores',
  'If all scores are positive, the drawn index i satisfies cum[i] <= r < cum[i+1] for the random number r, where cum are the cumulative score shares; so every r in [0,1) selects exactly one existing individual and individual i owns an interval of width score_i/sum.',
  'all positive score lists and all r in [0,1)','continuum of r and scores',
  BS+':add_probabilities',BS+':get_index')
p('C28','Roulette prefers better individuals',
  'Of two individuals the one with the higher score has at least the selection probability of the other. (Refuted when scores are negative, i.e. when minimising without obj_value: probabilities are then inversely ordered.)',
  'all score lists with non-zero sum','continuum of scores',
  BS+':add_probabilities',HF+':get_fitness_score')
p('C29','Roulette always returns an index of an existing individual',
  'For every score list with non-zero sum (any signs) and every r in [0,1), the returned index is between 0 and len(population)-1; a zero sum raises ZeroDivisionError; a population that can only ever produce one index makes the pair loop run for ever.',
  'all score lists and draws','continuum; non-termination',
  BS+':get_index',BS+':balanced_selection')
p('C30','Ranked selection assigns average ranks to ties',
  'For a population sorted by score whose lowest score is not -1, rank selection gives individual i the mean of the 1-based positions of all individuals with an equal score; ranks sum to n(n+1)/2.',
  'all sorted score lists','all tie patterns',
  RS+':add_probabilities')
p('C31','Ranked selection treats the score -1 specially by accident',
  'The average-rank property of C30 holds for every sorted score list. (Refuted: with lowest score exactly -1 the ranks are wrong, because -1 is used as the "no previous score" sentinel.)',
  'all sorted score lists','single exceptional value in a continuum',
  RS+':add_probabilities')
# ---- fitness --------------------------------------------------------------------------------
p('C32','Target fitness lies in (0,1], is 1 exactly on target, and orders by distance',
  'With obj_value given and penalty >= 0 the score is in (0,1]; it is 1 iff the objective equals the target and the penalty is 0; for equal penalties a strictly smaller distance gives a strictly larger score, and for equal distance a strictly larger penalty gives a strictly smaller score.',
  'all objective values, targets, penalties','continuum',
  HF+':get_fitness_score')
p('C33','Minimisation fitness reverses the penalised objective order',
  'Without obj_value, score(x) > score(y) iff objective(x)+penalty(x) < objective(y)+penalty(y).',
  'all objective values and penalties','continuum',
  HF+':get_fitness_score')
p('C34','feasible is True exactly when all constraints hold',
  'After evaluation of a conditional task, an individual is marked feasible iff every "<=" value is <= 0 and every other constraint value is 0.',
  'all constraint lists and values','unbounded constraint lists',
  BF+':execute')
p('C35','The objective is called once per new individual, on the decoded value, and never for survivors',
  'A single-objective fitness.execute calls the objective exactly once per individual without score, in population order, with the phenotype for binary populations and the genotype otherwise; individuals that already have a score keep all their fields; afterwards genotype and phenotype are in their own places.',
  'all populations (including ones containing the same object several times) and objectives','all heaps',
  BF+':execute',BF+':calc_obj_func',BIN+':swap',BIN+':get_phenotype')
p('C36','An exception of the objective leaves the population usable',
  'If the objective raises during fitness.execute, genotypes and phenotypes are still in their own places. (Refuted for binary populations: they are left swapped.)',
  'all crash points','needs a fault at every evaluation',
  BF+':execute',BIN+':swap')
p('C37','Dynamic penalty measures violation and grows with the generation',
  'In every arithmetic, with positive delta, c, exponents (natural or not) and generation >= 1 the dynamic penalty is >= 0, is 0 iff all constraints hold, and is non-decreasing in the generation index; unknown constraint signs and length mismatches raise.',
  'all constraint values, parameters, generations','continuum',
  PEN+'dynamic_penalty.py',PEN+'base_penalty.py:execute')
p('C38','Adaptive penalty weight follows the feasibility of the best solution',
  'For generation >= 1 the adaptive penalty is delta*(10/betta_1)*S if the best solution so far is feasible and delta*betta_2*10*S otherwise, S the sum of powered violations (exactly with exact arithmetic); in every arithmetic it is >= 0 and 0 iff all constraints hold; construction rejects betta_1 <= 1, betta_2 <= 1 and equal bettas.',
  'all values and parameters','continuum',
  PEN+'adaptive_penalty.py')
p('C39','Violated constraints are penalised in every generation',
  'An infeasible individual is scored strictly below a feasible one with the same objective value. (Refuted: in generation 0 dynamic and adaptive penalties are identically 0, so an infeasible individual of generation 0 can stay best_solution for the whole run.)',
  'all tasks and runs','history property: an early individual blocks all later ones',
  PEN+'dynamic_penalty.py:execute',PEN+'adaptive_penalty.py:execute',DATA+':update')
p('C40','Static penalty charges violated constraints by their interval coefficient',
  'A violated constraint contributes (coefficient of the interval containing the value * |value|)**2. (Refuted: violated equalities contribute nothing, two or more disjoint inequality intervals always raise, and inequality coefficients are never used.)',
  'all interval tables and values','continuum',
  PEN+'static_penalty.py:get_sum_conditional_func')
p('C41','optimize() can be repeated on the same object',
  'Calling optimize() a second time behaves like the first call. (Refuted for single-objective conditional tasks: the first call removes "optimize" from the user list and the second raises.)',
  'all conditional tasks','call-history property',
  BF+':set_opt_value','baumeva/binary_ga.py:optimize')
# ---- GaData ---------------------------------------------------------------------------------
p('C42','best_solution is the best individual of the whole history',
  'After every generation best_solution has the maximal score among all individuals of all generations so far, is a member of one of them, and carries the index of the first generation in which that score was reached.',
  'all runs: all operators, sizes, generations, draws','history property over all executions',
  DATA+':update','baumeva/collector_ga.py:optimize')
p('C43','Elitism: the best individual survives into the next generation',
  'NewGeneration keeps the best individual (same object) of the old population as last member of the new one, for transfer_parents "best" and "random" and any number of children.',
  'all sorted populations, children, draws','all duplicates patterns and draws',
  NG+':execute',NG+':add_best',NG+':add_parents')
p('C44','historical_best is non-decreasing and ends in best_solution',
  'In every single-objective run historical_best never decreases, its last entry is the score of best_solution, and historical_worst[g] <= historical_mediocre[g] <= historical_best[g]; all three have idx_generation entries.',
  'all runs','history property over all executions',
  DATA+':update',NG+':execute')
p('C45','num_generation_no_improve counts generations since the last improvement',
  'After every update, num_generation_no_improve equals the number of most recent generations whose best score did not exceed the best score before them.',
  'all score histories','unbounded histories',
  DATA+':update')
p('C46','Stopping rule',
  'A run performs at least one and at most max(1,num_generations) generations; it ends early exactly when num_generation_no_improve exceeds early_stop (i.e. after early_stop+1 generations without improvement); with early_stop=None the facades never stop early.',
  'all runs and parameters','all histories; off-by-one at unbounded parameter',
  'baumeva/binary_ga.py:optimize','baumeva/combinatory_ga.py:optimize','baumeva/categorical_ga.py:optimize','baumeva/collector_ga.py:optimize')
p('C47','Population size per generation',
  'Every generation has num_individ individuals. (Refuted: from the second generation on it has exactly num_individ+1 whenever 1 <= int(children_percent*num_individ) <= num_individ.)',
  'all single-objective runs','all runs, draws',
  NG+':execute',NG+':add_best',NG+':add_parents')
p('C48','Genotypes stay well-formed in every generation',
  'In every generation of a BinaryGA run every genotype is a "0"/"1" string of the total bit length with phenotype equal to its decoding within the gene ranges; of a CombinatoryGA run (valid input) a repetition-free track over the declared values; of a CategoricalGA run (valid input) a tuple of pool values.',
  'all runs: parameters, objectives, draws','invariant over all executions',
  'baumeva/binary_ga.py:optimize','baumeva/combinatory_ga.py:optimize','baumeva/categorical_ga.py:optimize')
p('C49','best_solution is a snapshot',
  'No later step of the run changes a recorded best_solution other than by replacing it with a strictly better one (selection, crossover, mutation, transfer and evaluation never write through to it).',
  'all runs','aliasing over all heaps',
  DATA+':update')
p('C50','A fixed seed makes runs reproducible',
  'With generator.rnd_seed set, the result of optimize() does not depend on the prior state of the random module.',
  'all prior random states, all configurations','all prior states',
  BASEP+':__init__','baumeva/global_generator.py')
p('C51','A fixed seed does not freeze the random stream',
  'With generator.rnd_seed set, successive generations use fresh random draws. (Refuted: every selection and every crossover re-seeds, so the draws of every generation are the same and the next population is a function of the current one alone.)',
  'all seeded runs','stream-level property over all generations',
  BASEP+':__init__',BASEP+':get_empty_copy','baumeva/ga/selections/base_selection.py:execute',XO+'base_crossover.py:execute')
p('C52','Duplicate detection is exact; sorting is stable and complete',
  'is_duplicate is True iff two listed individuals have equal genotypes; sort_by_dict("score") rearranges the population into ascending score order keeping the order of equal scores and losing nobody.',
  'all populations','all lists',
  BASEP+':is_duplicate',BASEP+':sort_by_dict')
# ---- multi-objective ------------------------------------------------------------------------
p('C53','rank is one plus the number of dominating individuals',
  'After ranking, the rank of every individual equals 1 + the number of individuals of the population that are <= in every objective and < in at least one, for populations of pairwise different objects and objective vectors of equal length; hence rank 1 iff non-dominated.',
  'all populations and objective functions','all dominance patterns',
  MF+':inferior',MF+':assign_ranks')
p('C54','The reported Pareto set is exactly the set of non-dominated individuals',
  'After update, best_solution["pareto_set"] consists of exactly the non-dominated individuals of the current population and is non-empty.',
  'all populations','all dominance patterns',
  MDATA+':update',MF+':assign_ranks')
p('C55','FFGA never loses a Pareto point',
  'With FFGA and transfer "best", for every individual of a generation there is a member of the next generation\'s Pareto set that is at least as good in every objective.',
  'all FFGA generations, draws','history property',
  MNG+':add_best',MNG+':execute',MDATA+':update')
p('C56','VEGA never loses a Pareto point',
  'Same as C55 for VEGA. (Refuted: VEGA transfers the lexicographically largest score vectors, so a Pareto point can disappear from best_solution.)',
  'all VEGA generations','history property',
  NG+':execute','baumeva/vega.py:optimize')
p('C57','FFGA population size',
  'FFGA keeps the population at num_individ. (Refuted: the next population is all children plus the whole Pareto set, so it can grow in every generation.)',
  'all FFGA runs','unbounded growth only visible over long runs',
  MNG+':add_best',MNG+':execute')
p('C58','FFGA score reflects the current rank',
  'After evaluation every individual has score 1/(1+rank). (Refuted: survivors keep the score of their first evaluation while their rank is recomputed; holds for newly evaluated individuals.)',
  'all FFGA generations','history property',
  FF+':get_fitness_score',BF+':execute')
p('C59','FFGA with transfer_parents="random" keeps the best individual',
  'The guaranteed survivor of "random" transfer is a best individual. (Refuted for FFGA: the guaranteed survivor is the last of the rank-sorted list, i.e. one with the worst rank.)',
  'all FFGA generations','order of lists',
  MNG+':execute',NG+':add_parents')
p('C60','VEGA selects parents for every objective',
  'After VEGA tournament selection the parents consist of num_objectives blocks of int(children_percent*num_individ/num_objectives) pairs, block i won by score i. For VEGABalancedSelection/VEGARankedSelection only the block of the last objective survives.',
  'all populations, objective counts, draws','all draws',
  VTS+':tournament',VBS+':execute',VRS+':execute')
p('C61','Objective order is preserved for conditional multi-objective tasks',
  'obj_score lists the objective values in the order in which the function returns them. (Refuted: with a penalty the order is reversed, so obj_value[i] is compared with the wrong objective; without penalty the order is kept.)',
  'all condition lists and values','unbounded lists',
  MF+':set_opt_value',MF+':set_obj_score',VF+':get_fitness_score')
p('C62','Parameters of the facades are honoured',
  'tournament_size, input_data and penalty given to VEGA/FFGA take effect. (Refuted: VEGA and FFGA results do not depend on tournament_size; ranking calls the objective without input_data; AdaptivePenalty raises KeyError from generation 1 on.)',
  'all configurations','parametric in all other settings',
  'baumeva/vega.py:optimize','baumeva/ffga.py:optimize',MF+':inferior',PEN+'adaptive_penalty.py:execute')
p('C63','Shape of the objective result is checked',
  'A conditional objective must return exactly as many values as conditions; an unconditional one a scalar; everything else raises. A one-element tuple is accepted by the check but replaced by None, so scoring it raises TypeError. Falsy input_data is not passed.',
  'all return values','all shapes',
  BF+':check_input',BF+':calc_obj_func')
p('C64','Recorded Pareto sets in historical_best are snapshots',
  'Entries of MultiGaData.historical_best do not change later. (Refuted: they reference the live individuals whose rank is rewritten; best_solution["pareto_set"] is a snapshot.)',
  'all runs','aliasing over time',
  MDATA+':update',MF+':assign_ranks')

p('C65','Single-objective runs raise no exception',
  'optimize() of BinaryGA, CombinatoryGA and CategoricalGA raises no exception when the genes are usable (proper ranges with at least two bits in total; tracks of length 3..number of values; non-empty pools that do not repeat a single value), the input population is valid and fits, 2 <= tournament_size < num_individ, the mutation level is admissible for the class, transfer_parents is "best" or "random" with at least one child per generation, and the objective returns a number (or one value per condition) on the whole search space. Dropping the conditions nobody checks (one child, two bits, different pool values, float level for CategoricalGA) makes it raise.',
  'all configurations, objectives, histories, draws; exact arithmetic or any rounding, genes then given by machine numbers','unbounded runs, every random outcome',
  'baumeva/binary_ga.py:optimize','baumeva/combinatory_ga.py:optimize','baumeva/categorical_ga.py:optimize')

p('C66','The outcome of a call does not depend on earlier calls',
  'Calling optimize() of any facade gives the same outcome (same exception, or the same result: final population contents, best solution, histories, objective calls) whatever was run before in the process, as long as the settings of the call, the seed, the random numbers still to come (when no seed is given) and the conditions list handed over are the same. No value computed by an earlier run, no individual of an earlier run and no class-level state leaks into a later call.',
  'all sequences of earlier calls (successful or failed), all configurations, objectives and draws','unbounded histories; heap aliasing',
  'baumeva/binary_ga.py:optimize','baumeva/combinatory_ga.py:optimize','baumeva/categorical_ga.py:optimize','baumeva/vega.py:optimize','baumeva/ffga.py:optimize')

p('C67','Initial individuals are uniformly distributed over the search space',
  'For a binary population every bit string, for a combinatory population every arrangement without repetition and for a categorical population every combination of pool values is produced by exactly one combination of reduced random draws, i.e. all possible initial genotypes are equally likely (a pool that repeats a value gives that value its multiplicity as weight). Consequently every list of genotypes of the search space is the initial population for some draws.',
  'all gene definitions, all target genotypes, all population sizes','needs every draw sequence; a test sees a sample of one',
  BIN+':get_generated_individ',CAT+':get_generated_individ',ORD+':get_generated_individ')
p('C68','No part of the search space is cut off from variation',
  'Bit and categorical mutation at a level below 0.999 can turn any genotype of the space into any other in one application; swap, movement, inversion (and shift for three or more genes) can turn any arrangement into exactly its permutations in finitely many applications; every admissible cut of one-point, two-point and ordered crossover, every mask of uniform crossover, and either of the two children can come out.',
  'all genotypes, all pairs of points, all draws','reachability over unbounded sequences of mutations',
  MU+'bin_string_mutation.py:get_mutation',MU+'categorical_mutation.py:get_mutation',MU+'swap_mutation.py:get_mutation',MU+'movement_mutation.py:get_mutation',MU+'inversion_mutation.py:get_mutation',MU+'shift_mutation.py:get_mutation',XO+'base_crossover.py:get_children',XO+'one_point_crossover.py:crossover',XO+'two_point_crossover.py:crossover',XO+'order_crossover.py:crossover',XO+'uniform_crossover.py:crossover')

p('C69','Which individuals can become parents in a tournament',
  'In a population of scored individuals an individual can win a tournament (for some random draws) exactly if at least tournament_size members, itself included, are no better; so the tournament_size - 1 worst never reproduce and everybody else can. Every pair of possible winners with different index entries can come out as a pair of parents. If all possible winners are one and the same individual, the search for the second parent never ends.',
  'all populations, scores, tournament sizes and draws','a statement about all outcomes of a random process',
  TS+':get_best',TS+':tournament')

p('C70', 'A run can always be completed',
  'Whatever has been drawn so far, further draws exist with which optimize() of BinaryGA, CombinatoryGA and CategoricalGA '
  'returns: no reachable state of a call with admissible arguments makes the selection loop forever.',
  'all single-objective facades, all admissible configurations, all objectives, all draws made so far, exact arithmetic or any rounding',
  'A test sees one run ending; that no sequence of draws leads into a state from which the while loop of the tournament '
  'cannot end quantifies over all draws and all their continuations. It is false when a generation has fewer children '
  'than tournament_size: the copied elites can collapse to one object.',
  TS+':tournament', NG+':execute', 'baumeva/binary_ga.py:optimize')

p('C71','Evaluation budget of a run',
  'A finished optimize() of BinaryGA, CombinatoryGA or CategoricalGA has called the objective exactly num_individ + (generations - 1) * int(children_percent * num_individ) times: once for every initial individual and once for every child. The arguments are exactly the points of the individuals of its generations: nothing else is evaluated, and no individual carries over a score from outside the run.',
  'all single-objective facades, configurations, objectives, penalties, draws','the number of calls and their arguments over all executions',
  BF+':execute', NG+':execute', 'baumeva/binary_ga.py:optimize', 'baumeva/combinatory_ga.py:optimize', 'baumeva/categorical_ga.py:optimize')
p('C72','The reported best is the best point ever evaluated, with its true value',
  'In an unconstrained run every individual of every generation carries the objective value of its own point and the score belonging to it (never a value of another individual or of an earlier state of it); best_solution is a point evaluated in this run, its obj_score is the value the objective returns there, and no point evaluated in the run has a smaller objective value (with a target: a smaller distance from the target).',
  'all single-objective facades, configurations, objectives, draws','quantifies over everything evaluated in all executions; aliasing of individuals across generations',
  BF+':execute', DATA+':update', NG+':execute', 'baumeva/binary_ga.py:optimize')
p('C73','A warm start is never made worse',
  'Every individual of input_population is evaluated by CombinatoryGA and CategoricalGA as given, and by BinaryGA at a grid point at most half a grid step away in each coordinate (at the individual itself if it is on the grid). Hence in unconstrained runs the best solution is at least as good as every supplied individual.',
  'all facades, input populations, configurations, objectives, draws','all input populations and executions',
  BASEP+':fill', BIN+':get_phenotype', DATA+':update')
p('C74','Feasibility in constrained runs',
  'In a run with constraints every individual of every generation and best_solution carry the objective value at the position of optimize for their own point and a feasible flag that is true exactly if the values returned there satisfy the conditions. If a feasible point was evaluated then best_solution is feasible and no feasible point evaluated in the run is better.',
  'all single-objective facades, conditions, penalties, objectives, draws','quantifies over everything evaluated in all executions',
  BF+':execute', PEN+'dynamic_penalty.py:execute', DATA+':update')
p('C75','Mistakes in the parameters are reported before the objective is called',
  'More input individuals than num_individ, constraints without an entry to optimize, an undocumented mutation level, an unknown transfer_parents, a binary gene without a grid and a binary input individual outside its box make optimize() raise before the objective is called for the first time (VEGA without conditions: after its one probing call), whatever is drawn. A tournament size below 2 or not below num_individ is reported as well.',
  'all facades, configurations, objectives, draws','all configurations and executions, including failing ones',
  BASEP+':set_params', BIN+':float_individ_to_binary', NG+':__init__', MU+'base_mutation.py', BF+':check_task', TS+':execute')
p('C76','Only the order of the objective values matters',
  'Replacing an unconstrained objective without target by a strictly increasing function of it leaves the whole run unchanged: the same individuals in every generation, the same number of generations, the same best solution; only the recorded values change by that function. Adding a constant to objective and target changes nothing for any constraints and penalties. For FFGA and VEGA the same holds with one strictly increasing function per objective.',
  'all configurations, objectives, strictly increasing functions, draws','relates two runs for every objective and every transformation',
  HF+':get_fitness_score', VF+':get_fitness_score', FF+':get_fitness_score', TS+':execute', DATA+':update')
p('C77','Names and units of the gene values do not matter',
  'Renaming the values of categorical genes, shifting the numbers of a permutation, or changing the units of all binary genes (x to a*x+d with a > 0 on box and step) together with the objective gives the same run up to this renaming.',
  'all configurations, injective renamings, a > 0, d, objectives, draws','relates two runs for every renaming and every configuration',
  CAT+':get_generated_individ', ORD+':get_generated_individ', BIN+':get_phenotype', XO+'base_crossover.py:execute', MU+'base_mutation.py:execute')

p('C78','A longer run extends a shorter one',
  'With the same draws, raising num_generations or early_stop leaves everything the shorter run recorded in place: its generations, histories and objective calls are a prefix of those of the longer run (even if that one later raises), an exception of the shorter run is raised by the longer one too, and the answer of a longer single-objective run is at least as good.',
  'all configurations, objectives, start states, draws and pairs of limits','relates two runs of any length',
  BASEP, DATA+':update', MDATA+':update', NG, MNG)

p('C79', 'get_avg_score is the mean of the current scores',
  'get_avg_score() leaves the data unchanged and returns the sum of the scores of the current population divided by its size; in single-objective runs it always succeeds and lies between the last entries of historical_worst and historical_best. It raises ZeroDivisionError for an empty population and TypeError while somebody is not evaluated; with the score lists of VEGA it always raises TypeError.',
  'all populations and scores; all runs, operators, draws and generations',
  'A test compares one average with one expected number; it cannot cover repeated members and every population a run can produce.',
  DATA+':get_avg_score', MDATA+':get_avg_score')
p('C80', 'optimize() of a CollectorGA can be called again to continue the run',
  'After any number of optimize() calls on the same storage (with possibly other components, limits, seeds in between) the histories have one entry per generation of all calls, historical_best never decreases, best_solution has the largest score of all recorded generations and num_generation_no_improve counts over all calls. A further call keeps everything recorded, appends first an entry for the population it starts with (no objective call), then at most num_generations-1 new generations with int(children_percent*num_individ) objective calls each, and does not lose the best score. As the counter is not reset, a call made when it already exceeds early_stop ends after one new generation unless that one improves.',
  'all numbers of calls, all single-objective components, limits, objectives and draws',
  'Tests call optimize once or twice with fixed draws; the claim is an invariant over any number of calls with any components.',
  'baumeva/collector_ga.py:optimize', DATA+':update', BF+':execute')
p('C81', 'An exception in optimize() loses nothing that was recorded, and the run can be resumed',
  'If optimize() of a single-objective CollectorGA raises at any point (objective, operator, exhausted draws), the storage holds exactly what it held after the last generation the call completed: histories, generation number, counter and best_solution, including its contents. This stays true over any sequence of calls that return or raise, with other components in between. A later call that returns keeps all that was recorded, evaluates the members of the population that have no score yet and then int(children_percent*num_individ) children per further generation: no score already paid for is computed again.',
  'all sequences of calls, points of failure, single-objective components, limits, objectives and draws',
  'The exception may come from any call of the objective, any component, in any generation of any of the calls; tests can raise at a few chosen places only.',
  'baumeva/collector_ga.py:optimize', BF+':execute', DATA+':update', NG+':execute')
p('C82', 'The objective is only called at points of the search space, also after exceptions',
  'Over any sequence of optimize() calls of a CollectorGA that return or raise, every argument the objective ever gets, every member of the population and every recorded individual stays in the search space: repetition-free tracks for permutations (order crossover, any rearranging mutation), pool values at every position for categories (any positional crossover), points of the box for binary genes. (Refuted for binary genes: if the objective raises once, genotypes and phenotypes stay exchanged and the next optimize() hands the objective raw bit strings; it holds for binary genes as long as no call raised.)',
  'all sequences of calls, points of failure, selections, listed operators, objectives, populations and draws',
  'Tests would have to raise at every evaluation of every generation and inspect every argument of all later calls.',
  'baumeva/collector_ga.py:optimize', BF+':execute', XO+'base_crossover.py:execute', MU+'base_mutation.py:execute')
p('C83', 'Exact evaluation budget of the multi-objective runs',
  'In a finished FFGA run the objective is called exactly n*(n-1) times for every generation of n individuals (each member once for every other member, to rank them), num_individ times for the first generation and int(children_percent*num_individ) times for every further one; VEGA makes the same calls with m*int(children_percent*num_individ/m) children for m objectives, after one call at the origin that counts the objectives (only without conditions). Every call is at the point of an individual of a recorded generation, and every individual of every generation was evaluated.',
  'all parameters, objectives with vectors of one length, genes, tapes of draws',
  'The number of calls depends on generation sizes that vary with the number of non-dominated individuals; tests count calls in a few runs.',
  MF+':inferior', MF+':assign_ranks', FF+':execute', 'baumeva/vega.py:optimize', 'baumeva/ffga.py:optimize')
p('C84', 'Multi-objective runs stay in the search space',
  'In a finished FFGA or VEGA run every individual of every generation and every member of the reported Pareto set is a bit string of the length the genes need whose phenotype is its decoding and lies in the declared ranges, and the objective is only called at points in the declared ranges. (Refuted for VEGA: without conditions it first calls the objective at the origin, whatever the ranges are; all other calls are in range.)',
  'all parameters, proper gene ranges, objectives with vectors of one length, tapes of draws',
  'Tests see the points of a few runs; the claim is about every call of every run.',
  BIN+':get_phenotype', MF+':execute', 'baumeva/vega.py:optimize', 'baumeva/ffga.py:optimize')
p('C85', 'The reported Pareto set is truthful and complete',
  'Without constraints every individual of every generation, hence every reported Pareto member, carries the objective values of its own point (for VEGA also the scores computed from them). With transfer_parents="best" and no input_data the Pareto set FFGA reports is the answer for everything the run has looked at: its members were evaluated, every evaluated point is matched by a member in all objectives, and no evaluated point dominates a member.',
  'all parameters, objectives with vectors of one length, genes, tapes of draws',
  'A test can compare the reported set with the calls of a few runs; the claim needs the evaluation, ranking, transfer and recording to agree in all runs.',
  MF+':assign_ranks', MF+':execute', MDATA+':update', 'baumeva/ffga.py:optimize', 'baumeva/vega.py:optimize')
p('C86', 'No point of the search space ever gets out of reach',
  'Take any finished run of BinaryGA or CategoricalGA with admissible parameters, at least tournament_size children per generation and a mutation rate below 0.999. The same call with more generations can make the same generations and then one that contains any chosen points of the search space (grid points of the genes, tuples of the categories), as many as there are children, and finish. So for unconstrained tasks a global optimum can be found in the very next generation, whatever the population has converged to.',
  'all admissible parameters, objectives, past draws, numbers of further generations and target points',
  'Whether a converged population can still leave its local optimum depends on the whole past of the run; tests can only run the algorithm and hope.',
  'baumeva/binary_ga.py:optimize', 'baumeva/categorical_ga.py:optimize', MU+'base_mutation.py:execute', TS, XO+'base_crossover.py:execute')
p('C87', 'Multi-objective runs with admissible parameters raise no exception',
  'With usable binary genes, input points of the search space, an admissible mutation level and an objective that returns vectors of one length (with a DynamicPenalty or a custom penalty for conditional tasks), FFGA.optimize() and VEGA.optimize() end without an exception. For FFGA one individual is enough, with transfer_parents="random" eleven are needed; VEGA needs four individuals, as many target values as objectives and, with transfer_parents="random", at least one child. Outside these limits the library does raise: ValueError, Exception and IndexError are shown.',
  'all admissible parameters, objectives, penalties, numbers of generations and tapes of draws; VEGA in any arithmetic, FFGA in exact arithmetic (see C97)',
  'The exceptions depend on sizes and scores that evolve during the run (empty fronts, samples larger than the population, divisions by rank or penalty); tests see only some populations.',
  'baumeva/ffga.py:optimize', 'baumeva/vega.py:optimize', MF+':execute', MF+':assign_ranks', MNG, BS, VTS, MDATA+':update')
p('C88', 'How often an individual wins a tournament',
  'In a tournament of k among n scored places each of the n(n-1)...(n-k+1) draws is equally likely and decides one winner. The winner is no better than x for exactly c(c-1)...(c-k+1) draws, where c places are no better than x. Equally good places win equally often, better ones strictly more often whenever they can win at all; an individual whose score nobody shares and that has c worse opponents wins with probability choose(c,k-1)/choose(n,k). An individual that fills several places (elites are repeated) wins as often as its places together. A pair of parents is two such tournaments, the second repeated while it yields the index of the first.',
  'all populations, scores, tie patterns, repeated members and tournament sizes; all draws, counted exactly; single-objective and VEGA tournaments',
  'Selection pressure is a statement about the distribution over all draws; sampling in a test only estimates it and cannot exclude a bias for particular populations.',
  TS+':tournament', TS+':get_best', VTS+':get_best')
p('C89', 'FFGA runs with two or more individuals can always be completed',
  'With admissible parameters (as in C87) and at least two individuals, FFGA never drives itself into a corner: whatever '
  'random numbers a run has consumed so far, there are further ones with which optimize() returns.  The only loop that could run '
  'forever, the roulette looking for a second parent at a different place, always has two reachable places.  With a single '
  'individual, children_percent >= 1 and two or more generations the opposite holds: optimize() returns for no sequence of draws. '
  '(With transfer "random" the population must stay below the 2^53 values random.random() can take.)',
  'for all genes, both codings, all objectives, populations, percentages, transfers, conditions and penalties admissible in the sense of C87, '
  'and all finite sequences of random numbers drawn so far',
  'Possible non-termination depends on weights that shrink as populations grow; a test sees single runs and no finite number of them '
  'shows that every reachable state has a way on.',
  'baumeva/ffga.py:optimize', BS+':execute', FF+':get_fitness_score')

p('C90', 'VEGA runs can always be completed',
  'With admissible parameters (as in C87), whatever random numbers a VEGA run has consumed so far, there are further ones with which '
  'optimize() returns.',
  'for all admissible VEGA calls and all finite sequences of random numbers drawn so far, exact arithmetic or any rounding',
  'That a run cannot get stuck is a statement about all reachable states; the failing ones need an unlucky sequence of elites.',
  'baumeva/vega.py:optimize', VTS+':execute', NG+':execute')

p('C91', 'Machine arithmetic: decoded values stay in the range of their gene',
  'With binary64 floats instead of exact numbers, every bit string of the total length decodes to one value per gene, close to the grid point it denotes and inside the range of the gene.',
  'all genes with machine-number ends, all bit strings, both codings, all roundings with relative error 2^-53',
  'Whether hi is exceeded depends on the last bit of three roundings; tests with round numbers never see it.',
  BIN+':get_gens_params', BIN+':binary_individ_to_float', GRAY+':binary_individ_to_float')
p('C92', 'Machine arithmetic: a decoded solution can be fed back as input individual',
  'With binary64 floats the values decoded from a bit string are accepted by float_individ_to_binary and encoded to the same bit string, so the result of one run can start the next.',
  'all genes whose grid step is at least 64 unit roundoffs of the larger end, all bit strings, both codings, all roundings',
  'Needs an error analysis of decode followed by encode for every index; the failing values differ from valid ones in the last bit.',
  BIN+':float_individ_to_binary', BIN+':binary_individ_to_float', BIN+':get_gens_params')
p('C93', 'Machine arithmetic: the roulette wheel always answers a position of the population',
  'With binary64 floats get_index returns an index of the population for every value of random(), so selection raises no IndexError.',
  'all lists of positive scores, all random numbers, all roundings, all ways to sum with the stated error',
  'The failing random numbers are a few out of 2^53.',
  BS+':add_probabilities', BS+':get_index', RS+':add_probabilities')
p('C94', 'Machine arithmetic: roulette selects in proportion to the scores',
  'With binary64 floats the wheel answers i exactly for random numbers between the cumulative shares i and i+1, and these are the exact cumulative shares up to a few unit roundoffs.',
  'all lists of positive scores, all random numbers, all roundings',
  'Statistical tests use scores of similar size; the failure needs scores of very different magnitude and looks like a legal choice.',
  BS+':add_probabilities', BS+':get_index')
p('C95', 'Machine arithmetic: the score ranks individuals like the exact formula',
  'With binary64 floats a smaller distance from the target or a smaller penalty means a higher score; scores with a target lie in (0, 1] and are 1 on the target; without target and penalty the score is exactly the negated objective value.',
  'all targets, objective values and penalties, all roundings',
  'Equal scores of different individuals arise only for special magnitudes.',
  HF+':get_fitness_score')
p('C96', 'Machine arithmetic: number of selected pairs',
  'With rounding the number int(children_percent * num_individ) is at most the population size, grows with children_percent and differs from the exact count by at most one.',
  'all percentages between 0 and 1, all population sizes up to 2^53, all roundings',
  'Off-by-one effects of the product occur for scattered combinations only.',
  BS+':get_total_num_parents', TS+':get_total_num_parents')

p('C97', 'Machine arithmetic: FFGA runs raise no exception',
  'With admissible parameters (as in C87) FFGA.optimize() raises no exception when every operation is carried out in binary64.',
  'all admissible FFGA calls and draws; the partial theorem holds for all roundings with relative error 2^-53',
  'The failing runs need a random number among a few of the 2^53 possible ones.',
  'baumeva/ffga.py:optimize', BS+':get_index', BS+':execute')
p('C98', 'Machine arithmetic: nothing evaluated beats the reported best',
  'In an unconstrained run of BinaryGA, CombinatoryGA or CategoricalGA in binary64 the best solution is a point the objective was called with, obj_score is its value, and no point evaluated in the run is smaller or closer to the target.',
  'all facades, settings, objectives whose values are machine numbers, targets and draws; the partial theorem holds for all roundings',
  'Points hidden by rounding differ by less than the last bit of a score; tests compare with tolerances.',
  'baumeva/binary_ga.py:optimize', HF+':get_fitness_score', DATA+':update')

p('C99', 'Machine arithmetic: the objective is called inside the search range',
  'In binary64 BinaryGA calls the objective only with values inside the declared ranges of the genes.',
  'all admissible BinaryGA calls, objectives and draws; the partial theorem holds for all roundings',
  'Only the last point of particular grids is affected, and only by one unit in the last place.',
  'baumeva/binary_ga.py:optimize', BIN+':binary_individ_to_float', GRAY+':binary_individ_to_float')
p('C100', 'Results can be used as input of another run without loss',
  'A point evaluated in one run of BinaryGA, CombinatoryGA or CategoricalGA (in particular its best solution) is accepted as input individual by another run on the same genes, is evaluated there unchanged, and the second run reports a solution at least as good as it.',
  'all pairs of runs with any settings and draws, unconstrained tasks for the comparison',
  'Tests restart from a few solutions; the claim covers every decodable point of every grid and both codings.',
  'baumeva/binary_ga.py:optimize','baumeva/combinatory_ga.py:optimize','baumeva/categorical_ga.py:optimize', BIN+':float_individ_to_binary', BASEP+':fill')
p('C101', 'Machine arithmetic: results can be used as input of another run',
  'In binary64 a point evaluated in an admissible run is accepted as input individual by another run and evaluated there unchanged.',
  'all admissible runs, points and draws; the partial theorem holds for all roundings',
  'Only the last point of particular grids is affected.',
  'baumeva/binary_ga.py:optimize', BIN+':float_individ_to_binary', BIN+':binary_individ_to_float')

p('C102', 'A genetic algorithm assembled with CollectorGA from components that fit raises no exception',
  'A program that gives `CollectorGA` any of the three selections, and a crossover and a mutation which work on the kind of population and on genotypes of that length, then calls `set_population` and `optimize`, raises no exception; the roulette on scores needs a target value.',
  'all populations, genes, selections, crossovers, mutations, numbers of individuals (at least two), mutation levels, objectives with or without constraints and a penalty, targets, draws; exact arithmetic or any rounding (for the roulettes in machine arithmetic: no random number among the largest 8*population of the 2^53 possible ones)',
  'The number of combinations of components is large, every component raises exceptions on some input, and constructors do not check that components fit together.',
  'baumeva/collector_ga.py:set_population', 'baumeva/collector_ga.py:optimize', RS+':execute', BS+':execute', XO+'two_point_crossover.py:crossover', MU+'shift_mutation.py:get_mutation')

p('C103', 'Ready-made classes and CollectorGA with the same components are the same program',
  'If the constructors accept the parameters, `BinaryGA`, `CombinatoryGA`, `CategoricalGA`, `VEGA` and `FFGA` do exactly what `CollectorGA` does with the components of the class: the same calls of the objective, the same recorded data, the same best solution, or the same exception in the same state. With or without printing, one of the single-objective classes finishes if and only if the collector does.',
  'all parameters, objectives and draws',
  'The five classes repeat the main loop instead of using the collector, and a difference shows only in particular runs.',
  'baumeva/collector_ga.py:optimize', 'baumeva/binary_ga.py:optimize', 'baumeva/combinatory_ga.py:optimize', 'baumeva/categorical_ga.py:optimize', 'baumeva/vega.py:optimize', 'baumeva/ffga.py:optimize')

p('C104', 'Multi-objective programs in collector mode raise no exception',
  'A program that gives `CollectorGA` a binary population, `VEGAFitness` with any of the three VEGA selections and `NewGeneration`, or `FFGAFitness` with any of the three selections and `MultiNewGeneration`, and a crossover and a mutation which fit the genotypes, raises no exception in `set_population` and `optimize` if the selection suits the populations that occur; with a population that is not binary, no multi-objective program of two or more individuals comes to an end.',
  'all binary populations (Gray or not), genes, selections, positional crossovers, mutations, mutation levels, vector objectives with or without constraints and a penalty, targets, draws; exact arithmetic or any rounding (for roulettes in machine arithmetic: no random number among the largest 8*population of the 2^53 possible ones)',
  'Population sizes change from generation to generation and depend on the fronts; whether a tournament still fits, or any member is left, shows only in long runs of particular fronts.',
  'baumeva/collector_ga.py:set_population', 'baumeva/collector_ga.py:optimize', MF+':execute', FF+':execute', VTS+':execute', VBS+':execute', VRS+':execute', MNG+':execute')

p('C105', 'Machine arithmetic: penalties keep their value up to the rounding of a few operations',
  'With natural exponents the computed dynamic penalty differs from delta*(c*generation)**alpha*S by at most 2*(alpha + n + 4)*2^-53 of it, the adaptive penalty from generation 1 on from delta*10/betta_1*S or delta*10*betta_2*S by at most 2*(n + 5)*2^-53 of it; S is the sum of the powered violations and n the number of constraints.',
  'all roundings with the laws of binary64, parameters, exponents, constraint lists, values and generations',
  'Error bounds over all values and numbers of constraints.',
  PEN+'dynamic_penalty.py:execute', PEN+'adaptive_penalty.py:execute')

p('C106', 'Machine arithmetic: no feasible point evaluated beats the best solution',
  'In a constrained run of BinaryGA, CombinatoryGA or CategoricalGA whose objective returns machine numbers the best solution is a point the objective was called with, obj_score and feasible are what was returned there, and no feasible point evaluated is smaller (minimisation), or closer to the target by more than a relative 16*2^-53 of 1 + distance.',
  'all roundings with the laws of binary64, facades, settings, objectives, constraints, library penalties with positive parameters and draws',
  'Quantifies over everything evaluated in every execution, with rounding in scores and penalties.',
  'baumeva/binary_ga.py:optimize', BF+':get_penalty_value', HF+':get_fitness_score', DATA+':update')

p('C107', 'The chance to miss a given solution falls geometrically with the generations',
  'Let the random numbers be independent and uniform. The chance that BinaryGA or CategoricalGA returns after n or more generations without having evaluated a given point of the search space is at most (1 - d)^(n-1), where d > 0 depends on the search space only ((1/1000)^bits, or the product of 1/(1000 * number of values) over the genes). In an unconstrained task the chance to return a best solution worse than any given point has the same bound; for runs without early stop both tend to 0 as num_generations grows, uniformly in all other settings.',
  'all admissible calls with at least one child per generation and an undecided mutation level, all points, numbers of generations and lengths of the random tape',
  'A statement about the probability over all executions; sampling runs can only estimate it.',
  'baumeva/binary_ga.py:optimize', 'baumeva/categorical_ga.py:optimize', MU+'bin_string_mutation.py:get_mutation', MU+'categorical_mutation.py:get_mutation')

p('C108', 'Runs return, and find any given solution, with probability one in the limit',
  'Let the random numbers be independent and uniform. If a generation has at least tournament_size children, optimize() of BinaryGA, CombinatoryGA and CategoricalGA returns with probability one (the chance that L random numbers are enough tends to 1). For BinaryGA and CategoricalGA without early stop in exact arithmetic, the chance to return having evaluated a given point, or (unconstrained) with a best solution at least as good, is at least 1 - (1 - d)^(num_generations - 1) with the d of C107; hence the number of generations that finds an optimum with a given probability below one depends on the search space only.',
  'all admissible calls, points, roundings (for the return), and probabilities; the range of the random numbers exceeds the population size',
  'Almost sure termination of an unbounded rejection loop inside every execution cannot be sampled.',
  'baumeva/binary_ga.py:optimize', 'baumeva/combinatory_ga.py:optimize', 'baumeva/categorical_ga.py:optimize', TS+':execute', 'baumeva/ga/ga_data.py:update')

p('C109', 'The loop of the README (advanced mode) keeps its promises',
  'The hand-written loop the README recommends makes num_generations generations after the first one; it ends earlier only if early_stop generations in a row brought no improvement or best_solution has the value looked for. Looking for obj_value without constraints, best_solution has the value exactly if a point with it was evaluated, and from the third generation on everything evaluated before the last generation misses it. The objective is called once per initial individual and once per child, best_solution is the best of all points evaluated, and no exception is raised if the components fit together and early_stop is a number; with early_stop=None no such program returns. Without the goal test the program does exactly what CollectorGA does with num_generations + 1 and early_stop - 1, for single-objective components, FFGA and VEGA.',
  'all components, objectives, parameters, and draws',
  'Equality of two programs on all inputs and draws, and a statement about every point ever evaluated, are not samples.',
  'README.md', 'baumeva/ga/ga_data.py:GaData', 'baumeva/collector_ga.py:CollectorGA.optimize', 'baumeva/ga/multi_ga_data.py:MultiGaData')

p('C110', 'Programs put together from components keep the promises of the ready-made classes',
  'A single-objective program in collector mode with any population class, selection, crossover, mutation and transfer that returns has made at most num_generations generations (exactly as many without early_stop, fewer only after early_stop + 1 generations without improvement); it has called the objective once per initial individual and once per child, and nowhere else; every individual carries the value and score of its own point; best_solution is a point evaluated in this run and no evaluated point (with constraints: no feasible one) is better, in exact arithmetic strictly and in any other arithmetic up to the rounding of the score; with constraints its flag feasible tells the truth.',
  'all combinations of components, objectives, parameters, states before, and draws',
  'The combinations of components and all executions cannot be enumerated.',
  'baumeva/collector_ga.py:CollectorGA', HF+':HyperbolaFitness', BF+':BaseFitness.execute', 'baumeva/ga/ga_data.py:update')

p('C111', 'Programs put together from components miss a given solution with a chance that falls geometrically',
  'Let the random numbers be independent and uniform. A program in collector mode, or the loop of the README, with a binary or categorical population, the mutation of its class, any crossover that fits and any selection (tournament, roulette, ranked): the chance that it returns after n or more generations without having evaluated a given point of the search space is at most (1 - d)^(n-1), with the d > 0 of C107 that depends on the search space only. In an unconstrained task the chance to end with a best solution worse than a given point has the same bound. Without early stop the number of generations that makes it as small as one likes depends on the search space only, not on the selection, crossover, population size or objective.',
  'all programs whose components fit together with at least one child per generation and an undecided mutation level, all points, numbers of generations and lengths of the random tape',
  'A statement about the probability over all executions of all combinations of components; sampling runs can only estimate it.',
  'baumeva/collector_ga.py:optimize', TS+':execute', BS+':execute', RS+':execute', XO+'uniform_crossover.py:crossover', MU+'bin_string_mutation.py:get_mutation', MU+'categorical_mutation.py:get_mutation')

p('C112', 'Programs put together from components return, and find what there is to find, with probability one',
  'Let the random numbers be independent and uniform. A program in collector mode, or the loop of the README, whose components fit together returns with probability one: the chance that L random numbers are enough tends to 1 with L. With tournaments a generation must have at least tournament_size children; the ranked roulette needs nothing more, and the plain roulette only a target value (positive scores): since the population is in ascending order of the scores, two places of the wheel can always be reached, however much one individual dominates. Without early stop it finds a given point with probability at least 1 - (1 - d)^(num_generations - 1), and in an unconstrained task returns a best solution at least as good as the point; the loop of the README finds the value it looks for unless early_stop ends it before. Probability one is no promise about time: if the best score exceeds 2^53 - 1 times the sum of all others, the plain roulette finds no second parent before random() returns exactly 0.0.',
  'all programs whose components fit together (C102), all selections, crossovers, mutations, transfers, all points and numbers of generations; probabilities over the random tapes of every length',
  'A statement about the probability over all executions, including ones of unbounded length; a test can only sample executions, and cannot tell a rare exit of a loop from an endless one.',
  'baumeva/collector_ga.py:optimize', TS+':execute', BS+':balanced_selection', RS+':execute', BS+':get_index')

p('C113', 'FFGA and VEGA runs return with probability one',
  'Let the random numbers be independent and uniform. A call of FFGA with at least two individuals (or no children) returns with probability one: the chance that L random numbers are enough tends to 1 with L; with transfer_parents="random" the population must be small enough (below 2^53) for every individual to be reachable on the wheel. A call of VEGA returns with probability one if a generation has at least three children (tournaments of three) or none.',
  'all admissible calls, objectives, numbers of objectives and generations; the range of the random numbers is at least 2^53 (FFGA, exact arithmetic) or larger than every population (VEGA, every rounding)',
  'Almost sure termination of the unbounded search for a second parent, in every generation, cannot be sampled: a test that returns proves one execution finite, a test that hangs proves nothing.',
  'baumeva/ffga.py:FFGA.optimize', 'baumeva/vega.py:VEGA.optimize', BS+':balanced_selection', VTS+':execute', 'baumeva/ga/multi_ga_data.py:MultiGaData')

p('C114', 'FFGA finds the Pareto front with probability tending to one',
  'Let the random numbers be independent and uniform. The chance that a run of FFGA or VEGA has n generations and never evaluates a given point of the grid is at most (1-d)^(n-1), where d = 1/1000 to the number of bits. FFGA without constraints, with transfer_parents="best" and no early stop, returns with probability as close to one as wanted a pareto_set which is a Pareto front of the whole search space: its members lie on the grid, no point of the grid dominates one of them, and every point of the grid is matched by one of them. How many generations are enough depends on the genes and the chance one is ready to take only.',
  'all grids, objectives (any number, any vectors), population sizes, levels of mutation below 0.999, points of the grid; the range of the random numbers is a multiple of 1000 (and at least 2^53 for the front)',
  'A statement about the distribution of the results of a random search, about all of the search space and about all objectives: a test sees some runs on some functions, and neither a found nor a missed front settles it.',
  'baumeva/ffga.py:FFGA.optimize', 'baumeva/vega.py:VEGA.optimize', MU+'bin_string_mutation.py:get_mutation', MNG+':execute', 'baumeva/ga/multi_ga_data.py:MultiGaData')

p('C115', 'A population object can be used for another run',
  'set_params() and fill() on a population object that was used before start over: afterwards the list has num_individ individuals, and the best solution after the first update() of a new GaData is the best individual of the population. (False of the code: neither method empties the list or resets is_sorted. After a finished run the list has twice as many individuals, and best_solution is the individual created last, whatever its score. Old individuals keep genotypes and scores. It is true of objects no run has used, if they are empty.)',
  'all single-objective programs in advanced mode, population classes, operators, objectives, random draws, lengths of the first run; the appending itself for all populations and score types',
  'The damage depends on state left by an earlier run, and shows only if the individual created last is not the best one; tests create a population object for every run.',
  BASEP+':fill', BIN+':set_params', CAT+':set_params', DATA+':update', NG+':execute')

p('C116', 'Two children per pair',
  'With crossover.num_offsprings = 2 every pair of parents gets two children, new objects made by one crossover; at every position they carry the genes of both parents, one each, and are mutated independently of each other. (False of the code for UniformCrossover: both children get the same list object, so the genes the coins did not pick are lost, and every mutation but InversionMutation acts on both children twice: they stay equal, and at levels from 0.999 BinStringMutation undoes itself. It is true of OnePointCrossover and TwoPointCrossover; both children of OrderCrossover are permutations of the parents. The next generation has the usual size, or one more than the children if those are at least num_individ.)',
  'all populations, parents, crossover and mutation classes and levels, random draws, score types',
  'The children of uniform crossover look right one by one; that they share their genotype shows only in the joint distribution of both after a mutation.',
  XO+'base_crossover.py:get_children', XO+'uniform_crossover.py:crossover', MU+'bin_string_mutation.py:get_mutation', NG+':execute')

p('C117', 'The named levels of bit mutation stand for a number of bits',
  "BinStringMutation('weak' | 'normal' | 'strong') inverts on average 0.3, 1 or 3 bits of a genotype (up to one bit per 1000), on every population it is used on. (False of the code: the word is replaced by a number when the object is first used; a later population with genotypes of another length is mutated at the level of the first, so that c*length/first length bits change. It is true of the first population and of all with the same length.)",
  'all genotypes, lengths, draws; all states of the first and the later program; the mean is over all lists of draws',
  'Tests create a mutation object for every population and cannot observe a mean.',
  MU+'bin_string_mutation.py:update_mutation_lvl', MU+'bin_string_mutation.py:determines_mutation', MU+'bin_string_mutation.py:execute')

p('C118', 'Classes of the user keep the record right as long as they follow a few rules',
  'A program whose fitness, selection, crossover, mutation and replacement are classes of the user keeps every promise about its record if: evaluation gives every individual of the population a score, changes no score and no other object; selection, crossover, mutation and replacement together install a population of existing objects (none without a score twice), set is_sorted to False, keep a member with the best score, and leave best_solution and the record alone. Then best_solution is the first individual of the history with the best score of all, the histories have one entry per generation which is the best and worst of that generation, historical_best never decreases, num_generation_no_improve counts the generations since the last improvement, and the run ends as the parameters say. The classes of the library follow the rules, with two children per pair as well; keeping everybody follows them too. The rule about the best member cannot be dropped: with a replacement that keeps the others historical_best can decrease.',
  'all classes that follow the rules, all initial populations, numbers of generations, executions',
  'The classes are not written yet; a test can only try some.',
  'baumeva/collector_ga.py:CollectorGA.optimize', DATA+':update', 'baumeva/ga/fitness/base_fitness.py:BaseFitness', XO+'base_crossover.py:BaseCrossover', MU+'base_mutation.py:BaseMutation', 'baumeva/ga/selections/base_selection.py:BaseSelection', NG+':NewGeneration')

p('C119', 'Expected number of generations until a point, or the Pareto front, is found',
  'Let the random numbers be independent and uniform. The expected number of generations before the first that contains a given point of the search space is at most 1/d, where d is 1/1000 to the number of bits (or the corresponding product for categories): for the facades, for programs in collector and advanced mode, for FFGA and for VEGA, however many generations, individuals and children there are. The same bounds the expected best_solution["idx_generation"] of an unconstrained task with an optimum. For unconstrained FFGA with transfer_parents="best" the expected number of generations before the individuals of rank 1 are a Pareto front of the whole search space is at most m/d, if m points match all others.',
  'all objectives, population sizes, numbers of generations, levels of mutation below 0.999 (binary) and points of the search space, all lengths of the stream of random numbers; runs that did not return on the given stream count 0 (C108, C112 and C113 say how rare they are)',
  'An expected value over all streams of random numbers, with the same bound for all tasks: averages over some seeds on some functions estimate it and never bound it.',
  'baumeva/binary_ga.py:BinaryGA.optimize', 'baumeva/categorical_ga.py:CategoricalGA.optimize', 'baumeva/ffga.py:FFGA.optimize', 'baumeva/vega.py:VEGA.optimize', 'baumeva/collector_ga.py:CollectorGA.optimize', MU+'bin_string_mutation.py:get_mutation', DATA+':update')

p('C120', 'Objectives that change the list they are given: harmless search, wrong report, broken permutations',
  'Suppose the objective function changes the list it is given, e.g. sorts it or appends to it. BinaryGA then proceeds exactly as with a function that works on a copy: same outcome, same draws, genotypes, scores, histories and best individual. But the reported phenotypes are the changed lists: best_solution has the score of the best point evaluated, and as phenotype what the function made of that point - whose own value may be different and which may lie outside the search space. In populations without phenotype (permutations, categories) the changed list is the genotype: every individual evaluated has afterwards the changed list as genotype, individuals scored before keep theirs. CombinatoryGA with an objective that closes the tour it is given breeds lists which are no permutations.',
  'all functions, all changes to the list (any function from lists to lists), parameters, populations and executions',
  'A test uses well-behaved functions; whether a badly behaved one only affects the report is a statement about every step of every run.',
  'baumeva/ga/fitness/base_fitness.py:BaseFitness.calc_obj_func', 'baumeva/ga/fitness/base_fitness.py:BaseFitness.execute', 'baumeva/binary_ga.py:BinaryGA.optimize', 'baumeva/combinatory_ga.py:CombinatoryGA.optimize')

p('C121', 'Values no member of the first generation has are lost for CombinatoryGA',
  'When CombinatoryGA arranges k of the values a..b with k smaller than the number of values, every value of every list it ever evaluates occurs in an individual of the first generation. The probability that a run returns and has evaluated any list containing a given value v (not contained in the input population) is at most 1 - ((m-k)/m)^n, where m is the number of values and n the number of randomly generated individuals - however many generations are run. If everything as good as o contains v, the probability of returning something as good as o has the same bound. So enough generations do not find every arrangement with a probability as close to one as one likes.',
  'all parameters, objectives, input populations, generations, early stops, values and random sources uniform over a multiple of every needed range',
  'A test of a stochastic search cannot tell a value that is improbable from one that is impossible, nor bound a probability over all numbers of generations.',
  'baumeva/combinatory_ga.py:CombinatoryGA.optimize', 'baumeva/ga/populations/order_cat_population.py:OrderCatPopulation', 'baumeva/ga/crossovers/order_crossover.py:OrderCrossover', 'baumeva/ga/mutations/movement_mutation.py:MovementMutation')

p('C122', 'Crossover of equal parents: kept by three crossovers, never by OrderCrossover',
  'One-point, two-point and uniform crossover give the child whatever both parents have at a position; two equal parents have only children equal to them, and execute on a population of equal individuals gives children equal to them. OrderCrossover does the opposite: if two equal parents have no repetition, no child of them is equal to them (it is another arrangement of the same genes), so one execute replaces every arrangement of a converged population by a different one.',
  'all parents, random draws, populations and executions',
  'A test of a few draws cannot show that no draw at all gives the parent back.',
  'baumeva/ga/crossovers/one_point_crossover.py:OnePointCrossover', 'baumeva/ga/crossovers/two_point_crossover.py:TwoPointCrossover', 'baumeva/ga/crossovers/uniform_crossover.py:UniformCrossover', 'baumeva/ga/crossovers/order_crossover.py:OrderCrossover', 'baumeva/ga/crossovers/base_crossover.py:BaseCrossover.execute')

p('C123', 'CombinatoryGA over permutations finds every tour with enough generations',
  'When CombinatoryGA arranges all values a..b (at least three) and a generation has more children than a tournament has entrants, the probability that a run returns after more than m*(D+1) generations without having evaluated a given tour is at most (1-d)^m, where D depends on a and b only and d = B^-(children*(2*tournament_size+6)*(D+1)) is positive. So without early stop the probability of having evaluated a given tour, and in an unconstrained task of returning something at least as good, comes as close to one as one likes with enough generations.',
  'all admissible parameters with a mutation level below 0.999, objectives, input populations, tours, numbers of generations and random numbers uniform below B',
  'A test sees a few runs; that every tour can be reached from every population, and a positive lower bound for the probability per block of generations, is a statement about all of them.',
  'baumeva/combinatory_ga.py:CombinatoryGA.optimize', 'baumeva/ga/crossovers/order_crossover.py:OrderCrossover', 'baumeva/ga/mutations/movement_mutation.py:MovementMutation', 'baumeva/ga/selections/tournament_selection.py:TournamentSelection')

p('C124', 'What calling fill() more than once does',
  'After set_params() and m+1 calls of fill() a population has (m+1)*num_individ individuals: in each block the input individuals, then generated ones, encoded, decoded and numbered as after one call, and the objective has not been called. A program in advanced mode that goes on from there has num_individ+1 individuals from the second generation on. But bit mutation at a named level changes only the (m+1)-th part of the number of bits the word stands for, in every generation: get_gens_params appends to idx_bits, whose last entry is taken for the length of the genotypes.',
  'all populations, numbers of calls, input individuals and random numbers; for the level: all binary genes, selections, positional crossovers, named levels, programs in advanced mode that return',
  'The number of inverted bits is random, and a mean that is too low by a factor shows in no single run; the genotypes look right.',
  'baumeva/ga/populations/binary_population.py:BinaryPopulation.fill', 'baumeva/ga/populations/binary_population.py:BinaryPopulation.get_gens_params', 'baumeva/ga/mutations/bin_string_mutation.py:BinStringMutation.execute')

p('C125', 'Expected number of generations until CombinatoryGA finds a tour',
  'When CombinatoryGA arranges all values a..b (at least three) and a generation has more children than a tournament has entrants, the expected number of generations before the first that contains a given tour is at most (D+1)*B^(children*(2*tournament_size+6)*(D+1)), where D depends on a and b only, however long the run and large the population is. In an unconstrained task that has an optimum the same number bounds the expected value of best_solution["idx_generation"].',
  'all admissible parameters with a mutation level below 0.999, objectives, input populations, tours, numbers of generations, lengths of the random sequence and random numbers uniform below B',
  'An expectation, and a bound that does not depend on the number of generations, is a statement about all runs; tests see a few.',
  'baumeva/combinatory_ga.py:CombinatoryGA.optimize', 'baumeva/ga/crossovers/order_crossover.py:OrderCrossover', 'baumeva/ga/ga_data.py:update')

p('C126', 'Tours are found by CollectorGA and by the advanced loop, with any rearranging mutation',
  'Programs built from the parts for CollectorGA or by hand in the loop the README gives for advanced mode, with tournament selection, OrderCrossover, an ordered population of all values a..b (at least three) and any of the mutations that rearrange a genotype (swap, shift, inversion, movement): when a generation has more children than a tournament has entrants, every tour is evaluated with a probability that tends to one with the number of generations, CollectorGA without early stop returns a best solution at least as good as any given tour with that probability (unconstrained task), and the expected number of generations before a given tour appears has a bound that does not depend on the number of generations.',
  'all admissible parameters with a mutation level below 0.999, objectives, input populations, tours, numbers of generations, lengths of the random sequence and random numbers uniform below B',
  'A statement about the distribution of all runs of all lengths, for four mutations and two programs; a test draws a few runs of one of them.',
  'baumeva/collector_ga.py:CollectorGA', 'baumeva/ga/crossovers/order_crossover.py:OrderCrossover', 'baumeva/ga/mutations/swap_mutation.py:SwapMutation', 'baumeva/ga/mutations/shift_mutation.py:ShiftMutation', 'baumeva/ga/mutations/inversion_mutation.py:InversionMutation', 'baumeva/ga/mutations/movement_mutation.py:MovementMutation')

p('C127', 'Ranked selections prefer dominated individuals in multi-objective programs',
  'RankedSelection and VEGARankedSelection number the individuals by their position in the population and average over runs of neighbours with equal scores, whatever the order of the scores is; the share of an individual in the wheel the parents are spun from is that number divided by n(n+1)/2. A multi-objective population is sorted by Pareto rank, best first, so in runs of FFGA with RankedSelection, and of VEGA with VEGARankedSelection while no object occurs twice, an individual dominated by more members never has the smaller share, and has a larger one if the scores differ. Example: four members of the Pareto set own a sixth of the wheel each, the one dominated member a third. With transfer_parents "best" the Pareto ranks by which the members to be kept are recognised have been overwritten by then: FFGA with RankedSelection carries over the first individual if the second has another score and nobody otherwise, so from the second generation on the population has at most one member more than there are children.',
  'all populations of different objects in any order of scores whose first score is not -1, all runs of FFGA and VEGA, all pairs of members',
  'That the preference is reversed in every generation of every run follows from the order two separate components agree on; a test sees parents drawn at random.',
  'baumeva/ga/selections/ranked_selection.py:RankedSelection', 'baumeva/ga/selections/vega_ranked_selection.py:VEGARankedSelection', 'baumeva/ga/multi_ga_data.py:MultiGaData')

p('C128', 'FFGA looks at nothing but domination',
  'FFGA without constraints depends on the objectives only through the question which point dominates which: if the objective vectors are rewritten one to one such that the same points dominate each other, the whole run is the same (individuals, draws, ranks, scores, Pareto sets, number of generations), only the recorded vectors are rewritten. In particular the order in which the objectives are listed does not matter, and an additional objective that never contradicts the others (a copy of one, a sum with positive weights, the maximum) changes nothing. For VEGA this is false: with the same draws another Pareto set is reported when the objectives are listed in another order, or one of them twice.',
  'all configurations, objectives of any number, permutations, redundant objectives, draws, every rounding; the VEGA part is a concrete counterexample',
  'relates two runs for every pair of equivalent objectives',
  'baumeva/ga/fitness/multi_fitness.py:inferior', 'baumeva/ga/fitness/multi_fitness.py:assign_ranks', 'baumeva/ga/fitness/ffga_fitness.py:get_fitness_score', 'baumeva/ga/multi_ga_data.py:MultiGaData')
p('C129', 'Which genes of a parent stay together',
  'For a child of two parents: every single gene comes from either parent for half of the draws. Two genes at the positions i < j of n come from different parents for j - i of the n - 1 equally likely cuts of OnePointCrossover, for 2 (j - i)(n - 1 - (j - i)) of the (n - 1)(n - 2) ordered pairs of cuts of TwoPointCrossover, and for half of the draws of UniformCrossover. So the first and the last gene of a child of OnePointCrossover never come from the same parent, those of a child of TwoPointCrossover always do, and only UniformCrossover does not care about the order in which the user lists the genes. A block of w neighbouring genes, for example the bits of one variable, is passed on whole for n - w of the n - 1 cuts of OnePointCrossover, for (n - w)(n - w - 1) of the (n - 1)(n - 2) pairs of cuts of TwoPointCrossover, and for one in 2^(w - 1) draws of UniformCrossover.',
  'all parents of the same length that differ at the positions in question, all lengths, positions and draws',
  'exact shares over all outcomes of the random draws, for every length; sampling can only estimate them',
  'baumeva/ga/crossovers/one_point_crossover.py:crossover', 'baumeva/ga/crossovers/two_point_crossover.py:crossover', 'baumeva/ga/crossovers/uniform_crossover.py:crossover', 'baumeva/ga/crossovers/base_crossover.py:get_children')
p('C130', 'A mutation changes few legs of a round trip',
  'When the genes are places and the objective is the length of the round trip, a mutation is a small step: InversionMutation changes the length by at most two legs of the largest distance, MovementMutation and ShiftMutation by three, SwapMutation by four, whatever the number of places, the draws and the mutation level. None of the four numbers can be lowered. InversionMutation keeps this promise only for distances that do not depend on the direction: otherwise a single inversion can change all legs but two of a trip of any length.',
  'all genotypes, all distance functions with values between 0 and D (symmetric for InversionMutation), all draws and levels; the counterexample for every number of places from 2 on',
  'a statement about every distance function and every length of the trip; tests see a few maps',
  'baumeva/ga/mutations/inversion_mutation.py:get_mutation', 'baumeva/ga/mutations/movement_mutation.py:get_mutation', 'baumeva/ga/mutations/shift_mutation.py:get_mutation', 'baumeva/ga/mutations/swap_mutation.py:get_mutation', 'baumeva/ga/mutations/base_combinatory_mutation.py:execute')
p('C131', 'How far one inverted bit moves a variable',
  'A mutation that inverts one bit of a genotype changes exactly one decoded variable. With m bits of this variable behind the inverted one, the variable moves by exactly 2^m grid steps in the standard coding, and by an odd number of steps below 2^(m+1) in the Gray coding. So the last bit means one step in both codings, but in the Gray coding the first bit alone can carry a variable from one end of its range to the other. On average over all values of the variable both codings move it equally far, by 2^m steps.',
  'all gene specifications, genotypes and positions, both codings',
  'tests look at a few genotypes; the statement covers every genotype, position and number of bits, and the mean is over all values',
  'baumeva/ga/populations/binary_population.py:binary_individ_to_float', 'baumeva/ga/populations/binary_gray_population.py:get_index_from_gray', 'baumeva/ga/mutations/bin_string_mutation.py:get_mutation')
p('C132', 'Which rearrangements a mutation makes how often',
  'SwapMutation, InversionMutation and MovementMutation draw one of the n(n - 1) ordered pairs of different positions. Of a track without repetitions, every genotype SwapMutation can make comes out for exactly two of the draws, and so does every genotype InversionMutation can make: the choice is uniform. MovementMutation is not uniform: the genotypes in which two neighbours have changed places come out for two draws, all others for one. Each of the three mutations does nothing but exchange two neighbours for 2(n - 1) of the draws.',
  'all tracks without repetitions, of all lengths, and all genotypes the mutation can make of them',
  'exact shares over all outcomes of the random draws, for every length; sampling can only estimate them',
  'baumeva/ga/mutations/swap_mutation.py:get_mutation', 'baumeva/ga/mutations/inversion_mutation.py:get_mutation', 'baumeva/ga/mutations/movement_mutation.py:get_mutation')
# claims whose theorems assume exact arithmetic (all others hold for every arithmetic the interpreter might use)
EXACT='C05 C06 C07 C09 C27 C29 C30 C32 C33 C39 C48 C56 C60 C67 C72 C73 C74 C76 C77 C82 C84 C86 C89 C100 C107 C111 C112 C114 C117 C119 C120 C121 C123 C124 C125 C126 C127 C131'.split()
for x in P:
    if x['id'] in EXACT: x['quantifier'] += '; arithmetic exact'

with open(os.path.join(os.path.dirname(__file__),'..','properties.jsonl'),'w') as f:
    for x in P: f.write(json.dumps(x, ensure_ascii=False)+'\n')
print(len(P))
