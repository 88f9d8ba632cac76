# Formal model of BaumEvA (DateOrMage/BaumEvolutionAlgorithms) in Lean 4

## 1. What is modelled and how

The whole library below `baumeva/` is modelled function by function (`lean/Verif/Model/*.lean`); every
definition cites the file and lines it models.

| Python | Lean |
|---|---|
| `ga/populations/*.py` | `Model/Population.lean` |
| `ga/fitness/*.py` | `Model/Fitness.lean` |
| `ga/penalties/*.py` | `Model/Penalty.lean` |
| `ga/selections/*.py` | `Model/Selection.lean` |
| `ga/crossovers/*.py` | `Model/Crossover.lean` |
| `ga/mutations/*.py` | `Model/Mutation.lean` |
| `ga/new_generation.py`, `ga/multi_new_generation.py` | `Model/NewGeneration.lean` |
| `ga/ga_data.py`, `ga/multi_ga_data.py` | `Model/Data.lean` |
| `collector_ga.py`, `binary_ga.py`, `combinatory_ga.py`, `categorical_ga.py`, `vega.py`, `ffga.py` | `Model/Run.lean` |
| the main loop written by the user in "advanced mode" (README.md:170-200, 304-335) | `Model/Advanced.lean` |
| population objects used again | `Model/Refill.lean` |
| crossover with `num_offsprings = 2` (base_crossover.py:15, 50-51) | `Model/Offspring.lean` |
| Python runtime: objects, exceptions, `random`, `int`, `round`, slices | `Model/Py.lean` |

* **Python state.** `St σ` holds the heap of individuals (`heap : Nat → Ind σ`, references are naturals,
  `next` is the allocator), the `GaData` object, the random tape, the mutation object's level and the
  user's `conditions` list. Populations are lists of *references*, so aliasing of individuals (elites that
  occur twice, histories that point to live individuals, `deepcopy`) is represented as it is in Python.
  `best_solution` is itself a reference (a copy made by `deepcopy`, i.e. a new cell), for multi-objective runs a list of
  references; that nothing writes through it is a theorem, not an assumption.
* **Exceptions** are values; `M σ α := St σ → Except PyErr α × St σ` keeps the state at the crash point.
* **Randomness.** Each primitive of `random` consumes raw naturals of a finite tape (`randint a b` = `a + x % (b-a+1)`,
  `sample` draws without replacement, `random()` is a multiple of `2^-53`). A theorem for all tapes is a theorem for all
  random outcomes. Running out of tape is the outcome `exhausted`; an execution that loops for ever is
  `exhausted` on every tape. Probabilities (C107, C108, C111, C112, C113, C114) are fractions of the tapes of a given length with entries below `B` (`Spec.chance`);
  `B` is a multiple of the sizes of the ranges the mutation draws from, so that its draws are uniform. `seed(k)` replaces the tape by the tape of `k` (an arbitrary fixed list), `seed(None)`
  keeps the (arbitrary) tape.
* **Loops.** `for` loops are structural recursions, `while` loops carry fuel taken from the tape length or the data, with
  a proof that the fuel never decides the outcome.
* **Numbers** are rationals, and the arithmetic is a parameter: `Arith.rnd` is applied to the exact result of every floating point
  operation of the numeric kernels (gene grids, decoding, encoding, roulette, ranks, hyperbola and FFGA scores, number of pairs,
  mutation probability). `Arith.exact` rounds nothing, `Arith.binary64` rounds to nearest even with 53 bits. It is part of the
  state (`attrs.arith`) and of the configuration (`Cfg.arith`). A theorem without a hypothesis about it holds for every
  arithmetic; the claims marked "arithmetic exact" in `properties.jsonl` have the hypothesis `arith = .exact`; C65, C70, C87 (VEGA), C90, C91-C99 and C101 are about
  every rounding with the laws of binary64 (`Spec.Rounding`). Scores of the generic engine are any linear order `σ` (ℚ for single objective
  and FFGA, lexicographic `List ℚ` for VEGA).
* **Objective functions** are arbitrary functions `List Val → Except PyErr Ret` which may raise: `obj1` stands for the call
  with one argument, `obj2` for the call with `input_data` in front. Nothing is assumed about them unless a theorem says so.

Ghost fields (not in Python, written only, never read by the model): `calls` (trace of the arguments of objective calls) and
`snaps` (population contents after each `update`; starts anew with every storage object).

### Simplifications (also stated where they are made)

* One element of a list is written at a time where Python does so; three places are atomic: the gene parameters computed by
  `fill` (an exception halfway leaves no partial parameter lists), the three histories appended by `update`, and a `sort`
  that raises (leaves the order unchanged). They can be told apart only by looking at the object after the exception.
* `deepcopy` of a list copies an object that occurs twice in it twice.
* `num_offsprings` is 1 (its value everywhere in the library), so one of the two children is kept; the value 2 is modelled apart
  (`Model/Offspring.lean`), without runs.
* `fill` is called once per population object (as all callers in the library do); `set_params` and `fill` on an object used before are
  modelled apart (`Model/Refill.lean`).
* Categorical genes given as tuples have three entries; penalties are instances of the library's penalty classes.
* Printing is modelled only as far as it can raise.

## 2. Not modelled

* Overflow, subnormal numbers and NaN; rounding inside user-written objectives and custom penalties (they are arbitrary functions).
* Errors of the C library's `pow`: a natural power is the exact power rounded once. Other exponents are arbitrary functions of the
  base; theorems that need it assume that they are positive and do not decrease (`GrowingPower`, `PositivePower`). `x ** e` that
  raises or is complex is not modelled.
* The Mersenne twister itself: theorems hold for every tape, probabilities are those of independent uniform draws (`Spec.chance`).
* Objective functions with side effects on library state other than changing the list they are given (`Model/InPlace.lean`); unhashable gene values; printed text; type annotations.
* Negative `num_individ`/`num_generations` (naturals), subclassing by users other than through the component interface
  (theorems stated for all `Ops` or for all components with a stated effect cover user-written components with that effect).

## 3. Trusted base

Lean 4.33.0 kernel; the axioms `propext`, `Classical.choice`, `Quot.sound`; Mathlib's definitions (ℚ, lists, orders); and the
faithfulness of the model to `/repo` (reading, no execution). `AXIOMS.txt` (written by `tools/mkaxioms.py` from
`#print axioms`) lists for every theorem of the manifest the axioms it depends on; no theorem depends on anything else. No
`sorry`, no own axioms, no `native_decide`/`bv_decide`. Concrete runs are evaluated by the kernel (`decide +kernel`).

## 4. Layout

* `Verif/Model/*.lean` - model.
* `Verif/Spec/*.lean`  - small independent specifications used in theorem statements.
* `Verif/Proofs/*.lean` - helper lemmas. The main families:
  `Monad` (inversion of `bind`, loops), one file per component with a complete description of what a successful call does
  (`Individ`, `Fill`, `Fitness`, `Penalty`, `Selection`, `Roulette`, `Ranked`, `Vega`, `Crossover`, `Mutation`, `NewGeneration`,
  `Update`, `Sort`, `Pareto`, `Multi`);
  `Generation`, `Run`, `History`, `MultiRun` (run invariants by induction over generations);
  `Frame`, `Keeps` (relations every component preserves, also when it raises); `Facade` (what happens before the first generation);
  `Safe*` (weakest preconditions: no exception but `exhausted`); `Hom*` (two runs on renamed heaps proceed alike);
  `Image*` (two runs on renamed genes, values and scores proceed alike); `Tame` (runs shift along a longer tape);
  `Live`, `Liveness`, `Reach` (existence of draws).
* `Verif/Props/*.lean` - property theorems `Cnn_*`, with examples showing that hypotheses are met.
* `tools/` - generators of `properties.jsonl`, `MANIFEST.json`, `AXIOMS.txt`.
* `seeded/LOG.jsonl` - wrong programs tried against the theorems.

A property that is false of the code has a theorem `Cnn_*_refuted` (a proof of its negation from a concrete execution or for
all executions) and a theorem `Cnn_*_partial` with what holds instead; its status is `partial`.

## 5. Plan per property

| Property | Modelled part | Proof method |
|---|---|---|
| C01 | `get_real_number_of_points` loop | induction on loop, minimality by monotonicity of 2^n |
| C02 | `index_to_binary`, `int(..,2)` | `Nat.digits` lemmas |
| C03 | Gray encode/decode loop | strong induction, bit extensionality |
| C04 | Gray encode | induction on v (halving) |
| C05-C07 | gene params, encode/decode of individuals | induction over gene list, rational arithmetic, banker's rounding lemma |
| C08 | gene params | arithmetic; counterexample |
| C09 | `fill` | case analysis + induction over gene list |
| C10-C13 | `fill`, generators | induction over loops, for all tapes |
| C14-C19 | crossovers | list lemmas, for all tapes; heap frame lemmas |
| C20-C24 | mutations | list permutation lemmas, for all tapes |
| C25-C31 | selections | induction over tournaments / cumulative sums / rank loop (`Proofs/Sentinel` for a lowest score of -1: the run that seems to begin at index -1) |
| C32-C33 | hyperbola fitness | ordered field arithmetic |
| C34-C36 | fitness.execute on the heap | induction over population with aliasing |
| C37-C40 | penalties, every operation rounded; formulas of C39, C40 with exact arithmetic | induction over constraint lists; counterexamples |
| C41 | facade + `conditions` list state | symbolic execution |
| C42-C49 | update, new generation, main loop | invariants by induction over generations, for every tape |
| C50-C51 | seeding | tape independence lemmas for all operators |
| C52 | sort / is_duplicate | list lemmas |
| C53-C59, C64 | multi-objective ranking, update, transfer | counting invariant of the double loop; minimal elements; counterexamples |
| C60-C63 | VEGA selections, MultiFitness, facades | loop induction, symbolic execution |
| C65 | whole single-objective facades | weakest-precondition calculus `Safe` over every component; refutations by concrete calls |
| C66 | heap, all facades | relational (heap renaming) simulation `Hom` |
| C67-C69 | generators, variation, tournament | explicit draws for every target (existence and uniqueness) |
| C70 | tournament loop, whole runs | existence of draws from every reachable state (`Live`, `Tame`, `Reach`); counterexample |
| C71-C74 | call trace, evaluations, histories | run invariants tying every individual to its evaluation (`Ledger`) |
| C75 | construction order of the facades | bounds on the call trace before an exception (`Costs`) |
| C76, C77 | whole runs, two objectives or two codings | simulation by a renaming of genes, values and scores (`Img`) |
| C78 | main loop, two parameter sets | simulation of the common prefix + monotone growth of all records |
| C79 | `get_avg_score` | symbolic execution; bounds from the run invariant |
| C80 | repeated `CollectorGA.optimize` | the run invariant restarted from a finished run |
| C81 | `CollectorGA.optimize` raising at any point, then called again | an invariant weaker than the run invariant that every component keeps also when it raises (frame lemmas `Calm`/`Moving`/`Gentle`, `Proofs/Touch.lean`) |
| C82 | arguments of the objective over `CollectorGA.optimize` calls that raise | an invariant on genotypes kept by every component also when it raises; refuted for binary populations by a concrete run |
| C83 | call trace of `FFGA` and `VEGA` | exact call list of the double ranking loop up to order, then a run invariant (`MultiLedger`) |
| C84, C85 | individuals and calls of `FFGA` and `VEGA` | the same invariant with the genotype and score facts of every individual; coverage of C55; refuted for the probe of `VEGA` |
| C86 | `optimize()` of `BinaryGA` and `CategoricalGA` | draws of a computation can be cut off after the last one it used and replaced (`Trim`); any selection and crossover, then draws that mutate the children into the chosen genotypes (C68, C05), then any completion (C70); limits exchanged as for C78 |
| C87 | FFGA and VEGA facades as a whole; objective as a function that may raise | `MultiSafe` (Proofs/SafeMultiRun.lean): what keeps one generation of a multi-objective run from raising, as an invariant over the generations reached; component lemmas in Proofs/SafeMulti.lean; instances for both facades; four concrete runs show that the limits are needed. The `AdaptivePenalty` case is excluded (C62: it always raises there). A run whose tape ends counts as unfinished, not as an exception |
| C88 | `oneTournament`, `secondParent` | draws and ordered samples without repetition correspond one to one (`pick`); counting samples by their first best member; exchanging two members is an injection between the samples they win |
| C89 | FFGA runs with two or more individuals can always be completed; with one they never return | invariant on the roulette weights (1/(2+N) ≤ score ≤ 1/2), two reachable draws for a second parent, the liveness machinery of C70 lifted to multi-objective runs; hang of a single individual for all draws (Props/MultiLiveness.lean) |
| C90 | VEGA runs can always be completed | false as stated: a concrete admissible call with two children per generation hangs for all further draws (`C90_vega_hang_refuted`); proved for at least three children per generation, or none (`C90_vega_completable_partial`) |
| C91 | grid points in machine arithmetic (kernels with a rounding after each operation; `fl` = binary64) | relative error bounds through three roundings, monotonicity of rounding; refuted by the gene (0, 3.1, 1) evaluated in binary64 |
| C92 | decode then encode in machine arithmetic | total error below half a step when the step is at least 64 unit roundoffs; refuted by the same gene (out-of-range rejection) |
| C93 | `get_index` in machine arithmetic | error of the cumulative sums (induction), hence of the last entry; refuted by seven equal scores (`IndexError` of the whole selection) |
| C94 | windows of the wheel in machine arithmetic | entries at least four unit roundoffs apart keep the nearest entry right; refuted by the scores 2^-100 and 1 |
| C95 | `HyperbolaFitness` in machine arithmetic | monotone rounding, error of the denominator; refuted next to the target and for penalties below the last bit |
| C96 | number of pairs in machine arithmetic | monotone rounding that fixes integers |
| C97 | FFGA runs in machine arithmetic | the safety proof of C87 with a wheel whose draws stay below its last entry (`Proofs/SafeWheel.lean`); refuted by a run of seven equal individuals |
| C98 | best solution in machine arithmetic | the ledger of C72 with rounded scores, then the error bounds of C95; refuted by a run with a target |
| C99 | points of a `BinaryGA` run in machine arithmetic | the call trace of C71 and the genotypes of C48, then C91; refuted by a run over the gene (0, 3.1, 1) |
| C100, C101 | two runs, the second given points of the first | call traces of both runs, decode-encode identity (C06, in machine arithmetic C92), C65 for acceptance, C72 for the comparison; refuted in binary64 by the same gene |
| C102 | programs in collector mode (`collectorGA`, README.md:226-238): every population, selection, crossover, mutation | each component raises nothing on states reached by fitting components (`SafeCore`, `SpinReady`, `ranked_safe`); fitting is a separate specification (`Matching`, `Selectable`); concrete misfits raise |
| C103 | the five `optimize` methods and `collector` | both computations reach the same state before the first generation (`facade_from`, `collector_from`) |
| C104 | multi-objective programs in collector mode (`collectorVega`, `collectorFfga`): every VEGA selection, every selection with `MultiNewGeneration` | the generic `MultiSafe` argument of C87 with any fitting crossover and mutation; population sizes bounded from both sides (`ffga_sizes_all`); roulettes by `CalmUpTo`; the converse for other populations by the missing phenotype |
| C105 | penalties in every rounding | calculus of relative errors (`NearBy`), induction over the constraints |
| C106 | constrained runs in every rounding | ledger of evaluations (C74), monotone score (C95) |
| C107 | probability over uniform tapes (`Spec/Chance.lean`) | each generation is an experiment that reads its tape from the left (`Experiment`); conditional bound per generation through the mutation's draws, product rule `chance_bind` |
| C108 | probability over uniform tapes | `Sure`: the chance to fail within `L` draws tends to 0; closed under sequencing (`Sure.bind`), loops over the second parent fail geometrically (`chance_misses`), everything else needs boundedly many draws (`Tame.brief`); combined with C107 |
| C109 | the loop of the README for advanced mode (`Model/Advanced.lean`) | inversion of the loop (`advancedLoop_after`); equality with collector mode by a renaming of the limits (`Ops.Blind`, `advancedRun_img`) |
| C110 | `collectorGA`, every component | the ledger of C71 for all components (`HandRun`) |
| C111 | probability over uniform tapes, `collectorGA`, `advancedGA` | the argument of C107 does not look at the parents, so it holds for every selection; the roulette and the ranked selection read their tape from the left too (`selExec_trim`) |
| C112 | probability over uniform tapes, `collectorGA`, `advancedGA` | `Sure` for each selection (`Proofs/SureWheel.lean`: the search of the roulette for a second place fails geometrically), lifted through the loops (`Picks`); combined with C111; a population dominated by one score as the counterpart (`C112_slow`) |
| C113 | probability over uniform tapes, `ffga`, `vega` | `MultiSure`: the invariants of C87 (nothing raises) with selections that succeed surely; the weights of FFGA stay within a factor of 2^53 (`FfgaWeights.balance`), the populations of VEGA keep three individuals (`vega_spread`) |
| C114 | probability over uniform tapes, `ffga`, `vega` | `MultiDraws`: selections which give parents whatever the draws; the next generation hits a given genotype with chance at least δ (`MultiDraws.chance_avoids`), conditional experiments are multiplied (`chance_bind`); the front: union bound over the finite grid (`chance_any`, `grid_finite`), C85 for what an archive of all evaluations means, C113 for the return |
| C115 | `setParamsAgain`, `refill`, `reuse`, `advancedTwice` (Model/Refill.lean) | inversion of `fill` on a non-empty population (`fill_more`); the first generation survives a run (`first_generation_kept`); with `is_sorted` left true `update` takes the last individual; refuted by a run, partial for objects no run has used |
| C116 | `crossBoth`, `mutBoth` (Model/Offspring.lean): two children per pair, shared lists by copying back and forth | inversion of the loops (`crossPairsBoth_ok`, `mutTwins_ok`); complementarity from C14/C15, refuted for uniform crossover by a pair; two inversions of all bits cancel |
| C117 | `mutExec`, `updateMutLvlR`, `mutateBits` | mean over all lists of draws (`Spec/Mean.lean`) by induction on the genotype; the level after first use is a number, which later uses keep; refuted by an object used on 2 and then on 8 bits |
| C118 | `evolve`, `gaUpdate` as in the library, all other components arbitrary | rules as relations between states (`Spec/Own.lean`); the invariant `RunInv` of C42-C49 follows from the rules alone (`own_first`, `own_next`); instances for the library, two children per pair and a replacement that keeps everybody; a counterexample without the rule about the best member |
| C119 | as C107, C111, C114 | the mean over all tapes of given length (`Spec/Mean.lean`) is the sum of the chances to wait longer than 0, 1, 2, … generations; each is at most (1-δ)^n because the proofs of C107, C111 and C114 hold for the first n generations of longer runs (`C107_late`, `byHand_late`, `facade_late`); for the front the union bound and C55 |
| C120 | `Model/InPlace.lean`: evaluation with an objective that turns the list `g` it is given into `left g` | the run with such an objective is the image of the run with a well-behaved one under "phenotypes of scored individuals are changed" (`Alike`, `Proofs/InPlace.lean`), because no operator reads the phenotype of an individual that has a score; C72 for what is reported; a run whose report is wrong and a run that breeds lists of seven towns out of five refute what one would expect |
| C121 | – (CombinatoryGA as modelled) | `genotypes_invariant` with "all values occur in the first generation", which ordered crossover and movement keep; the chance that n samples of k out of m all miss a value is at least ((m−k)/m)^n (`allAvoid_chance`, counting tapes); C72 for the returned individual; a configuration with arbitrarily many generations refutes `TourFound`, the analogue of C108 |
| C122 | – (the crossovers as modelled) | positional description of C14–C16 for three crossovers; for `OrderCrossover` C17: the gene right after the segment is the first gene of the other parent, which an equal parent has elsewhere; `crossExec_ok` for whole generations |
| C123 | – (CombinatoryGA as modelled) | `Proofs/Walk`: ordered crossover of a tour with itself (segment [1,2)), with or without an exchange of two neighbours, reaches every arrangement in at most D steps; `Proofs/Clones`: an explicit word of draws makes all children of a generation copies of one tour, and of the next one on the walk (tournaments, crossover and mutation are run symbolically, `Takes`); `Proofs/TwoBranch`: chance of a word, hit or miss; induction over blocks of D+1 generations |
| C124 | `fillAgain`, `fillMore`, `advancedFilled` (Model/FillAgain.lean) | the parameters after more calls are an extension of those after one (`Grown`), of which adopting, generating and decoding read the first part only; induction over the calls; the run after them with the invariants of C10 and C47; the level by `updateMutLvl` and C117; refuted by a concrete program |
| C125 | – (as C123) | the tail bound of C123 (`C123_late`) summed over blocks of D+1 generations (`mean_blocks`), with the definitions of C119 (`mean`, `waits`, `found`); `best_solution` is found no later than an optimum (`found_le`, taken out of the proof of C119) |
| C126 | – (CollectorGA and the advanced loop as modelled) | `Proofs/Clones` for any rearranging mutation (the number of draws of one mutation is `mutDraws`, 4 for shift and 3 for the others); `byHand_tours`: the tail bound of C123 for any program of the form `ByHand` (a loop of generations that stops when it likes); the two programs have that form (C110, C111), C112 gives the number of draws enough to return, `mean_blocks` the expectation |
| C127 | – (ranked selections and multi-objective runs as modelled) | `Proofs/RunRanks`: the loop of C30 without the assumption that scores are sorted, for different objects; specification `Spec/RunRank` (mean of the positions joined by equal scores), its monotonicity and sum in `Proofs/RunRankSpec`; order of the population from the invariant of C54; scores of FFGA are positive, objects in its population different (`After.multi_nodup`), both by induction over generations |
| C128 | – (FFGA as modelled) | `Props/Objectives`: simulation of one run by the other (the relation `Img` of C76, where the assumption on the ranking is now needed only for vectors the objective returns); corollaries for permutations and for redundant objectives. VEGA: concrete run with the objectives swapped and with one listed twice |
| C129 | – (crossovers and `get_children` as modelled) | `Props/Linkage`: for every reduced draw (numbers below the bounds of the draws, equally likely) the child and the origin of each of its genes; counting by an involution that inverts one coin, and by explicit bijections for the cuts |
| C130 | – (mutations as modelled) | `Props/Locality`: lengths of walks and of round trips over any distance function; a round trip does not depend on where it begins, so each mutation becomes a new arrangement of two, three or four pieces of it |
| C131 | – (coding and bit mutation as modelled) | `Props/OneFlip`: an inverted bit is an exclusive or with a power of two; the Gray code turns this into an exclusive or of the index with 2^(m+1) - 1, the mirror image in its block |
| C132 | – (mutations as modelled) | `Props/Neighbourhood`: a bijection between reduced draws and ordered pairs of positions; which pairs give the same genotype is read off the positions that changed |

No property on the list is outside what the model can express; probabilistic statements are expressed by counting draws or by
interval widths.

## 6. What the model shows about the code

Deviations from the documented or expected behaviour, each a consequence of the model and most of them theorems:

* From the second generation on the population has `num_individ + 1` members (C47); FFGA populations can grow without
  limit (C57).
* A fixed seed is set again at every selection and crossover, so all generations use the same draws (C51).
* Dynamic and adaptive penalties charge nothing in generation 0, so an infeasible individual found there can stay
  `best_solution` for ever (C39, C74). `StaticPenalty` ignores violated equalities and the coefficients of
  inequalities (C40).
  `AdaptivePenalty` raises `KeyError` in multi-objective runs once a child is evaluated (C62).
* Constructing a single-objective fitness removes `'optimize'` from the caller's `conditions` list, so the same list cannot be
  used twice (C41).
* An exception in evaluation leaves the binary population swapped (genotype and phenotype exchanged, C36).
* Multi-objective ranking calls the objective without `input_data`, counts constraint values as objectives (C62) and costs
  `n(n-1)` extra calls per generation. Conditional tasks list the objectives in reverse order (C61).
* VEGA and FFGA ignore `tournament_size` (C62); `VEGABalancedSelection` and `VEGARankedSelection` keep only the parents of the
  last objective (C60); VEGA can lose Pareto points (C56); VEGA without conditions calls the objective at the origin even if it
  is outside the box (C77).
* FFGA keeps stale scores of survivors (C58) and with `transfer_parents='random'` the guaranteed survivor has the worst
  rank (C59); recorded Pareto sets change afterwards (C64).
* The search for a second parent can loop for ever (C69, C70); the `tournament_size - 1` worst never become parents (C69).
* A bad tournament size is reported only after the first generation has been evaluated (C75).
* `transfer_parents='random'` without children, a single bit in total, a pool repeating one value and the default mutation level
  of `CategoricalMutation` raise (C65). A mutation level of 0 still mutates with probability 1/1000 per gene (C23).
* Ranked selection uses -1 as "no score yet", so a population whose lowest score is -1 is ranked wrongly (C31).
  The individuals with score -1 are ranked one half too low, and if only one individual has another score it gets the same rank as they do, so the
  best individual is not preferred at all (minimisation with objective values 1, 1, 1, 0).
* The range of a gene is extended to the next power of two of grid points with a smaller step, so a requested step is not
  kept (C08). The roulette prefers worse individuals when scores are negative (C28).
* In binary64 the last point of a gene's grid may exceed the upper end (`(0, 3.1, 1)` decodes to 3.1000000000000005, C91), and
  such a solution is rejected when it is fed back (C92). The roulette wheel of seven equal scores ends at 0.9999999999999998,
  so `random()` can hit beyond it and selection raises `IndexError` (C93). A score that is tiny compared with the others is
  selected with a chance of up to one half if it comes first (C94). Scores within 2^-53 of the target are all 1 and penalties
  below the last bit of the objective value vanish (C95).
* A whole run of `FFGA` ends with that `IndexError` for seven equal individuals and `random() = 1 - 2^-53` (C97); a run with a target
  reports a point at distance 2^-60 although the target itself was evaluated (C98).
* The same gene `(0, 3.1, 1)` makes `BinaryGA` call the objective outside the declared range (C99) and reject its own result as
  `input_population` (C101).
* `CollectorGA` does not check that its components fit together: `CategoricalMutation` on a binary population, `OrderCrossover` on a
  binary population, `TwoPointCrossover` on genotypes of two bits raise in the middle of the run, and `BalancedSelection` without
  `obj_value` divides by zero when all scores are zero (C102).
* Multi-objective algorithms work with binary populations only: `MultiFitness` reads the phenotype, which `CatPopulation` and
  `OrderPopulation` individuals do not have (`KeyError`). Under `MultiNewGeneration` a population can shrink below the size of the
  tournament, which is only compared with `num_individ` (`ValueError`). `RankedSelection` overwrites the Pareto ranks by which
  `MultiNewGeneration` recognises the front: the whole front is dropped with transfer "best" (C55), and without children the
  population becomes empty (`IndexError`, C104).
* The loop the README recommends for advanced mode makes one generation more than `CollectorGA` with the same numbers and stops one
  unsuccessful generation earlier; `GaData(early_stop=None)` is accepted but the loop raises `TypeError` in its first round; a goal
  already met by the initial population does not keep the loop from being entered (C109).
* `MultiGaData.print_best_solution` reads the phenotype of every member of the Pareto set, so even a population of one categorical
  individual, which gets through its generations, raises `KeyError` when the result is printed (`C104_one_needs_binary`).
* `BalancedSelection` can be caught for practical purposes: if one score exceeds 2^53 - 1 times the sum of all others (one individual
  at the target, all others further away than 1e16), its search for a second parent goes on until `random()` returns exactly 0.0
  (`C112_slow`, `C112_patience`).
* An empty list of intervals in `StaticPenalty` repeats the charge of the constraint before it, or raises `UnboundLocalError`
  (`C40_empty_table`).
* A population object is good for one run: `set_params` and `fill` append to the old individuals, and `is_sorted` stays true, so the
  first `update()` of the next run takes the individual created last for the best one (C115).
* `UniformCrossover` stores one list in both children.  With `num_offsprings = 2` they are one genotype twice, every in-place mutation
  hits it twice, and a mutation that inverts every bit does nothing (C116).
* A `BinStringMutation` with a named level fixes its level on the first population it meets: an object first used on genotypes of 10
  bits inverts ten times too many bits of genotypes of 100 bits (C117).
* `calc_obj_func` hands the individual's own list to the objective.  A function that sorts or extends its argument leaves the search of
  `BinaryGA` intact but makes it report points that were never evaluated, and turns the permutations of `CombinatoryGA` into longer
  lists which are then bred from (C120).
* `CombinatoryGA` with `gens=(a, b, k)` and k smaller than the number of values has no mutation that brings in a value: what no member
  of the first generation has is lost, however many generations follow (C121).
* `OrderCrossover` fills the positions behind the segment from the beginning of the other parent (not, as usual for this crossover, from
  behind the segment).  The child of two equal tours is therefore never that tour: a converged population is torn apart by every
  crossover (C122).
* With all values arranged (k equal to the number of values) `CombinatoryGA` has no such defect: the disturbance by `OrderCrossover`
  together with movement reaches every tour, and every tour is found with a probability that tends to one, provided that there are
  more children than entrants of a tournament (C123).
* `fill()` called twice without `set_params()` doubles the last entry of `idx_bits`, which `BinStringMutation` takes for the length of
  the genotypes: at a named level only half as many bits are inverted as the word stands for (C124).
* `RankedSelection` and `VEGARankedSelection` rank by position, which means by score only if the population is sorted by score. Multi-objective
  populations are sorted by Pareto rank with the best first: there these selections prefer dominated individuals. `RankedSelection`
  also overwrites the Pareto ranks `MultiNewGeneration` reads afterwards: at most one individual survives a generation of FFGA (C127).
* With `transfer_parents` "best" FFGA's survivors keep the score 1/2 they got in the Pareto set. A survivor that has come to be dominated weighs as much in
  the next selection as the members of the Pareto set, and more than any dominated child (C58_survivors).
* `InversionMutation` is a small step for a round trip only if distances do not depend on the direction (C130).
* In the Gray coding a single inverted bit can carry a variable from one end of its range to the other; the standard coding moves it by at most 2^(n-1) of the 2^n - 1 steps. The mean is the same (C131).
* `MovementMutation` exchanges a given pair of neighbours twice as often as it makes any other given move (C132).
