import Verif.Model.Fitness
import Verif.Model.Selection
import Verif.Model.Mutation
import Verif.Model.Data
import Mathlib.Data.List.Lex
/-!
# Whole runs

Models `baumeva/collector_ga.py` and the facades `binary_ga.py`, `combinatory_ga.py`, `categorical_ga.py`,
`vega.py`, `ffga.py`.
-/
namespace BaumEva

/-- The components of a genetic algorithm (collector_ga.py:29-34). -/
structure Ops (σ : Type) where
  fitness : M σ Unit
  update : M σ Unit
  selection : M σ Unit
  crossover : M σ Unit
  mutation : M σ Unit
  newGen : M σ Unit

section
variable {σ : Type}

/-- Body of the main loop (collector_ga.py:72-77, binary_ga.py:94-99 and the same lines of the other facades). -/
def generation (ops : Ops σ) : M σ Unit := do
  ops.selection
  ops.crossover
  ops.mutation
  ops.newGen
  ops.fitness
  ops.update

/-- `for i in range(1, num_generations): ..; if no_improve > early_stop: break` (collector_ga.py:70-80,
binary_ga.py:92-102); `early_stop = None` cannot be compared (`TypeError`). -/
def mainLoop (ops : Ops σ) : Nat → M σ Unit
  | 0 => pure ()
  | n + 1 => do
    generation ops
    let ga ← getGa
    match ga.earlyStop with
    | none => throwE .typeError
    | some e => if e < ga.noImprove then pure () else mainLoop ops n

/-- First generation and main loop (collector_ga.py:67-80, binary_ga.py:89-102). -/
def evolve (ops : Ops σ) : M σ Unit := do
  ops.fitness
  ops.update
  let ga ← getGa
  mainLoop ops (ga.numGenerations - 1)

/-- `print_best_solution` reads the best solution (ga_data.py:88-102, multi_ga_data.py:65-85): `None` is not
subscriptable, a Pareto record that was never replaced has no `idx_generation`, and the entry `'phenotype'` of every member
of the Pareto set is read, which only individuals of binary populations have.  Output is not modelled. -/
def printBest : M σ Unit := do
  let s ← getS
  match s.ga.best with
  | none => throwE .typeError
  | some (.single _ _) => pure ()
  | some (.pareto _ none) => throwE .keyError
  | some (.pareto front (some _)) =>
    if front.all fun r => (s.heap r).phenotype.isSome then pure () else throwE .keyError

/-- `CollectorGA.optimize` (collector_ga.py:62-81). -/
def collectorOptimize (ops : Ops σ) : M σ Unit := do
  evolve ops
  printBest

/-- Storage object creation (ga_data.py:34-48).  `ar` is the arithmetic of the interpreter.  The ghost trace `snaps` belongs to the storage object and
starts anew. -/
def newGaData (numGenerations : Nat) (childrenPercent : ℚ) (earlyStop : Option Int)
    (ar : Arith := .exact) : M σ Unit :=
  modifyS fun s => { s with
    ga := { attrs := { arith := ar }, numGenerations := numGenerations, childrenPercent := childrenPercent, earlyStop := earlyStop }
    snaps := [] }

/-- `CollectorGA.set_population` (collector_ga.py:36-60). -/
def collectorSetPopulation (spec : PopSpec) (numIndivid numGenerations : Nat)
    (input : Option (List (List Val))) (childrenPercent : ℚ) (earlyStop : Option Int)
    (ar : Arith := .exact) : M σ Unit := do
  newGaData numGenerations childrenPercent earlyStop ar
  newPopulation
  setParams spec numIndivid input
  fill input

end

/-- The single-objective selection classes a `CollectorGA` can be given (selections/__init__.py). -/
inductive SelOp
  | tournament (size : Int) | balanced | ranked
deriving DecidableEq

/-- `selection.execute` of these classes. -/
def selExec : SelOp → M ℚ Unit
  | .tournament size => tournamentExec size
  | .balanced => balancedExec
  | .ranked => rankedExec

/-- The components of a single-objective `CollectorGA` with storage `GaData` (collector_ga.py:13-34). -/
def singleOps (fit : Fit ℚ) (sel : SelOp) (cross : CrossOp) (mutOp : MutOp) (tr : Transfer) : Ops ℚ :=
  { fitness := baseFitnessExec fit, update := gaUpdate, selection := selExec sel, crossover := crossExec cross,
    mutation := mutExec mutOp, newGen := newGenExec tr }

/-- The components of a multi-objective run with storage `MultiGaData` and fitness `MultiFitness`
(vega.py:79-92, ffga.py:70-88). -/
def multiOps {σ : Type} [DecidableEq σ] (fit : Fit σ) (selection : M σ Unit) (cross : CrossOp) (mutOp : MutOp)
    (newGen : M σ Unit) : Ops σ :=
  { fitness := multiFitnessExec fit, update := multiUpdate, selection := selection, crossover := crossExec cross,
    mutation := mutExec mutOp, newGen := newGen }

/-- The selection classes for vectors of scores (selections/__init__.py). -/
inductive VegaSelOp
  | tournament (size : Int) | balanced | ranked
deriving DecidableEq

/-- `selection.execute` of these classes. -/
def vegaSelExec (numObjectives : Nat) : VegaSelOp → M (List ℚ) Unit
  | .tournament size => vegaTournamentExec numObjectives size
  | .balanced => vegaBalancedExec numObjectives
  | .ranked => vegaRankedExec numObjectives

/-- The components of a VEGA run (vega.py:79-92); the facade uses the tournament. -/
def vegaOps (fit : Fit (List ℚ)) (numObjectives : Nat) (sel : VegaSelOp) (cross : CrossOp) (mutOp : MutOp) (tr : Transfer) :
    Ops (List ℚ) := multiOps fit (vegaSelExec numObjectives sel) cross mutOp (newGenExec tr)

/-- The components of an FFGA run (ffga.py:70-88); the facade uses the roulette. -/
def ffgaOps (fit : Fit ℚ) (sel : SelOp) (cross : CrossOp) (mutOp : MutOp) (tr : Transfer) : Ops ℚ :=
  multiOps fit (selExec sel) cross mutOp (multiNewGenExec tr)

/-- Parameters common to all facades (binary_ga.py:10-63 and the same lines of the others).  `conditions` is the
user's list object `St.conds`; `arith` is the arithmetic of the interpreter. -/
structure Cfg where
  numGenerations : Nat
  numIndivid : Nat
  obj1 : List Val → Except PyErr Ret
  obj2 : List Val → Except PyErr Ret := fun _ => .error .typeError
  inputTruthy : Bool := false
  penalty : Option Penalty := none
  childrenPercent : ℚ := 95 / 100
  earlyStop : Option Int := some 10
  input : Option (List (List Val)) := none
  tournamentSize : Int := 3
  mutationLvl : MutLvl := .str "normal"
  transfer : String := "best"
  isPrint : Bool := true
  arith : Arith := .exact

/-- `early_stop if early_stop is not None else num_generations` (binary_ga.py:58). -/
def Cfg.stop (c : Cfg) : Int := c.earlyStop.getD c.numGenerations

section
variable {σ : Type}

/-- The common shape of `optimize` of all facades (binary_ga.py:65-106, combinatory_ga.py:63-100,
categorical_ga.py:67-105, vega.py:74-109, ffga.py:65-109): create storage, population, fitness, operators; fill;
run; print. -/
def facade (c : Cfg) (spec : PopSpec) (task : Task σ) (fitExec : Fit σ → M σ Unit) (update : M σ Unit)
    (selection : M σ Unit) (cross : CrossOp) (mutOp : MutOp) (newGen : Transfer → M σ Unit) : M σ Unit := do
  newGaData c.numGenerations c.childrenPercent (some c.stop) c.arith
  newPopulation
  setParams spec c.numIndivid c.input
  let fit ← newFitness task
  newMutation mutOp c.mutationLvl
  let tr ← liftE (checkTransfer c.transfer)
  fill c.input
  evolve { fitness := fitExec fit, update := update, selection := selection, crossover := crossExec cross,
           mutation := mutExec mutOp, newGen := newGen tr }
  if c.isPrint then printBest else pure ()

end

/-- `BinaryGA.optimize` (binary_ga.py:65-106). -/
def binaryGA (c : Cfg) (gray : Bool) (gens : List BinGene) (objValue : Option ℚ) : M ℚ Unit :=
  facade c (.binary gray gens) (hyperbolaTask c.obj1 c.obj2 c.inputTruthy c.penalty objValue c.arith)
    baseFitnessExec gaUpdate (tournamentExec c.tournamentSize) .onePoint .binString newGenExec

/-- `CombinatoryGA.optimize` (combinatory_ga.py:63-100). -/
def combinatoryGA (c : Cfg) (a b k : Int) (objValue : Option ℚ) : M ℚ Unit :=
  facade c (.orderCat a b k) (hyperbolaTask c.obj1 c.obj2 c.inputTruthy c.penalty objValue c.arith)
    baseFitnessExec gaUpdate (tournamentExec c.tournamentSize) .order .movement newGenExec

/-- `CategoricalGA.optimize` (categorical_ga.py:67-105). -/
def categoricalGA (c : Cfg) (gens : List CatGene) (objValue : Option ℚ) : M ℚ Unit :=
  facade c (.cat gens) (hyperbolaTask c.obj1 c.obj2 c.inputTruthy c.penalty objValue c.arith)
    baseFitnessExec gaUpdate (tournamentExec c.tournamentSize) .uniform .categorical newGenExec

/-- A program in collector mode (README.md:226-238, 354-371): the components are created, `CollectorGA` is given them
(collector_ga.py:13-34), then `set_population` (36-60) and `optimize` (62-81).  The constructors of the selections and of the
crossover classes cannot fail; the order of the other constructors is that of the keyword arguments in the README. -/
def collector {σ : Type} (c : Cfg) (spec : PopSpec) (task : Task σ) (mutOp : MutOp) (ops : Fit σ → Transfer → Ops σ) : M σ Unit := do
  let fit ← newFitness task
  let l ← liftE (checkMutation mutOp c.mutationLvl)
  modifyS fun s => { s with mutLvl := l.stored c.arith }
  let tr ← liftE (checkTransfer c.transfer)
  collectorSetPopulation spec c.numIndivid c.numGenerations c.input c.childrenPercent (some c.stop) c.arith
  collectorOptimize (ops fit tr)

/-- A single-objective program in collector mode (README.md:226-238). -/
def collectorGA (c : Cfg) (spec : PopSpec) (sel : SelOp) (cross : CrossOp) (mutOp : MutOp) (objValue : Option ℚ) : M ℚ Unit :=
  collector c spec (hyperbolaTask c.obj1 c.obj2 c.inputTruthy c.penalty objValue c.arith) mutOp
    fun fit tr => singleOps fit sel cross mutOp tr

/-- A program in collector mode with the components for vectors of scores and the storage `MultiGaData` (README.md:354-371). -/
def collectorVega (c : Cfg) (spec : PopSpec) (numObjectives : Nat) (sel : VegaSelOp) (cross : CrossOp) (mutOp : MutOp)
    (objValue : Option (List ℚ)) : M (List ℚ) Unit :=
  collector c spec (vegaTask c.obj1 c.obj2 c.inputTruthy c.penalty objValue c.arith) mutOp
    fun fit tr => vegaOps fit numObjectives sel cross mutOp tr

/-- A program in collector mode with `FFGAFitness`, the storage `MultiGaData` and `MultiNewGeneration`. -/
def collectorFfga (c : Cfg) (spec : PopSpec) (sel : SelOp) (cross : CrossOp) (mutOp : MutOp) : M ℚ Unit :=
  collector c spec (ffgaTask c.obj1 c.obj2 c.inputTruthy c.penalty c.arith) mutOp
    fun fit tr => multiOps fit (selExec sel) cross mutOp (multiNewGenExec tr)

/-- `num_objectives` of `VEGA.optimize` (vega.py:72-73): the objective is called on zeros with one argument. -/
def vegaNumObjectives (c : Cfg) (numGenes : Nat) : M (List ℚ) Nat := do
  let s ← getS
  match s.conds with
  | none => do
    let v ← callObj c.obj1 (List.replicate numGenes (.num 0))
    match v with
    | .tup l => pure l.length
    | .sc _ => throwE .typeError
  | some l => pure (l.count .optimize)

/-- `VEGA.optimize` (vega.py:66-109); `tournament_size` of the facade is not passed on (vega.py:86), so the
default 3 is used. -/
def vega (c : Cfg) (gray : Bool) (gens : List BinGene) (objValue : Option (List ℚ)) : M (List ℚ) Unit := do
  let m ← vegaNumObjectives c gens.length
  facade c (.binary gray gens) (vegaTask c.obj1 c.obj2 c.inputTruthy c.penalty objValue c.arith)
    multiFitnessExec multiUpdate (vegaTournamentExec m 3) .onePoint .binString newGenExec

/-- `FFGA.optimize` (ffga.py:65-109); the selection is `BalancedSelection` (ffga.py:83). -/
def ffga (c : Cfg) (gray : Bool) (gens : List BinGene) : M ℚ Unit :=
  facade c (.binary gray gens) (ffgaTask c.obj1 c.obj2 c.inputTruthy c.penalty c.arith)
    multiFitnessExec multiUpdate balancedExec .onePoint .binString multiNewGenExec

end BaumEva
