import Verif.Model.Advanced
/-!
# A population object that is used again

`set_params` and `fill` on a population object on which they were called before, as in advanced mode (README.md:304-310) when the
part of the program that fills `population` is executed a second time.
-/
namespace BaumEva
variable {σ : Type}

/-- `set_params` on a population object in use (cat_population.py:22-28, binary_population.py:26-37): neither the individuals in the
list nor `is_sorted` is reset.  `spec` is of the same class as before; the gene parameters of a binary population are emptied. -/
def setParamsAgain (spec : PopSpec) (n : Nat) (input : Option (List (List Val))) : M σ Unit := do
  if n < (input.getD []).length then throwE .exception
  else modGa fun ga => { ga with
    attrs := { ga.attrs with numIndivid := n, spec := spec, isPhenotype := spec.hasPhenotype, params := [], idxBits := [0] } }

/-- `population.set_params(...); population.fill()` on a population object in use.  `fill` appends (base_population.py:66-67). -/
def refill (spec : PopSpec) (n : Nat) (input : Option (List (List Val))) : M σ Unit := do
  setParamsAgain spec n input
  fill input

/-- `GaData(..)`, `population.set_params(..)`, `population.fill()`, `ga_data.population = population` and the first evaluation
(README.md:170-176) with the population object of an earlier run, whose list holds `old`.  Its attributes are those the earlier run
left: every new generation shares `__dict__` with the one before (new_generation.py:93). -/
def reuse (c : Cfg) (spec : PopSpec) (old : List Nat) (ops : Ops σ) : M σ Unit := do
  modifyS fun s => { s with
    ga := { attrs := s.ga.attrs, numGenerations := c.numGenerations, childrenPercent := c.childrenPercent, earlyStop := c.earlyStop,
            population := old }
    snaps := [] }
  refill spec c.numIndivid c.input
  ops.fitness
  ops.update

/-- A program in advanced mode (README.md:170-200) in which, after the main loop, everything from `GaData(..)` to the first
`update()` is executed once more with the same population object and the same components.  The list of that object holds the
individuals of the first generation in the order the first `update()` gave them (ga_data.py:68-69): later generations are other lists
(new_generation.py:97-103). -/
def advancedTwice (c : Cfg) (spec : PopSpec) (task : Task σ) (mutOp : MutOp) (ops : Fit σ → Transfer → Ops σ) (goal : Option ℚ) :
    M σ Unit := do
  let fit ← newFitness task
  let l ← liftE (checkMutation mutOp c.mutationLvl)
  modifyS fun s => { s with mutLvl := l.stored c.arith }
  let tr ← liftE (checkTransfer c.transfer)
  collectorSetPopulation spec c.numIndivid c.numGenerations c.input c.childrenPercent c.earlyStop c.arith
  (ops fit tr).fitness
  (ops fit tr).update
  let ga ← getGa
  advancedLoop (ops fit tr) goal ga.numGenerations
  reuse c spec ga.population (ops fit tr)

/-- `advancedTwice` with single-objective components. -/
def advancedTwiceGA (c : Cfg) (spec : PopSpec) (sel : SelOp) (cross : CrossOp) (mutOp : MutOp) (objValue goal : Option ℚ) : M ℚ Unit :=
  advancedTwice c spec (hyperbolaTask c.obj1 c.obj2 c.inputTruthy c.penalty objValue c.arith) mutOp
    (fun fit tr => singleOps fit sel cross mutOp tr) goal

end BaumEva
