import Verif.Model.Run
/-!
# Objectives that change the list they are given

`calc_obj_func` passes the list stored in the individual to the user's function, not a copy (base_fitness.py:122-124,
162-164).  A Python function may sort, extend or otherwise change the list it is given; `left` is the list it leaves.
The rest of the evaluation (base_fitness.py:165-181) does not read the list, so the change is recorded after the score;
the difference can only be seen when the evaluation raises an exception.  Lists shared with the caller (the members of
`input_population`) or by two individuals (the two children of `UniformCrossover`, C116) are not followed.
-/
namespace BaumEva
section
variable {σ : Type}

/-- Evaluation of one individual (base_fitness.py:162-181) with an objective that turns the list `g` it is given into
`left g`. -/
def evalIndInPlace (left : List Val → List Val) (fit : Fit σ) (r : Nat) : M σ Unit := do
  let ind ← getInd r
  match ind.score with
  | some _ => pure ()
  | none => do
    evalInd fit r
    modInd r fun ind => { ind with genotype := ind.genotype.map left }

/-- `BaseFitness.execute` (base_fitness.py:150-184) with such an objective. -/
def baseFitnessInPlace (left : List Val → List Val) (fit : Fit σ) : M σ Unit := do
  let ga ← getGa
  if ga.attrs.isPhenotype then do
    getPhenotype
    swapPop
    forEach ga.population (evalIndInPlace left fit)
    swapPop
  else forEach ga.population (evalIndInPlace left fit)
end

/-- `BinaryGA.optimize` (binary_ga.py:65-106) with such an objective. -/
def binaryGAInPlace (left : List Val → List Val) (c : Cfg) (gray : Bool) (gens : List BinGene) (objValue : Option ℚ) : M ℚ Unit :=
  facade c (.binary gray gens) (hyperbolaTask c.obj1 c.obj2 c.inputTruthy c.penalty objValue c.arith)
    (baseFitnessInPlace left) gaUpdate (tournamentExec c.tournamentSize) .onePoint .binString newGenExec

/-- `CombinatoryGA.optimize` (combinatory_ga.py:63-100) with such an objective. -/
def combinatoryGAInPlace (left : List Val → List Val) (c : Cfg) (a b k : Int) (objValue : Option ℚ) : M ℚ Unit :=
  facade c (.orderCat a b k) (hyperbolaTask c.obj1 c.obj2 c.inputTruthy c.penalty objValue c.arith)
    (baseFitnessInPlace left) gaUpdate (tournamentExec c.tournamentSize) .order .movement newGenExec

/-- `CategoricalGA.optimize` (categorical_ga.py:67-105) with such an objective. -/
def categoricalGAInPlace (left : List Val → List Val) (c : Cfg) (gens : List CatGene) (objValue : Option ℚ) : M ℚ Unit :=
  facade c (.cat gens) (hyperbolaTask c.obj1 c.obj2 c.inputTruthy c.penalty objValue c.arith)
    (baseFitnessInPlace left) gaUpdate (tournamentExec c.tournamentSize) .uniform .categorical newGenExec
end BaumEva
