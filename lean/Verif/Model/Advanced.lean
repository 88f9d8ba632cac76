import Verif.Model.Run
/-!
# Advanced mode

The loop the README shows for "advanced mode" (README.md:170-200, 304-335): the user writes the main loop.
-/
namespace BaumEva

section
variable {σ : Type}

/-- `ga_data.best_solution['obj_score'] == g` (README.md:196): `None` cannot be subscripted, and the record of
`MultiGaData` has no key `obj_score`.  A tuple of objective values is never equal to a number. -/
def goalReached (g : ℚ) : M σ Bool := do
  let ga ← getGa
  match ga.best with
  | none => throwE .typeError
  | some (.pareto _ _) => throwE .keyError
  | some (.single b _) => do
    let ind ← getInd b
    pure (decide (ind.objScore = some (.sc g)))

/-- `for i in range(ga_data.num_generations)` with the two tests at the end (README.md:184-198); without a goal there is only
the first one (README.md:320-331).  The messages printed are not modelled. -/
def advancedLoop (ops : Ops σ) (goal : Option ℚ) : Nat → M σ Unit
  | 0 => pure ()
  | n + 1 => do
    generation ops
    let ga ← getGa
    match ga.earlyStop with
    | none => throwE .typeError
    | some e =>
      if e ≤ ga.noImprove then pure ()
      else
        match goal with
        | none => advancedLoop ops goal n
        | some g => do
          let hit ← goalReached g
          if hit then pure () else advancedLoop ops goal n

/-- A program in advanced mode (README.md:170-200, 304-335).  Simplifications: the components are created first (the README
creates some of them after the first evaluation, which makes a difference only if a constructor raises); `GaData(..)`, the
population, `set_params` and `fill` (README.md:170-174) are what `set_population` of `CollectorGA` does too; with `isPrint`
`print_best_solution` is called at the end (README.md:335). -/
def advanced (c : Cfg) (spec : PopSpec) (task : Task σ) (mutOp : MutOp) (ops : Fit σ → Transfer → Ops σ) (goal : Option ℚ) :
    M σ Unit := do
  let fit ← newFitness task
  let l ← liftE (checkMutation mutOp c.mutationLvl)
  modifyS fun s => { s with mutLvl := l.stored c.arith }
  let tr ← liftE (checkTransfer c.transfer)
  collectorSetPopulation spec c.numIndivid c.numGenerations c.input c.childrenPercent c.earlyStop c.arith
  (ops fit tr).fitness
  (ops fit tr).update
  let ga ← getGa
  advancedLoop (ops fit tr) goal ga.numGenerations
  if c.isPrint then printBest else pure ()

end

/-- Advanced mode with single-objective components (README.md:170-200). -/
def advancedGA (c : Cfg) (spec : PopSpec) (sel : SelOp) (cross : CrossOp) (mutOp : MutOp) (objValue goal : Option ℚ) : M ℚ Unit :=
  advanced c spec (hyperbolaTask c.obj1 c.obj2 c.inputTruthy c.penalty objValue c.arith) mutOp
    (fun fit tr => singleOps fit sel cross mutOp tr) goal

/-- Advanced mode with the components of FFGA (README.md:304-335). -/
def advancedFfga (c : Cfg) (spec : PopSpec) (sel : SelOp) (cross : CrossOp) (mutOp : MutOp) : M ℚ Unit :=
  advanced c spec (ffgaTask c.obj1 c.obj2 c.inputTruthy c.penalty c.arith) mutOp
    (fun fit tr => multiOps fit (selExec sel) cross mutOp (multiNewGenExec tr)) none

/-- Advanced mode with the components for vectors of scores. -/
def advancedVega (c : Cfg) (spec : PopSpec) (numObjectives : Nat) (sel : VegaSelOp) (cross : CrossOp) (mutOp : MutOp)
    (objValue : Option (List ℚ)) : M (List ℚ) Unit :=
  advanced c spec (vegaTask c.obj1 c.obj2 c.inputTruthy c.penalty objValue c.arith) mutOp
    (fun fit tr => vegaOps fit numObjectives sel cross mutOp tr) none

end BaumEva
