import Verif.Model.Population
import Verif.Model.Penalty
/-!
# Fitness

Models `baumeva/ga/fitness/*.py`.
-/
namespace BaumEva

/-- What the user and the fitness class fix (base_fitness.py:17-51): the objective function called with one
argument (`obj1 genotype`) and with two (`obj2 genotype` is `obj_function(input_data, genotype)`), whether
`input_data` is truthy, the penalty, the class' `get_fitness_score` and whether the class is a
`MultiFitness`; `arith` is the arithmetic of the interpreter.  A normal Python function accepts only one of the two arities;
the other call raises. -/
structure Task (σ : Type) where
  obj1 : List Val → Except PyErr Ret
  obj2 : List Val → Except PyErr Ret
  inputTruthy : Bool
  penalty : Option Penalty
  score : Ind σ → ℚ → Except PyErr σ
  multi : Bool
  arith : Arith := .exact

/-- A fitness object: the task, `__is_conditional_opt`, `conditions` and `__idx_opt_value`
(base_fitness.py:14-15, 51; multi_fitness.py:13). -/
structure Fit (σ : Type) where
  task : Task σ
  isCond : Bool
  conditions : List Cond
  idxOpt : List Nat

/-! ## Scores -/

/-- The score of `HyperbolaFitness` on the objective value `o` (hyperbola_fitness.py:21-24). -/
def hyperbolaR (rnd : ℚ → ℚ) (objValue : Option ℚ) (o pen : ℚ) : Except PyErr ℚ :=
  match objValue with
  | some t =>
    if rnd (rnd (1 + |rnd (t - o)|) + pen) = 0 then .error .zeroDivision
    else .ok (rnd (1 / rnd (rnd (1 + |rnd (t - o)|) + pen)))
  | none => .ok (-(rnd (o + pen)))

/-- `HyperbolaFitness.get_fitness_score` (hyperbola_fitness.py:11-26). -/
def hyperbola (ar : Arith) (objValue : Option ℚ) (ind : Ind ℚ) (pen : ℚ) : Except PyErr ℚ :=
  match ind.objScore with
  | some (.sc o) => hyperbolaR ar.rnd objValue o pen
  | _ => .error .typeError

/-- The loop of `VEGAHyperbolaFitness.get_fitness_score` with `obj_value`
(vega_hyperbola_fitness.py:22-23). -/
def vegaTarget (ar : Arith) (pen : ℚ) : List ℚ → List ℚ → Except PyErr (List ℚ)
  | _, [] => .ok []
  | [], _ :: _ => .error .indexError
  | t :: ts, o :: os => do
    let x ← hyperbolaR ar.rnd (some t) o pen
    let rest ← vegaTarget ar pen ts os
    pure (x :: rest)

/-- `VEGAHyperbolaFitness.get_fitness_score` (vega_hyperbola_fitness.py:11-27). -/
def vegaScore (ar : Arith) (objValue : Option (List ℚ)) (ind : Ind (List ℚ)) (pen : ℚ) : Except PyErr (List ℚ) :=
  match ind.objScore with
  | some (.tup os) =>
    match objValue with
    | some ts => vegaTarget ar pen ts os
    | none => .ok (os.map fun o => -(ar.rnd (o + pen)))
  | _ => .error .typeError

/-- `FFGAFitness.get_fitness_score` (ffga_fitness.py:12-28).  The rank is a small integer, so `1 + rank` is exact. -/
def ffgaScore (ar : Arith) (ind : Ind ℚ) (_pen : ℚ) : Except PyErr ℚ :=
  match ind.rank with
  | some (.sc q) => if 1 + q = 0 then .error .zeroDivision else .ok (ar.rnd (1 / (1 + q)))
  | _ => .error .typeError

/-! ## Input check and extraction of the objectives -/

/-- `check_input` (base_fitness.py:93-112; multi_fitness.py:73-79).  `none` is Python's `None`, returned for an
unconditional task whose objective returns a sequence of at most one value. -/
def checkInput (multi isCond : Bool) (conds : List Cond) (v : Ret) : Except PyErr (Option Ret) :=
  if multi then
    match v with
    | .sc _ => .error .typeError
    | .tup l => .ok (some (.tup l))
  else if isCond then
    match v with
    | .sc _ => .error .exception
    | .tup l => if l.length ≠ conds.length + 1 then .error .exception else .ok (some (.tup l))
  else
    match v with
    | .sc q => .ok (some (.sc q))
    | .tup l => if 1 < l.length then .error .exception else .ok none

/-- Repeated `values.pop(idx)` (base_fitness.py:148; multi_fitness.py:89-91): popped values and the rest. -/
def popAll : List Nat → List ℚ → Except PyErr (List ℚ × List ℚ)
  | [], vs => .ok ([], vs)
  | i :: is, vs =>
    match vs[i]? with
    | none => .error .indexError
    | some v => do
      let r ← popAll is (vs.eraseIdx i)
      pure (v :: r.1, r.2)

/-- Does the constraint `c` accept the value `v`? (base_fitness.py:167-172) -/
def condHolds (c : Cond) (v : ℚ) : Bool :=
  match c with
  | .le => decide (v ≤ 0)
  | _ => decide (v = 0)

/-! ## Domination of objective vectors -/

/-- The loop of `inferior` (multi_fitness.py:107-110). -/
def maxScores : List ℚ → List ℚ → Except PyErr (List ℚ)
  | xs, [] => .ok xs
  | [], _ :: _ => .error .indexError
  | x :: xs, y :: ys => do
    let rest ← maxScores xs ys
    pure ((if x < y then y else x) :: rest)

/-- Outcome of `inferior` on objective vectors (multi_fitness.py:104-117): `some true` = the first individual,
`some false` = the second, `none` = `None`. -/
def inferiorOf (xs ys : List ℚ) : Except PyErr (Option Bool) :=
  if xs = ys then .ok none
  else do
    let m ← maxScores xs ys
    pure (if m = xs then some true else if m = ys then some false else none)

section
variable {σ : Type}

/-- `check_task` and `set_opt_value` as called by the constructor (base_fitness.py:47-74;
multi_fitness.py:57-71).  `St.conds` is the list object the user passed as `conditions`: the single-objective
class removes `'optimize'` from this very list, the multi-objective one builds a new list. -/
def newFitness (t : Task σ) : M σ (Fit σ) := do
  let s ← getS
  let conds := s.conds.getD [.optimize]
  match t.penalty with
  | none => pure ⟨t, false, conds, []⟩
  | some _ =>
    if conds.length ≤ 1 then pure ⟨t, false, conds, []⟩
    else if t.multi then
      pure ⟨t, true, conds.filter (fun c => c ≠ .optimize),
        ((List.range conds.length).filter fun i => conds[i]? = some .optimize).reverse⟩
    else if .optimize ∈ conds then do
      modifyS fun s => { s with conds := s.conds.map fun l => l.erase .optimize }
      pure ⟨t, true, conds.erase .optimize, [conds.idxOf .optimize]⟩
    else throwE .valueError

/-- A call of the objective; the ghost trace records the argument. -/
def callObj (f : List Val → Except PyErr Ret) (g : List Val) : M σ Ret := do
  modifyS fun s => { s with calls := s.calls ++ [g] }
  liftE (f g)

/-- `calc_obj_func` (base_fitness.py:114-126). -/
def calcObj (fit : Fit σ) (g : List Val) : M σ (Option Ret) := do
  let v ← callObj (if fit.task.inputTruthy then fit.task.obj2 else fit.task.obj1) g
  liftE (checkInput fit.task.multi fit.isCond fit.conditions v)

/-- Body of the feasibility loop (base_fitness.py:167-172). -/
def markFeas (r : Nat) (c : Cond) (v : ℚ) : M σ Unit :=
  if condHolds c v then pure () else modInd r fun ind => { ind with feasible := false }

/-- The feasibility loop (base_fitness.py:166-172). -/
def feasLoop (r : Nat) : List Cond → List ℚ → M σ Unit
  | _, [] => pure ()
  | [], _ :: _ => throwE .indexError
  | c :: cs, v :: vs => do
    markFeas r c v
    feasLoop r cs vs

/-- The argument `best_individ` (base_fitness.py:175-176). -/
def bestArg (s : St σ) : BestArg :=
  match s.ga.best with
  | none => .none
  | some (.single r _) => .ind (s.heap r).feasible
  | some (.pareto _ _) => .pareto

/-- Conditional task: take the objective value(s) out of the returned list, mark infeasibility and compute the
penalty (base_fitness.py:165-177; multi_fitness.py:81-92). -/
def evalCond (fit : Fit σ) (r : Nat) (vs : List ℚ) : M σ ℚ := do
  let pr ← liftE (popAll fit.idxOpt vs)
  modInd r fun ind => { ind with objScore := some (if fit.task.multi then .tup pr.1 else .sc (pr.1.headD 0)) }
  feasLoop r fit.conditions pr.2
  let s ← getS
  match fit.task.penalty with
  | none => throwE .attributeError
  | some p => liftE (p.value fit.task.arith fit.conditions pr.2 s.ga.idxGeneration (bestArg s))

/-- Store what the objective returned and give the penalty (base_fitness.py:164-179). -/
def evalValues (fit : Fit σ) (r : Nat) (values : Option Ret) : M σ ℚ :=
  if fit.isCond then
    match values with
    | some (.tup vs) => evalCond fit r vs
    | _ => throwE .typeError
  else do
    modInd r fun ind => { ind with objScore := values }
    pure 0

/-- Evaluation of one individual (base_fitness.py:162-181).  `get_fitness_score` is pure, so its second call
for conditional tasks is not repeated. -/
def evalInd (fit : Fit σ) (r : Nat) : M σ Unit := do
  let ind ← getInd r
  match ind.score with
  | some _ => pure ()
  | none => do
    let g ← genoOf r
    let values ← calcObj fit g
    let pen ← evalValues fit r values
    let ind ← getInd r
    let sc ← liftE (fit.task.score ind pen)
    modInd r fun ind => { ind with score := some sc }

/-- `BaseFitness.execute` (base_fitness.py:150-184). -/
def baseFitnessExec (fit : Fit σ) : M σ Unit := do
  let ga ← getGa
  if ga.attrs.isPhenotype then do
    getPhenotype
    swapPop
    forEach ga.population (evalInd fit)
    swapPop
  else forEach ga.population (evalInd fit)

/-- `list(self.obj_function(x['phenotype']))` (multi_fitness.py:101-102): always the one-argument call. -/
def objVector (t : Task σ) (r : Nat) : M σ (List ℚ) := do
  let ind ← getInd r
  match ind.phenotype with
  | none => throwE .keyError
  | some p => do
    let v ← callObj t.obj1 p
    match v with
    | .tup l => pure l
    | .sc _ => throwE .typeError

/-- `individ['rank'] += 1` (multi_fitness.py:132). -/
def bumpRank (ind : Ind σ) : Ind σ :=
  match ind.rank with
  | some (.sc q) => { ind with rank := some (.sc (q + 1)) }
  | _ => ind

/-- Body of the double loop of `assign_ranks` (multi_fitness.py:130-132). -/
def rankPair (t : Task σ) (x y : Nat) : M σ Unit := do
  let xs ← objVector t x
  let ys ← objVector t y
  let inf ← liftE (inferiorOf xs ys)
  match inf with
  | none => pure ()
  | some true => modInd x bumpRank
  | some false => modInd y bumpRank

/-- The double loop `for i .. for j in range(i+1, ..)` of `assign_ranks` (multi_fitness.py:128-132). -/
def rankLoop (t : Task σ) : List Nat → M σ Unit
  | [] => pure ()
  | x :: xs => do
    forEach xs (rankPair t x)
    rankLoop t xs

/-- `assign_ranks` (multi_fitness.py:119-132). -/
def assignRanks (t : Task σ) : M σ Unit := do
  let ga ← getGa
  forEach ga.population fun r => modInd r fun ind => { ind with rank := some (.sc 1) }
  rankLoop t ga.population

/-- `MultiFitness.execute` (multi_fitness.py:134-145; ffga_fitness.py:30-38). -/
def multiFitnessExec (fit : Fit σ) : M σ Unit := do
  ensurePhenotype
  assignRanks fit.task
  baseFitnessExec fit

end

/-- The task of `HyperbolaFitness` (hyperbola_fitness.py). -/
def hyperbolaTask (obj1 obj2 : List Val → Except PyErr Ret) (inputTruthy : Bool) (penalty : Option Penalty)
    (objValue : Option ℚ) (ar : Arith := .exact) : Task ℚ :=
  ⟨obj1, obj2, inputTruthy, penalty, hyperbola ar objValue, false, ar⟩

/-- The task of `VEGAHyperbolaFitness` (vega_hyperbola_fitness.py). -/
def vegaTask (obj1 obj2 : List Val → Except PyErr Ret) (inputTruthy : Bool) (penalty : Option Penalty)
    (objValue : Option (List ℚ)) (ar : Arith := .exact) : Task (List ℚ) :=
  ⟨obj1, obj2, inputTruthy, penalty, vegaScore ar objValue, true, ar⟩

/-- The task of `FFGAFitness` (ffga_fitness.py); `obj_value` is not used by its score. -/
def ffgaTask (obj1 obj2 : List Val → Except PyErr Ret) (inputTruthy : Bool) (penalty : Option Penalty)
    (ar : Arith := .exact) : Task ℚ := ⟨obj1, obj2, inputTruthy, penalty, ffgaScore ar, true, ar⟩

end BaumEva
