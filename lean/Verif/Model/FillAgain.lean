import Verif.Model.Advanced
/-!
# `fill` called again without `set_params`

Differs from `Model/Refill.lean`, where `set_params` comes before every `fill`: without it the lists of gene parameters of a binary
population are not emptied, and `get_gens_params` makes them longer.
-/
namespace BaumEva
variable {σ : Type}

/-- `get_gens_params` (binary_population.py:51-63): all lists are appended to, and `idx_bits` goes on from its last entry. -/
def prepareMore : M σ Unit := do
  let ga ← getGa
  match ga.attrs.spec with
  | .binary _ gens => do
    let r ← liftE (gensParamsR ga.attrs.arith.rnd gens (ga.attrs.idxBits.getLastD 0))
    modGa fun ga => { ga with attrs := { ga.attrs with params := ga.attrs.params ++ r.1, idxBits := ga.attrs.idxBits ++ r.2 } }
  | _ => pure ()

/-- What `get_generated_individ` reads: `real_num_points[i]` and `num_bits[i]` for `i in range(len(self.gens))`
(binary_population.py:84-85). -/
def readable (at_ : Attrs) : Attrs :=
  match at_.spec with
  | .binary _ gens => { at_ with params := at_.params.take gens.length }
  | _ => at_

/-- `fill` (cat_population.py:46-62, binary_population.py:129-149) on a population object in any state.  On one on which only
`set_params` was called it is `fill` (`fillAgain_first`). -/
def fillAgain (input : Option (List (List Val))) : M σ Unit := do
  prepareMore
  let ga ← getGa
  forEach (input.getD []) fun x => do
    let g ← liftE (adopt ga.attrs x)
    addDict g
  forEach (List.range (ga.attrs.numIndivid - (input.getD []).length)) fun _ => do
    let g ← generate (readable ga.attrs)
    addDict g
  if ga.attrs.isPhenotype then getPhenotype else pure ()
  resetIdx

/-- `fill()` called `m` times. -/
def fillMore (input : Option (List (List Val))) : Nat → M σ Unit
  | 0 => pure ()
  | m + 1 => do
    fillMore input m
    fillAgain input

/-- A program in advanced mode (README.md:170-200, 304-335) in which `population.fill()` is written or executed `m` times more than
once. -/
def advancedFilled (m : Nat) (c : Cfg) (spec : PopSpec) (task : Task σ) (mutOp : MutOp) (ops : Fit σ → Transfer → Ops σ)
    (goal : Option ℚ) : M σ Unit := do
  let fit ← newFitness task
  let l ← liftE (checkMutation mutOp c.mutationLvl)
  modifyS fun s => { s with mutLvl := l.stored c.arith }
  let tr ← liftE (checkTransfer c.transfer)
  collectorSetPopulation spec c.numIndivid c.numGenerations c.input c.childrenPercent c.earlyStop c.arith
  fillMore c.input m
  (ops fit tr).fitness
  (ops fit tr).update
  let ga ← getGa
  advancedLoop (ops fit tr) goal ga.numGenerations
  if c.isPrint then printBest else pure ()

/-- `advancedFilled` with single-objective components. -/
def advancedFilledGA (m : Nat) (c : Cfg) (spec : PopSpec) (sel : SelOp) (cross : CrossOp) (mutOp : MutOp) (objValue goal : Option ℚ) :
    M ℚ Unit :=
  advancedFilled m c spec (hyperbolaTask c.obj1 c.obj2 c.inputTruthy c.penalty objValue c.arith) mutOp
    (fun fit tr => singleOps fit sel cross mutOp tr) goal

end BaumEva
