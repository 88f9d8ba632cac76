import Verif.Model.Population
import Verif.Model.NewGeneration
/-!
# Bookkeeping of a run

Models `update` of `baumeva/ga/ga_data.py` and `baumeva/ga/multi_ga_data.py`.
-/
namespace BaumEva
section
variable {σ : Type}

/-- Ghost: record the contents of the population. -/
def snapshot : M σ Unit :=
  modifyS fun s => { s with snaps := s.snaps ++ [s.ga.population.map s.heap] }

/-- The three histories (ga_data.py:71-73).  Simplification: the three `append`s happen together; Python can only
fail before the first one (`population[-1]` of an empty list). -/
def recordScores : M σ Unit := do
  let ga ← getGa
  match ga.population.getLast?, ga.population[ga.population.length / 2]?, ga.population.head? with
  | some rb, some rm, some rw => do
    let b ← scoreOf rb
    let m ← scoreOf rm
    let w ← scoreOf rw
    modGa fun ga => { ga with
      histBest := ga.histBest ++ [b], histMed := ga.histMed ++ [m], histWorst := ga.histWorst ++ [w] }
  | _, _, _ => throwE .indexError

/-- `self.best_solution = deepcopy(individ); self.best_solution['idx_generation'] = self.idx_generation`
(ga_data.py:76-77, 80-81). -/
def replaceBest (r : Nat) : M σ Unit := do
  let ind ← getInd r
  let c ← alloc ind
  modGa fun ga => { ga with best := some (.single c ga.idxGeneration) }

/-- The decision of `GaData.update` (ga_data.py:75-84) for the last individual `r`. -/
def decideBest [LinearOrder σ] (r : Nat) : M σ Unit := do
  let ga ← getGa
  match ga.best with
  | none => replaceBest r
  | some (.single b _) => do
    let bs ← scoreOf b
    let sc ← scoreOf r
    if bs < sc then do
      replaceBest r
      modGa fun ga => { ga with noImprove := 0 }
    else modGa fun ga => { ga with noImprove := ga.noImprove + 1 }
  | some (.pareto _ _) => throwE .keyError

/-- `GaData.update` (ga_data.py:62-86). -/
def gaUpdate [LinearOrder σ] : M σ Unit := do
  ensureSorted
  recordScores
  let ga ← getGa
  match ga.population.getLast? with
  | none => throwE .indexError
  | some r => do
    decideBest r
    modGa fun ga => { ga with idxGeneration := ga.idxGeneration + 1 }
    snapshot

/-- `if self.best_solution is None: self.best_solution = {'pareto_set': []}` (multi_ga_data.py:53-54). -/
def initFront : M σ Unit := do
  let ga ← getGa
  match ga.best with
  | none => modGa fun ga => { ga with best := some (.pareto [] none) }
  | some _ => pure ()

/-- `deepcopy` of a list of individuals.  Simplification: `deepcopy` copies an object that occurs twice in the
list once and keeps the two references equal; here it is copied twice. -/
def copyAll (rs : List Nat) : M σ (List Nat) := mapEach rs fun r => do
  let ind ← getInd r
  alloc ind

/-- The decision of `MultiGaData.update` (multi_ga_data.py:56-61); comparison of lists of dictionaries is by
value. -/
def decideFront [DecidableEq σ] (front : List Nat) : M σ Unit := do
  let s ← getS
  match s.ga.best with
  | some (.pareto f _) =>
    if f.map s.heap = front.map s.heap then modGa fun ga => { ga with noImprove := ga.noImprove + 1 }
    else do
      let cs ← copyAll front
      modGa fun ga => { ga with best := some (.pareto cs (some ga.idxGeneration)), noImprove := 0 }
  | _ => throwE .keyError

/-- `self.population.sort_by_dict('rank')` unless sorted (multi_ga_data.py:41-42). -/
def ensureRankSorted : M σ Unit := do
  let ga ← getGa
  if ga.attrs.isSorted then pure () else sortByRank

/-- `MultiGaData.update` (multi_ga_data.py:34-63). -/
def multiUpdate [DecidableEq σ] : M σ Unit := do
  ensureRankSorted
  let ga ← getGa
  let front ← frontPrefix ga.population
  modGa fun ga => { ga with histFronts := ga.histFronts ++ [front] }
  initFront
  decideFront front
  modGa fun ga => { ga with idxGeneration := ga.idxGeneration + 1 }
  snapshot

/-- The arithmetic of `get_avg_score` (ga_data.py:56-60): sum divided by the length. -/
def avgScore (scores : List ℚ) : Except PyErr ℚ :=
  if scores.length = 0 then .error .zeroDivision else .ok (scores.sum / scores.length)

/-- `get_avg_score` (ga_data.py:50-60, multi_ga_data.py:22-32) when scores are numbers; adding `None` raises
`TypeError`. -/
def getAvgScore : M ℚ ℚ := do
  let ga ← getGa
  let scores ← mapEach ga.population scoreOf
  liftE (avgScore scores)

/-- `get_avg_score` (multi_ga_data.py:22-32) when scores are lists (VEGA) or still `None`: `0 + individ['score']`
raises `TypeError` at the first individual. -/
def getAvgVector : M (List ℚ) ℚ := do
  let ga ← getGa
  match ga.population with
  | [] => throwE .zeroDivision
  | _ :: _ => throwE .typeError

end
end BaumEva
