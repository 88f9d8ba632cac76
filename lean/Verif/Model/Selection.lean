import Verif.Model.Population
/-!
# Selections

Models `baumeva/ga/selections/*.py`.
-/
namespace BaumEva

section
variable {σ : Type}

/-- `BaseSelection.execute` (base_selection.py:10-18).  `get_empty_copy()` creates a population object, which
re-seeds (base_population.py:18-21). -/
def baseSelection : M σ Unit := do
  resetIdx
  newPopulation
  modGa fun ga => { ga with parents := [] }

/-- `ga_data.parents.extend(deepcopy(..))`: append a copy of an individual
(tournament_selection.py:76, balanced_selection.py:74). -/
def addParent (r : Nat) : M σ Unit := do
  let ind ← getInd r
  let c ← alloc ind
  modGa fun ga => { ga with parents := ga.parents ++ [c] }

/-- `ga_data.population[i]`. -/
def popAt (i : Int) : M σ Nat := do
  let ga ← getGa
  match pyGet? ga.population i with
  | some r => pure r
  | none => throwE .indexError

/-- `int(ga_data.children_percent * ga_data.population.num_individ / m)` as a number of loop iterations
(tournament_selection.py:49-56, balanced_selection.py:24-31 with `m = 1`;
vega_tournament_selection.py:39-46, vega_balanced_selection.py:23-30 with `m = num_objectives`).  For `m = 1` the second rounding does nothing. -/
def numPairs (ga : GaData σ) (m : Nat) : Nat :=
  (pyInt (ga.attrs.arith.rnd (ga.attrs.arith.rnd (ga.childrenPercent * ga.attrs.numIndivid) / m))).toNat

/-! ## Tournament -/

/-- Comparison key of `get_best`: `individ['score']` (tournament_selection.py:44). -/
def scoreKey (ind : Ind σ) : Except PyErr σ :=
  match ind.score with
  | some v => .ok v
  | none => .error .typeError

/-- Comparison key of the VEGA classes: `individ['score'][idx]` (vega_tournament_selection.py:35,
vega_balanced_selection.py:40). -/
def scoreAt (i : Nat) (ind : Ind (List ℚ)) : Except PyErr ℚ :=
  match ind.score with
  | none => .error .typeError
  | some l =>
    match l[i]? with
    | some v => .ok v
    | none => .error .indexError

/-- The loop of `get_best` (tournament_selection.py:43-46, vega_tournament_selection.py:34-37). -/
def getBestLoop {κ : Type} [LinearOrder κ] (key : Ind σ → Except PyErr κ) : Nat → List Nat → M σ Nat
  | best, [] => pure best
  | best, i :: is => do
    let r ← popAt i
    let x ← getInd r
    let b ← getInd best
    let kx ← liftE (key x)
    let kb ← liftE (key b)
    getBestLoop key (if kb < kx then r else best) is

/-- `get_best` (tournament_selection.py:33-46, vega_tournament_selection.py:25-37). -/
def getBest {κ : Type} [LinearOrder κ] (key : Ind σ → Except PyErr κ) : List Nat → M σ Nat
  | [] => throwE .indexError
  | i :: is => do
    let r ← popAt i
    getBestLoop key r is

/-- One tournament (tournament_selection.py:71-72). -/
def oneTournament {κ : Type} [LinearOrder κ] (key : Ind σ → Except PyErr κ) (size : Int) : M σ Nat := do
  let ga ← getGa
  let t ← sample (List.range ga.population.length) size
  getBest key t

/-- The `while` loop searching the second parent (tournament_selection.py:70-74); every round draws at least
once, so the fuel (number of remaining draws + 1) never stops it before the tape does
(`secondParent_fuel`). -/
def secondParent {κ : Type} [LinearOrder κ] (key : Ind σ → Except PyErr κ) (size : Int) (first : Nat) :
    Nat → M σ Nat
  | 0 => throwE .exhausted
  | f + 1 => do
    let b ← oneTournament key size
    let x ← getInd b
    let y ← getInd first
    if x.idx ≠ y.idx then pure b else secondParent key size first f

/-- One pair of parents (tournament_selection.py:69-76). -/
def tournamentPair {κ : Type} [LinearOrder κ] (key : Ind σ → Except PyErr κ) (size : Int) : M σ Unit := do
  let a ← oneTournament key size
  let s ← getS
  let b ← secondParent key size a (s.tape.length + 1)
  addParent a
  addParent b

/-- `tournament` (tournament_selection.py:58-76); `m` as in `numPairs`. -/
def tournament {κ : Type} [LinearOrder κ] (key : Ind σ → Except PyErr κ) (size : Int) (m : Nat) :
    M σ Unit := do
  let ga ← getGa
  forEach (List.range (numPairs ga m)) fun _ => tournamentPair key size

/-- `check_tournament_size` (tournament_selection.py:22-31). -/
def checkTournament (size : Int) : M σ Unit := do
  let ga ← getGa
  if size < 2 ∨ (ga.attrs.numIndivid : Int) ≤ size then throwE .exception else pure ()

/-- `TournamentSelection.execute` (tournament_selection.py:78-87). -/
def tournamentExec [LinearOrder σ] (size : Int) : M σ Unit := do
  checkTournament size
  baseSelection
  tournament scoreKey size 1

/-! ## Roulette -/

/-- The loop of `add_probabilities` (balanced_selection.py:44-46, vega_balanced_selection.py:43-45). -/
def cumShares (total : ℚ) : List ℚ → ℚ → List ℚ
  | [], _ => []
  | w :: ws, acc => (acc + w / total) :: cumShares total ws (acc + w / total)

/-- `add_probabilities` on the list of weights (balanced_selection.py:33-46,
vega_balanced_selection.py:32-45). -/
def selectionScores (ws : List ℚ) : Except PyErr (List ℚ) :=
  if ws ≠ [] ∧ ws.sum = 0 then .error .zeroDivision else .ok (0 :: cumShares ws.sum ws 0)

/-- `min(range(len(sel)), key=lambda i: abs(sel[i] - r))`: the first position of the smallest distance
(balanced_selection.py:55); `i` is the position of the head of the list, `best`/`d` the best so far. -/
def argminLoop (r : ℚ) : List ℚ → Nat → Nat → ℚ → Nat
  | [], _, best, _ => best
  | x :: xs, i, best, d =>
    if |x - r| < d then argminLoop r xs (i + 1) i |x - r| else argminLoop r xs (i + 1) best d

@[inherit_doc argminLoop]
def argminDist (sel : List ℚ) (r : ℚ) : Nat :=
  match sel with
  | [] => 0
  | x :: xs => argminLoop r xs 1 0 |x - r|

/-- `get_index` for the random number `r` (balanced_selection.py:48-56); the result may be `-1` in Python, so
it is an integer. `selection_scores` is never empty. -/
def rouletteIndex (sel : List ℚ) (r : ℚ) : Int :=
  let idx := argminDist sel r
  if sel.getD idx 0 ≤ r then idx else (idx : Int) - 1

/-! The same in the arithmetic of the interpreter. -/

section
variable (rnd : ℚ → ℚ)

/-- The built-in `sum` over floats, left to right from 0 (balanced_selection.py:42).  Simplification: one rounding per
addition, as in CPython before 3.12; later versions compensate part of the error. -/
def sumR : List ℚ → ℚ → ℚ
  | [], acc => acc
  | w :: ws, acc => sumR ws (rnd (acc + w))

/-- The loop of `add_probabilities` (balanced_selection.py:44-46). -/
def cumSharesR (total : ℚ) : List ℚ → ℚ → List ℚ
  | [], _ => []
  | w :: ws, acc => rnd (acc + rnd (w / total)) :: cumSharesR total ws (rnd (acc + rnd (w / total)))

/-- `add_probabilities` for the weights `ws` and the value `total` of `sum_scores` (balanced_selection.py:33-46). -/
def selectionScoresR (total : ℚ) (ws : List ℚ) : Except PyErr (List ℚ) :=
  if ws ≠ [] ∧ total = 0 then .error .zeroDivision else .ok (0 :: cumSharesR rnd total ws 0)

/-- `min(range(len(sel)), key=lambda i: abs(sel[i] - r))` (balanced_selection.py:55), as `argminLoop`. -/
def argminLoopR (r : ℚ) : List ℚ → Nat → Nat → ℚ → Nat
  | [], _, best, _ => best
  | x :: xs, i, best, d =>
    if |rnd (x - r)| < d then argminLoopR r xs (i + 1) i |rnd (x - r)| else argminLoopR r xs (i + 1) best d

@[inherit_doc argminLoopR]
def argminDistR (sel : List ℚ) (r : ℚ) : Nat :=
  match sel with
  | [] => 0
  | x :: xs => argminLoopR rnd r xs 1 0 |rnd (x - r)|

/-- `get_index` for the random number `r` (balanced_selection.py:48-56). -/
def rouletteIndexR (sel : List ℚ) (r : ℚ) : Int :=
  let idx := argminDistR rnd sel r
  if sel.getD idx 0 ≤ r then idx else (idx : Int) - 1

end

/-- `get_index` (balanced_selection.py:48-56). -/
def getIndex (sel : List ℚ) : M σ Int := do
  let ga ← getGa
  let r ← random01
  pure (rouletteIndexR ga.attrs.arith.rnd sel r)

/-- The `while` loop of `balanced_selection` searching the second index (balanced_selection.py:69-72); each
round draws once, so the fuel never stops it before the tape does. -/
def secondIndex (sel : List ℚ) (first : Int) : Nat → M σ Int
  | 0 => throwE .exhausted
  | f + 1 => do
    let i ← getIndex sel
    if i ≠ first then pure i else secondIndex sel first f

/-- One pair of parents (balanced_selection.py:68-74). -/
def roulettePair (sel : List ℚ) : M σ Unit := do
  let i ← getIndex sel
  let s ← getS
  let j ← secondIndex sel i (s.tape.length + 1)
  let a ← popAt i
  addParent a
  let b ← popAt j
  addParent b

/-- `balanced_selection` (balanced_selection.py:58-74). -/
def roulette (sel : List ℚ) (m : Nat) : M σ Unit := do
  let ga ← getGa
  forEach (List.range (numPairs ga m)) fun _ => roulettePair sel

/-- Weights of the population: `ind[self.score_type]` (balanced_selection.py:41, 45) or
`ind[self.score_type][self.idx]` (vega_balanced_selection.py:40, 44). -/
def weights (w : Ind σ → Except PyErr ℚ) : M σ (List ℚ) := do
  let ga ← getGa
  mapEach ga.population fun r => do
    let ind ← getInd r
    liftE (w ind)

/-- `BalancedSelection.execute` with weight `w`, where `pre` is what a subclass does at the start of
`add_probabilities` (balanced_selection.py:76-85). -/
def balancedWith (pre : M σ Unit) (w : Ind σ → Except PyErr ℚ) (m : Nat) : M σ Unit := do
  baseSelection
  pre
  let ws ← weights w
  let ga ← getGa
  let sel ← liftE (selectionScoresR ga.attrs.arith.rnd (sumR ga.attrs.arith.rnd ws 0) ws)
  roulette sel m

/-- `BalancedSelection` (score_type 'score', balanced_selection.py:12). -/
def balancedExec : M ℚ Unit := balancedWith (pure ()) scoreKey 1

/-! ## Ranked roulette -/

/-- The value assigned to tied individuals, `(sum(range(a, b)) + count) / count`
(ranked_selection.py:37, 40). -/
def tieRank (a b : Int) (count : Nat) : ℚ :=
  (((pyRange a b 1).sum + count : Int) : ℚ) / count

/-- `for _idx in range(a, b): population[_idx]['rank'] = tieRank` (ranked_selection.py:36-37, 39-40). -/
def writeTies (setRank : ℚ → Ind σ → Ind σ) (a b : Int) (count : Nat) : M σ Unit := do
  let ga ← getGa
  forEach (pyRange a b 1) fun i => do
    let r ← popAt i
    modInd r (setRank (ga.attrs.arith.rnd (tieRank a b count)))

/-- The tie handling in the loop body of `RankedSelection.add_probabilities` (ranked_selection.py:33-41;
vega_ranked_selection.py:33-41) at position `idx` with score `sc`; returns the new `count`. -/
def rankedStep (setRank : ℚ → Ind σ → Ind σ) (n idx : Nat) (sc prev : ℚ) (count : Nat) : M σ Nat :=
  if sc = prev then
    if idx + 1 = n then do
      writeTies setRank ((idx : Int) + 1 - (count + 1 : Nat)) ((idx : Int) + 1) (count + 1)
      pure (count + 1)
    else pure (count + 1)
  else if 1 < count then do
    writeTies setRank ((idx : Int) - count) idx count
    pure 1
  else pure count

/-- The loop of `RankedSelection.add_probabilities` (ranked_selection.py:28-42;
vega_ranked_selection.py:28-42) for the positions `idx, .., idx + k - 1`. -/
def rankedLoop (key : Ind σ → Except PyErr ℚ) (setRank : ℚ → Ind σ → Ind σ) (n : Nat) :
    Nat → Nat → ℚ → Nat → M σ Unit
  | 0, _, _, _ => pure ()
  | k + 1, idx, prev, count => do
    let r ← popAt idx
    modInd r (setRank ((idx : ℚ) + 1))
    let ind ← getInd r
    let sc ← liftE (key ind)
    let count' ← rankedStep setRank n idx sc prev count
    rankedLoop key setRank n k (idx + 1) sc count'

/-- The rank assignment of `RankedSelection` (ranked_selection.py:28-42); the sentinel for the previous score
is `-1`. -/
def assignRanked (key : Ind σ → Except PyErr ℚ) (setRank : ℚ → Ind σ → Ind σ) : M σ Unit := do
  let ga ← getGa
  rankedLoop key setRank ga.population.length ga.population.length 0 (-1) 1

/-- `individ['rank']` as a number. -/
def rankKey (ind : Ind σ) : Except PyErr ℚ :=
  match ind.rank with
  | some (.sc q) => .ok q
  | _ => .error .typeError

/-- `RankedSelection.execute` (ranked_selection.py:45-52). -/
def rankedExec : M ℚ Unit :=
  balancedWith (assignRanked scoreKey fun q ind => { ind with rank := some (.sc q) }) rankKey 1

/-! ## VEGA -/

/-- `VEGATournamentSelection.execute` (vega_tournament_selection.py:48-67): all objectives after one
`BaseSelection.execute`. -/
def vegaTournamentExec (numObjectives : Nat) (size : Int) : M (List ℚ) Unit := do
  checkTournament size
  baseSelection
  forEach (List.range numObjectives) fun i => tournament (scoreAt i) size numObjectives

/-- `VEGABalancedSelection.execute` (vega_balanced_selection.py:47-55): `BalancedSelection.execute`, which
clears the parents, once per objective. -/
def vegaBalancedExec (numObjectives : Nat) : M (List ℚ) Unit :=
  forEach (List.range numObjectives) fun i => balancedWith (pure ()) (scoreAt i) numObjectives

/-- `individ['rank'][i] = q` (vega_ranked_selection.py:32). -/
def setRankAt (i : Nat) (q : ℚ) (ind : Ind σ) : Ind σ :=
  match ind.rank with
  | some (.vec l) => { ind with rank := some (.vec (l.set i q)) }
  | _ => ind

/-- `individ['rank'][i]` (vega_balanced_selection.py:40 with score_type 'rank'). -/
def rankAt (i : Nat) (ind : Ind σ) : Except PyErr ℚ :=
  match ind.rank with
  | some (.vec l) =>
    match l[i]? with
    | some v => .ok v
    | none => .error .indexError
  | _ => .error .typeError

/-- `VEGARankedSelection.execute` (vega_ranked_selection.py:21-55). -/
def vegaRankedExec (numObjectives : Nat) : M (List ℚ) Unit := do
  let ga ← getGa
  forEach ga.population fun r =>
    modInd r fun ind => { ind with rank := some (.vec (List.replicate numObjectives 0)) }
  forEach (List.range numObjectives) fun i =>
    balancedWith (assignRanked (scoreAt i) (setRankAt i)) (rankAt i) numObjectives

end
end BaumEva
