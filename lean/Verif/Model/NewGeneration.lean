import Verif.Model.Population
/-!
# Forming the next generation

Models `baumeva/ga/new_generation.py` and `baumeva/ga/multi_new_generation.py`.
-/
namespace BaumEva

/-- `transfer_parents` (new_generation.py:10-18). -/
inductive Transfer
  | best | random
deriving DecidableEq

/-- `check_transfer_parent` (new_generation.py:20-28). -/
def checkTransfer (s : String) : Except PyErr Transfer :=
  if s = "best" then .ok .best else if s = "random" then .ok .random else .error .exception

/-- The double loop deleting one duplicate (new_generation.py:44-51) on the *reversed* list of elites
(with their genotypes): for the first element that has a later equal, delete the nearest such. -/
def delDupRev {α : Type} [DecidableEq α] : List (α × Nat) → List (α × Nat)
  | [] => []
  | x :: xs =>
    if xs.any (fun y => y.1 = x.1) then x :: xs.eraseP (fun y => y.1 = x.1) else x :: delDupRev xs

section
variable {σ : Type}

/-- References together with their genotypes. -/
def withGeno (rs : List Nat) : M σ (List (List Val × Nat)) :=
  mapEach rs fun r => do
    let g ← genoOf r
    pure (g, r)

/-- `NewGeneration.add_best` (new_generation.py:30-62).  `-num_elites - 1 - z_counter < 0` always holds, so
the `while` loop leaves after its first round. -/
def addBest (numElites : Nat) : M σ (List Nat) := do
  let ga ← getGa
  let elites := lastN ga.population (numElites + 1)
  let dup ← isDuplicate elites
  if dup then do
    let keyed ← withGeno elites
    let kept := ((delDupRev keyed.reverse).reverse).map Prod.snd
    let extra ← sample ga.population ((numElites : Int) + 1 - kept.length)
    pure (extra ++ kept)
  else pure elites

/-- The resampling loop of `'random'` (new_generation.py:77-81): at most `max 1 len(children)` rounds. -/
def resample (pool : List Nat) (numElites : Nat) : Nat → List Nat → M σ (List Nat)
  | 0, e => pure e
  | n + 1, e => do
    let dup ← isDuplicate e
    if dup then do
      let e' ← sample pool numElites
      resample pool numElites n e'
    else pure e

/-- The branch `'random'` of `add_parents` (new_generation.py:75-82). -/
def addRandom (numElites : Nat) : M σ (List Nat) := do
  let ga ← getGa
  let pool := ga.population.dropLast
  let e ← sample pool numElites
  let e ← resample pool numElites (max 1 ga.children.length) e
  match ga.population.getLast? with
  | some r => pure (e ++ [r])
  | none => throwE .indexError

/-- `MultiNewGeneration.add_best` (multi_new_generation.py:10-26) and the front of `MultiGaData.update` (multi_ga_data.py:44-49): the
prefix of rank 1.  Simplification: an individual without the key `rank` ends the prefix here and raises `KeyError` there; the
fitness gives every individual a rank, and `sort_by_dict('rank')` would have raised before. -/
def frontPrefix (rs : List Nat) : M σ (List Nat) := fun s =>
  (.ok (rs.takeWhile fun r => (s.heap r).rank = some (.sc 1)), s)

/-- `ga_data.children.extend(elites); ga_data.population = ga_data.children;
ga_data.population.is_sorted = False` (new_generation.py:84, 103-104).  The children become the population
(same list object); the attribute `children` is not read before it is replaced. -/
def installPop (elites : List Nat) : M σ Unit :=
  modGa fun ga => { ga with
    children := ga.children ++ elites
    population := ga.children ++ elites
    attrs := { ga.attrs with isSorted := false } }

/-- Choice of `add_parents` (new_generation.py:72-82). -/
def chooseElites (tr : Transfer) (numElites : Nat) : M σ (List Nat) :=
  match tr with
  | .best => addBest numElites
  | .random => addRandom numElites

/-- `self.population.sort_by_dict()` unless sorted (ga_data.py:68-69, new_generation.py:94-95). -/
def ensureSorted [LinearOrder σ] : M σ Unit := do
  let ga ← getGa
  if ga.attrs.isSorted then pure () else sortByScore

/-- `NewGeneration.execute` (new_generation.py:86-104). -/
def newGenExec [LinearOrder σ] (tr : Transfer) : M σ Unit := do
  ensureSorted
  let ga ← getGa
  if 0 < (ga.attrs.numIndivid : Int) - ga.children.length then do
    let elites ← chooseElites tr (ga.attrs.numIndivid - ga.children.length)
    installPop elites
  else
    match ga.population.getLast? with
    | some r => installPop [r]
    | none => throwE .indexError

/-- Choice of `add_parents` with the `add_best` of `MultiNewGeneration` (new_generation.py:72-82,
multi_new_generation.py:10-26). -/
def chooseFront (tr : Transfer) : M σ (List Nat) := do
  let ga ← getGa
  match tr with
  | .best => frontPrefix ga.population
  | .random => addRandom 10

/-- `MultiNewGeneration.execute` (multi_new_generation.py:28-45) with `num_elites = 10`. -/
def multiNewGenExec (tr : Transfer) : M σ Unit := do
  ensurePhenotype
  let elites ← chooseFront tr
  installPop elites

end
end BaumEva
