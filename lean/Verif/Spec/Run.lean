import Verif.Model.Run
/-!
# Vocabulary for whole runs
-/
namespace BaumEva
variable {σ : Type}

/-- A filled population in a new storage object, as it is when `optimize` starts its first generation. -/
structure Fresh (s : St σ) : Prop where
  alive : ∀ r ∈ s.ga.population, r < s.next
  distinct : s.ga.population.Nodup
  unscored : ∀ r ∈ s.ga.population, (s.heap r).score = none
  unsorted : s.ga.attrs.isSorted = false
  best : s.ga.best = none
  noImprove : s.ga.noImprove = 0
  idx : s.ga.idxGeneration = 0
  histBest : s.ga.histBest = []
  histMed : s.ga.histMed = []
  histWorst : s.ga.histWorst = []
  histFronts : s.ga.histFronts = []
  snaps : s.snaps = []

/-- `s` is the state after `k` generations of the run from `s0` (each generation ends with `update`). -/
inductive After (ops : Ops σ) (s0 : St σ) : Nat → St σ → Prop
  | first {s1 s : St σ} : ops.fitness s0 = (.ok (), s1) → ops.update s1 = (.ok (), s) → After ops s0 1 s
  | next {k : Nat} {s s' : St σ} : After ops s0 k s → generation ops s = (.ok (), s') → After ops s0 (k + 1) s'

/-- Number of most recent entries of a history that are not a strict record (the first entry is a record). -/
def staleRev [LinearOrder σ] : List σ → Nat
  | [] => 0
  | [_] => 0
  | x :: h => if ∀ y ∈ h, y < x then 0 else staleRev h + 1

@[inherit_doc staleRev]
def stale [LinearOrder σ] (h : List σ) : Nat := staleRev h.reverse

/-- The score of the individual at a position counted from the front. -/
def scoreAtPos (l : List (Ind σ)) (i : Nat) : Option σ := (l[i]?).bind fun x => x.score

end BaumEva
