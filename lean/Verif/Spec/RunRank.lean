import Verif.Spec.Selection
/-!
# Ranks of a population in any order
-/
namespace BaumEva.Spec

/-- Positions joined to `j` by scores equal to that of `j`. -/
def runAround (sc : List ℚ) (j : Nat) : List Nat :=
  (List.range sc.length).filter fun i => ∀ k ∈ List.range sc.length, min i j ≤ k → k ≤ max i j → sc[k]? = sc[j]?

/-- Mean of the 1-based positions in the run of equal scores around `j`. -/
def runRank (sc : List ℚ) (j : Nat) : ℚ := ((runAround sc j).map fun i : Nat => (i : ℚ) + 1).sum / (runAround sc j).length

end BaumEva.Spec
