import Verif.Model.Py
/-!
# Specification vocabulary for constraints, penalties and evaluation
-/
namespace BaumEva.Spec

/-- The meaning of a constraint: `'<='` asks for a value at most 0, every other sign for the value 0. -/
def Holds : Cond → ℚ → Prop
  | .le, v => v ≤ 0
  | _, v => v = 0

/-- Amount by which the value `v` violates the constraint. -/
def excess : Cond → ℚ → ℚ
  | .le, v => if v ≤ 0 then 0 else v
  | _, v => if v < 0 then -v else v

/-- Sum of the violations to the power `k`. -/
def totalExcess (k : Nat) (conds : List Cond) (vals : List ℚ) : ℚ := ((conds.zip vals).map fun p => excess p.1 p.2 ^ k).sum

/-- The constraint signs known to the penalties. -/
def KnownSigns (conds : List Cond) : Prop := ∀ c ∈ conds, c = .le ∨ c = .ne

/-- Values `vs` returned by the objective satisfy the user's list of conditions `cs`: at each position which is
not marked `'optimize'` the constraint holds. -/
def Satisfies (cs : List Cond) (vs : List ℚ) : Prop :=
  ∀ (j : Nat) (c : Cond) (v : ℚ), cs[j]? = some c → c ≠ .optimize → vs[j]? = some v → Holds c v

/-- Constraint values (in the user's order) satisfy the constraints. -/
def AllHold (conds : List Cond) (vals : List ℚ) : Prop := ∀ p ∈ conds.zip vals, Holds p.1 p.2

/-- What the objective is to be called with: the phenotype in binary populations, the genotype in others. -/
def argument {σ : Type} (binary : Bool) (x : Ind σ) : Option (List Val) := if binary then x.phenotype else x.genotype

/-- Members of a population that have no score yet. -/
def newMembers {σ : Type} (h : Nat → Ind σ) (pop : List Nat) : List Nat := pop.filter fun r => (h r).score.isNone

end BaumEva.Spec
