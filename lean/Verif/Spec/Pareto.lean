import Verif.Model.Py
/-!
# Pareto dominance

All objectives are minimised.
-/
namespace BaumEva
variable {σ : Type}

/-- `x` is at least as good as `y` in every objective (vectors of the same length). -/
def AsGood (x y : List ℚ) : Prop := List.Forall₂ (· ≤ ·) x y

/-- `x` dominates `y`: at least as good in every objective, better in one. -/
def Dominates (x y : List ℚ) : Prop :=
  AsGood x y ∧ ∃ (i : Nat) (a b : ℚ), x[i]? = some a ∧ y[i]? = some b ∧ a < b

/-- The objective vector of an individual: the objective function on its phenotype. -/
def IsVec (f : List Val → Except PyErr Ret) (a : Ind σ) (l : List ℚ) : Prop :=
  ∃ p, a.phenotype = some p ∧ f p = .ok (.tup l)

/-- The objective vector (empty if there is none). -/
def vecOf (f : List Val → Except PyErr Ret) (a : Ind σ) : List ℚ :=
  match a.phenotype with
  | none => []
  | some p =>
    match f p with
    | .ok (.tup l) => l
    | _ => []

/-- The objective gives vectors of one length on the individuals of a list. -/
def SameLength (f : List Val → Except PyErr Ret) (l : List (Ind σ)) : Prop :=
  ∀ a ∈ l, ∀ b ∈ l, ∀ x y, IsVec f a x → IsVec f b y → x.length = y.length

/-- All objective vectors have the same length. -/
def UniformVecs (f : List Val → Except PyErr Ret) : Prop :=
  ∀ p q x y, f p = .ok (.tup x) → f q = .ok (.tup y) → x.length = y.length

/-- An individual dominated by none of a list. -/
def NonDominated (f : List Val → Except PyErr Ret) (l : List (Ind σ)) (a : Ind σ) : Prop :=
  ∀ b ∈ l, ¬ Dominates (vecOf f b) (vecOf f a)

open Classical in
/-- Number of members of a list that dominate an individual. -/
noncomputable def dominators (f : List Val → Except PyErr Ret) (l : List (Ind σ)) (a : Ind σ) : Nat :=
  l.countP fun b => decide (Dominates (vecOf f b) (vecOf f a))

end BaumEva
