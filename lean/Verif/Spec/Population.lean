import Verif.Spec.Coding
/-!
# Specification vocabulary for populations
-/
namespace BaumEva.Spec
open BaumEva

/-- `v` is one of the values a categorical gene declaration allows: a listed value, or one of
`start, start + step, ...` not beyond `end` (for negative steps: above `end + 1`, as `randrange` has it). -/
def InPool : CatGene → Val → Prop
  | .range lo hi step, v => ∃ i : Nat, v = .num ((lo + step * (i : Int) : Int) : ℚ) ∧
      ((0 < step ∧ lo + step * (i : Int) ≤ hi) ∨ (step < 0 ∧ hi + 1 < lo + step * (i : Int)))
  | .values l, v => v ∈ l
  | .other, _ => False

/-- A genotype of a categorical population: one pool value per gene. -/
def IsTuple (gens : List CatGene) (g : List Val) : Prop := List.Forall₂ InPool gens g

/-- A repetition-free track of `k` integers between `a` and `b`. -/
def IsTrack (a b k : Int) (g : List Val) : Prop :=
  (g.length : Int) = k ∧ g.Nodup ∧ ∀ x ∈ g, ∃ i : Int, x = .num (i : ℚ) ∧ a ≤ i ∧ i ≤ b

end BaumEva.Spec
