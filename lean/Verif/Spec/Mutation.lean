import Verif.Spec.Population
/-!
# Specification vocabulary for mutations
-/
namespace BaumEva.Spec
open BaumEva

/-- The draw `d` of `randint(0, 999)` triggers mutation at level `q`: `d <= q * 1000`. -/
def Triggers (q : ℚ) (d : Nat) : Prop := ((d % 1000 : Nat) : ℚ) ≤ q * 1000

/-- The other bit. -/
def flipBit (x : Val) : Val := if x = .str "0" then .str "1" else .str "0"

/-- A pool offers a choice. -/
def HasChoice (p : CatGene) : Prop := ∃ u v, InPool p u ∧ InPool p v ∧ u ≠ v

/-- Mutation of a tuple of categorical genes, draw by draw: `CatMut q pools g tape g' tape'` says that reading
`tape` up to the rest `tape'` turns genotype `g` into `g'`.  Each gene uses one draw which decides whether it
mutates; a mutating gene whose pool offers a choice uses one more draw. -/
inductive CatMut (q : ℚ) : List CatGene → List Val → List Nat → List Val → List Nat → Prop
  | nil {pools t} : CatMut q pools [] t [] t
  | keep {pools x xs d t ys t'} : ¬ Triggers q d → CatMut q pools.tail xs t ys t' →
      CatMut q pools (x :: xs) (d :: t) (x :: ys) t'
  | change {p pools x xs d e t y ys t'} : Triggers q d → InPool p y → y ≠ x → CatMut q pools xs t ys t' →
      CatMut q (p :: pools) (x :: xs) (d :: e :: t) (y :: ys) t'
  | stuck {p pools x xs d t ys t'} : Triggers q d → ¬ HasChoice p → CatMut q pools xs t ys t' →
      CatMut q (p :: pools) (x :: xs) (d :: t) (x :: ys) t'

end BaumEva.Spec
