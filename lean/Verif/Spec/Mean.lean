import Verif.Spec.Chance
import Mathlib.Algebra.BigOperators.Group.List.Basic
/-!
# Specification vocabulary for expected values
-/
namespace BaumEva.Spec
open BaumEva

/-- The mean of `f` over the lists of `L` numbers below `B`. -/
def mean (B L : Nat) (f : List Nat → Nat) : ℚ := (((tapes B L).map f).sum : ℕ) / (B : ℚ) ^ L

/-- The number of positions of `a` at which `b` has something else. -/
def distance : List Val → List Val → Nat
  | [], _ => 0
  | _ :: xs, [] => xs.length + 1
  | x :: xs, y :: ys => (if x = y then 0 else 1) + distance xs ys

/-- The number of bits a level of `BinStringMutation` is named after. -/
def wordBits (w : String) : ℚ := if w = "weak" then 3 / 10 else if w = "normal" then 1 else 3

/-- How many generations there are before the first with the property `p`; all if there is none. -/
noncomputable def before {σ : Type} (p : List (Ind σ) → Prop) : List (List (Ind σ)) → Nat
  | [] => 0
  | l :: ls => open Classical in if p l then 0 else before p ls + 1

end BaumEva.Spec
