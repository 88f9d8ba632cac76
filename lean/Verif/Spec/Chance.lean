import Verif.Spec.Reach
import Mathlib.Data.Rat.Defs
import Mathlib.Data.List.Count
/-!
# Specification vocabulary for chances

The draws of a run are a list of numbers.  `chance B L p` is the probability of `p` when these are `L` independent
numbers, each equally likely to be any of `0, …, B - 1`: the fraction of the `B ^ L` lists that satisfy `p`.  A draw
from `m` possibilities uses such a number modulo `m`, which is uniform if `m` divides `B`.
-/
namespace BaumEva.Spec
open BaumEva

/-- The lists of `L` numbers below `B`, each once. -/
def tapes (B : Nat) : Nat → List (List Nat)
  | 0 => [[]]
  | L + 1 => (List.range B).flatMap fun x => (tapes B L).map (x :: ·)

open Classical in
/-- The fraction of the lists of `L` numbers below `B` that satisfy `p`. -/
noncomputable def chance (B L : Nat) (p : List Nat → Prop) : ℚ := ((tapes B L).countP fun t => decide (p t) : ℕ) / (B : ℚ) ^ L

/-- An upper bound for the number of values of a gene. -/
def valuesBound : CatGene → Nat
  | .range lo hi step => (hi - lo).natAbs / step.natAbs + 1
  | .values l => l.length
  | .other => 0

end BaumEva.Spec
