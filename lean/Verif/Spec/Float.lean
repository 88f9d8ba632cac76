import Mathlib.Data.Rat.Defs
import Mathlib.Algebra.Order.Field.Rat
import Mathlib.Algebra.Order.AbsoluteValue.Basic
import Verif.Spec.Coding
/-!
# Specification vocabulary for machine numbers
-/
namespace BaumEva.Spec

/-- The unit roundoff of binary64. -/
def ulp : ℚ := 1 / 2 ^ 53

/-- What the theorems use of a rounding: it is odd, monotone, has relative error at most `2^-53`, leaves its own results
and all numbers of at most 53 significant bits alone, and commutes with doubling. -/
structure Rounding (rnd : ℚ → ℚ) : Prop where
  neg : ∀ q, rnd (-q) = -rnd q
  mono : ∀ {a b}, a ≤ b → rnd a ≤ rnd b
  err : ∀ q, |rnd q - q| ≤ ulp * |q|
  idem : ∀ q, rnd (rnd q) = rnd q
  exact : ∀ m e : Int, |m| ≤ 2 ^ 53 → rnd ((m : ℚ) * 2 ^ e) = (m : ℚ) * 2 ^ e
  two : ∀ q, rnd (2 * q) = 2 * rnd q

/-- `q` is a machine number. -/
def Machine (rnd : ℚ → ℚ) (q : ℚ) : Prop := rnd q = q

/-- The grid of `2^n` points on the range of the gene is coarse enough for machine numbers: its step is at least `c` unit
roundoffs of the larger end. -/
def Coarse (c : ℚ) (g : BinGene) (n : Nat) : Prop := c * ulp * max |g.lo| |g.hi| ≤ (g.hi - g.lo) / (2 ^ n - 1)

end BaumEva.Spec
