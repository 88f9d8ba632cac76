import Verif.Model.Py
/-!
# Specification vocabulary for binary coding

Independent of the model's encoders: what a bit string is and which number it denotes.
-/
namespace BaumEva.Spec
open BaumEva

/-- A list of the symbols `'0'` and `'1'`. -/
def IsBits (l : List Val) : Prop := ∀ x ∈ l, x = .str "0" ∨ x = .str "1"

instance (l : List Val) : Decidable (IsBits l) := by unfold IsBits; infer_instance

/-- Weight of a symbol. -/
def symWeight (x : Val) : Nat := if x = .str "1" then 1 else 0

/-- The number denoted by a bit string in base 2, most significant symbol first: the sum of
`weight * 2 ^ (distance from the right end)`. -/
def bitsValue : List Val → Nat
  | [] => 0
  | x :: xs => symWeight x * 2 ^ xs.length + bitsValue xs

/-- Two lists of the same length differ at exactly one position. -/
def DifferOnce (a b : List Val) : Prop :=
  a.length = b.length ∧ ∃ i, i < a.length ∧ ∀ j, j < a.length → (a[j]? ≠ b[j]? ↔ j = i)

/-- `q` is a point of the closed interval of a gene. -/
def InGene (g : BinGene) (x : Val) : Prop := ∃ q, x = .num q ∧ g.lo ≤ q ∧ q ≤ g.hi

/-- `n` is the least number of bits with at least `⌊range / step⌋` intervals. -/
def GridBits (g : BinGene) (n : Nat) : Prop :=
  ⌊|g.hi - g.lo| / g.step⌋ ≤ 2 ^ n - 1 ∧ ∀ m : Nat, ⌊|g.hi - g.lo| / g.step⌋ ≤ 2 ^ m - 1 → n ≤ m

/-- `x` is one of the `2^n` equidistant points of the range of a gene with `n` bits. -/
def OnGrid (g : BinGene) (x : Val) : Prop :=
  ∃ n i : Nat, GridBits g n ∧ i < 2 ^ n ∧ x = .num (g.lo + (i : ℚ) * (|g.hi - g.lo| / (2 ^ n - 1)))

/-- All genes have a proper range. -/
def Proper (gens : List BinGene) : Prop := ∀ g ∈ gens, g.lo < g.hi

/-- Genes for which no grid can be built: zero or negative step, or a range smaller than the step. -/
def Degenerate (g : BinGene) : Prop := g.step ≤ 0 ∨ |g.hi - g.lo| < g.step

end BaumEva.Spec
