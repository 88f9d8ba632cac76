import Verif.Spec.Fitness
import Verif.Model.Penalty
import Verif.Spec.Float
/-!
# Specification vocabulary for penalties
-/
namespace BaumEva.Spec

/-- `v` lies strictly between the ends of the interval. -/
def Within (iv : Interval) (v : ℚ) : Prop := (∀ a, iv.lo = some a → a < v) ∧ (∀ b, iv.hi = some b → v < b)

/-- According to the tables of intervals and coefficients, `q` is the coefficient for value `v` of constraint
`i`: `v` lies in exactly one interval and `q` stands at the same place. -/
def CoefOf (ivt : List (Nat × List Interval)) (rt : List (Nat × List ℚ)) (i : Nat) (v q : ℚ) : Prop :=
  ∃ ivs rs k iv, ivt.lookup i = some ivs ∧ rt.lookup i = some rs ∧ ivs[k]? = some iv ∧ Within iv v ∧
    (∀ (k' : Nat) (iv' : Interval), ivs[k']? = some iv' → Within iv' v → k' = k) ∧ rs[k]? = some q

/-- What is charged for a list of constraints with values and coefficients: `(coefficient * violation)**2`. -/
def charged : List Cond → List ℚ → List ℚ → ℚ
  | c :: cs, v :: vs, q :: qs => (q * excess c v) ^ 2 + charged cs vs qs
  | _, _, _ => 0

/-- In every arithmetic `x ** e` is positive for positive `x`, not negative for `0`, and does not decrease with `x`. -/
structure GrowingPower (e : Exponent) : Prop where
  nonneg : ∀ ar : Arith, Rounding ar.rnd → 0 ≤ e.pow ar 0
  pos : ∀ ar : Arith, Rounding ar.rnd → ∀ x, 0 < x → 0 < e.pow ar x
  mono : ∀ ar : Arith, Rounding ar.rnd → ∀ x y, 0 ≤ x → x ≤ y → e.pow ar x ≤ e.pow ar y

/-- And `0 ** e` is `0`: the exponent is positive. -/
structure PositivePower (e : Exponent) : Prop extends GrowingPower e where
  zero : ∀ ar : Arith, Rounding ar.rnd → e.pow ar 0 = 0

/-- Library penalties with growing weight whose parameters are positive. -/
def PositivePenalty (p : Penalty) : Prop :=
  (∃ δ c α β, 0 < δ ∧ 0 < c ∧ PositivePower α ∧ PositivePower β ∧ p = newDynamic δ c α β) ∨
  (∃ δ b1 b2 β, 0 < δ ∧ PositivePower β ∧ newAdaptive δ b1 b2 β = .ok p)

end BaumEva.Spec
