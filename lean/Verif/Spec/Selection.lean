import Mathlib.Data.Rat.Defs
import Mathlib.Algebra.Order.Field.Rat
import Mathlib.Algebra.BigOperators.Group.List.Basic
/-!
# Specification vocabulary for selections
-/
namespace BaumEva.Spec

/-- Cumulative share of the first `i` weights in the total. -/
def share (ws : List ℚ) (i : Nat) : ℚ := (ws.take i).sum / ws.sum

/-- The wheel `wheel` (a function of the random number) answers `i` exactly on an interval with the end points
`a ≤ b` of `[0, 1)`, up to the end points themselves: the selection probability of `i` is `b - a`. -/
def Owns (wheel : ℚ → Int) (i : Int) (a b : ℚ) : Prop :=
  0 ≤ a ∧ a ≤ b ∧ b ≤ 1 ∧ (∀ r, 0 ≤ r → r < 1 → a < r → r < b → wheel r = i) ∧
  (∀ r, 0 ≤ r → r < 1 → wheel r = i → a ≤ r ∧ r ≤ b)

/-- Positions (from 0) of the entries equal to `v`. -/
def tied (l : List ℚ) (v : ℚ) : List Nat := (List.range l.length).filter fun j : Nat => l[j]? = some v

/-- Mean of the 1-based positions of the entries equal to `v`. -/
def avgRank (l : List ℚ) (v : ℚ) : ℚ := ((tied l v).map fun j : Nat => (j : ℚ) + 1).sum / (tied l v).length

/-- Individual `r` takes part in the tournament of the positions `t` of the population `pop` and no participant
has a strictly higher score. -/
def BestOf {κ : Type} [LinearOrder κ] (pop : List Nat) (score : Nat → Option κ) (t : List Nat) (r : Nat) : Prop :=
  (∃ i ∈ t, pop[i]? = some r) ∧
  ∀ i ∈ t, ∃ p, pop[i]? = some p ∧ ∀ vp vr, score p = some vp → score r = some vr → ¬ vr < vp

/-- `r` is the best of `size` individuals at different positions. -/
def WonOne {κ : Type} [LinearOrder κ] (pop : List Nat) (score : Nat → Option κ) (size : Int) (r : Nat) : Prop :=
  ∃ t : List Nat, (t.length : Int) = size ∧ t.Nodup ∧ (∀ i ∈ t, i < pop.length) ∧ BestOf pop score t r

/-- `parents` consists of `n` pairs of individuals satisfying `P a b`, where the parents are new objects equal
to `a` and `b` (`eq x a`). -/
def InPairs (n : Nat) (parents : List Nat) (eq : Nat → Nat → Prop) (P : Nat → Nat → Prop) : Prop :=
  parents.length = 2 * n ∧ ∀ k, k < n → ∃ x y a b, parents[2 * k]? = some x ∧ parents[2 * k + 1]? = some y ∧
    eq x a ∧ eq y b ∧ P a b

end BaumEva.Spec
