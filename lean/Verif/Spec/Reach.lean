import Verif.Spec.Population
/-!
# Specification vocabulary for random outcomes
-/
namespace BaumEva.Spec
open BaumEva

/-- With the draws `t` (and whatever draws follow, in every state) `m` returns `a`, uses up exactly `t` and
changes nothing else. -/
def Gives {σ α : Type} (m : M σ α) (t : List Nat) (a : α) : Prop :=
  ∀ (s : St σ) (u : List Nat), m { s with tape := t ++ u } = (.ok a, { s with tape := u })

/-- Draws below given bounds. -/
def Reduced (bounds t : List Nat) : Prop := List.Forall₂ (fun n x => x < n) bounds t

/-- `n, n-1, ..` (`k` numbers). -/
def countdown : Nat → Nat → List Nat
  | _, 0 => []
  | n, k + 1 => n :: countdown (n - 1) k

/-- `m` produces every `a` with `S a` for exactly one of the `∏ bounds` equally likely reduced draws. -/
def Uniform {σ α : Type} (m : M σ α) (bounds : List Nat) (S : α → Prop) : Prop :=
  ∀ a, S a → ∃! t, Reduced bounds t ∧ Gives m t a

end BaumEva.Spec
