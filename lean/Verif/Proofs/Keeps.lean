import Verif.Proofs.Monad
/-!
# Relations kept by computations, whether they finish or raise
-/
namespace BaumEva
variable {σ α β : Type}

/-- A reflexive and transitive relation between states. -/
structure Step (R : St σ → St σ → Prop) : Prop where
  refl : ∀ s, R s s
  trans : ∀ {a b c}, R a b → R b c → R a c

/-- The state after `m`, also after an exception, is related to the state before. -/
def Keeps (R : St σ → St σ → Prop) (m : M σ α) : Prop := ∀ s, R s (m s).2

section
variable {R : St σ → St σ → Prop}

theorem Keeps.pure (hR : Step R) (a : α) : Keeps R (Pure.pure a : M σ α) := fun s => hR.refl s
theorem Keeps.throwE (hR : Step R) (e : PyErr) : Keeps R (BaumEva.throwE e : M σ α) := fun s => hR.refl s
theorem Keeps.getS (hR : Step R) : Keeps R (BaumEva.getS : M σ (St σ)) := fun s => hR.refl s
theorem Keeps.getGa (hR : Step R) : Keeps R (BaumEva.getGa : M σ (GaData σ)) := fun s => hR.refl s
theorem Keeps.getInd (hR : Step R) (r : Nat) : Keeps R (BaumEva.getInd r : M σ (Ind σ)) := fun s => hR.refl s
theorem Keeps.genoOf (hR : Step R) (r : Nat) : Keeps R (BaumEva.genoOf r : M σ (List Val)) := by
  intro s
  have : (BaumEva.genoOf r s).2 = s := by unfold BaumEva.genoOf; split <;> rfl
  rw [this]; exact hR.refl s
theorem Keeps.liftE (hR : Step R) (x : Except PyErr α) : Keeps R (BaumEva.liftE x : M σ α) := by
  intro s; cases x <;> exact hR.refl s

theorem Keeps.bind (hR : Step R) {m : M σ α} {f : α → M σ β} (hm : Keeps R m) (hf : ∀ a, Keeps R (f a)) :
    Keeps R (m >>= f) := by
  intro s
  rcases hx : m s with ⟨x, s1⟩
  have h1 : R s s1 := by have := hm s; rwa [hx] at this
  cases x with
  | error e => rw [bind_of_err hx]; exact h1
  | ok a => rw [bind_of_ok hx]; exact hR.trans h1 (hf a s1)

theorem Keeps.ite {c : Prop} [Decidable c] {m n : M σ α} (h1 : Keeps R m) (h2 : Keeps R n) :
    Keeps R (if c then m else n) := by split <;> assumption

theorem Keeps.forEach (hR : Step R) {l : List α} {f : α → M σ Unit} (h : ∀ x, Keeps R (f x)) :
    Keeps R (BaumEva.forEach l f) := by
  induction l with
  | nil => exact Keeps.pure hR ()
  | cons x xs ih => rw [BaumEva.forEach]; exact Keeps.bind hR (h x) (fun _ => ih)

theorem Keeps.mapEach (hR : Step R) {l : List α} {f : α → M σ β} (h : ∀ x, Keeps R (f x)) :
    Keeps R (BaumEva.mapEach l f) := by
  induction l with
  | nil => exact Keeps.pure hR []
  | cons x xs ih =>
    rw [BaumEva.mapEach]
    exact Keeps.bind hR (h x) (fun _ => Keeps.bind hR ih (fun _ => Keeps.pure hR _))

end
end BaumEva
