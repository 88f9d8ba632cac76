import Verif.Proofs.Monad
/-!
# Computations that fail only by running out of draws
-/
namespace BaumEva
variable {σ α β : Type}

/-- `m` started in `s` raises no exception; it can only stop because the tape has run out. -/
def Safe (m : M σ α) (s : St σ) : Prop :=
  ∀ e s', m s = (.error e, s') → e = .exhausted ∧ s'.tape = []

theorem Safe.pure (a : α) (s : St σ) : Safe (Pure.pure a : M σ α) s := by
  intro e s' h; rw [pure_run] at h; simp at h

theorem Safe.of_ok {m : M σ α} {s s' : St σ} {a : α} (h : m s = (.ok a, s')) : Safe m s := by
  intro e s'' h'; rw [h] at h'; simp at h'

theorem Safe.bind {m : M σ α} {f : α → M σ β} {s : St σ} (hm : Safe m s)
    (hf : ∀ a s', m s = (.ok a, s') → Safe (f a) s') : Safe (m >>= f) s := by
  intro e s' h
  rcases hx : m s with ⟨x, s1⟩
  cases x with
  | error e1 =>
    rw [bind_of_err hx] at h
    have := hm e1 s1 hx
    simp at h
    rw [← h.1, ← h.2]; exact this
  | ok a =>
    rw [bind_of_ok hx] at h
    exact hf a s1 hx e s' h

theorem Safe.bind_ok {m : M σ α} {f : α → M σ β} {s s1 : St σ} {a : α} (hm : m s = (.ok a, s1))
    (hf : Safe (f a) s1) : Safe (m >>= f) s := by
  intro e s' h
  rw [bind_of_ok hm] at h
  exact hf e s' h

theorem Safe.ite {c : Prop} [Decidable c] {m n : M σ α} {s : St σ} (h1 : c → Safe m s) (h2 : ¬ c → Safe n s) :
    Safe (if c then m else n) s := by
  split
  · exact h1 ‹_›
  · exact h2 ‹_›

theorem Safe.draw (s : St σ) : Safe (BaumEva.draw) s := by
  intro e s' h
  unfold BaumEva.draw at h
  split at h
  · rename_i ht
    simp at h; rw [← h.2]; exact ⟨h.1.symm, ht⟩
  · simp at h

theorem Safe.forEach {f : α → M σ Unit} (I : St σ → Prop) {l : List α}
    (hsafe : ∀ x ∈ l, ∀ s, I s → Safe (f x) s) (hinv : ∀ x ∈ l, ∀ s s', I s → f x s = (.ok (), s') → I s') :
    ∀ {s : St σ}, I s → Safe (BaumEva.forEach l f) s := by
  induction l with
  | nil => intro s _; exact Safe.pure () s
  | cons x xs ih =>
    intro s hI
    rw [BaumEva.forEach]
    refine Safe.bind (hsafe x List.mem_cons_self s hI) ?_
    intro u s' h
    exact ih (fun y hy => hsafe y (List.mem_cons_of_mem _ hy)) (fun y hy => hinv y (List.mem_cons_of_mem _ hy))
      (hinv x List.mem_cons_self s s' hI h)

theorem Safe.mapEach {f : α → M σ β} (I : St σ → Prop) {l : List α}
    (hsafe : ∀ x ∈ l, ∀ s, I s → Safe (f x) s) (hinv : ∀ x ∈ l, ∀ s s' y, I s → f x s = (.ok y, s') → I s') :
    ∀ {s : St σ}, I s → Safe (BaumEva.mapEach l f) s := by
  induction l with
  | nil => intro s _; exact Safe.pure [] s
  | cons x xs ih =>
    intro s hI
    rw [BaumEva.mapEach]
    refine Safe.bind (hsafe x List.mem_cons_self s hI) ?_
    intro y s' h
    refine Safe.bind (ih (fun y hy => hsafe y (List.mem_cons_of_mem _ hy)) (fun y hy => hinv y (List.mem_cons_of_mem _ hy))
      (hinv x List.mem_cons_self s s' y hI h)) ?_
    intro ys s'' _
    exact Safe.pure _ _

theorem Safe.randint {a b : Int} (h : a ≤ b) (s : St σ) : Safe (BaumEva.randint a b) s := by
  unfold BaumEva.randint
  refine Safe.ite (fun hc => by omega) (fun _ => Safe.bind (Safe.draw s) (fun _ _ _ => Safe.pure _ _))

theorem Safe.random01 (s : St σ) : Safe (BaumEva.random01) s := by
  unfold BaumEva.random01
  exact Safe.bind (Safe.draw s) (fun _ _ _ => Safe.pure _ _)

theorem Safe.sampleAux : ∀ {k : Nat} {l : List α} (s : St σ), k ≤ l.length → Safe (BaumEva.sampleAux k l) s := by
  intro k
  induction k with
  | zero => intro l s _; exact Safe.pure _ _
  | succ k ih =>
    intro l s hk
    rw [BaumEva.sampleAux]
    refine Safe.bind (Safe.draw s) ?_
    intro x s' _
    have hlt : x % l.length < l.length := Nat.mod_lt _ (by omega)
    rw [List.getElem?_eq_getElem hlt]
    exact Safe.bind (ih _ (by rw [List.length_eraseIdx_of_lt hlt]; omega)) (fun _ _ _ => Safe.pure _ _)

theorem Safe.sample {l : List α} {k : Int} (s : St σ) (h0 : 0 ≤ k) (h : k ≤ l.length) : Safe (BaumEva.sample l k) s := by
  unfold BaumEva.sample
  exact Safe.ite (fun hc => by omega) (fun _ => Safe.sampleAux s (by omega))

theorem Safe.choice {l : List α} (s : St σ) (h : l ≠ []) : Safe (BaumEva.choice l) s := by
  unfold BaumEva.choice
  have hl := List.length_pos_of_ne_nil h
  refine Safe.ite (fun hc => absurd (List.isEmpty_iff.mp hc) h) (fun _ => Safe.bind (Safe.draw s) (fun x s' _ => ?_))
  have hlt : x % l.length < l.length := Nat.mod_lt _ hl
  rw [List.getElem?_eq_getElem hlt]
  exact Safe.pure _ _

theorem Safe.liftE_ok {x : Except PyErr α} {a : α} (h : x = .ok a) (s : St σ) : Safe (BaumEva.liftE x) s := by
  rw [h]; exact Safe.pure a s

theorem Safe.reseed (s : St σ) : Safe BaumEva.reseed s := by
  obtain ⟨s', e, _⟩ := reseed_drew s
  exact Safe.of_ok e

end BaumEva
