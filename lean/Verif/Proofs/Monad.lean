import Verif.Model.Py
/-!
# Reasoning about the state/exception monad

Inversion lemmas: what a successful (`_ok`) run of each primitive says about result and final state.
-/
namespace BaumEva
variable {σ α β : Type}

theorem bind_run (m : M σ α) (f : α → M σ β) (s : St σ) :
    (m >>= f) s = match m s with
      | (.ok a, s') => f a s'
      | (.error e, s') => (.error e, s') := rfl

theorem bind_of_ok {m : M σ α} {f : α → M σ β} {s s' : St σ} {a : α} (h : m s = (.ok a, s')) :
    (m >>= f) s = f a s' := by rw [bind_run, h]

theorem bind_of_err {m : M σ α} {f : α → M σ β} {s s' : St σ} {e : PyErr} (h : m s = (.error e, s')) :
    (m >>= f) s = (.error e, s') := by rw [bind_run, h]

theorem bind_ok {m : M σ α} {f : α → M σ β} {s s'' : St σ} {b : β} :
    (m >>= f) s = (.ok b, s'') ↔ ∃ a s', m s = (.ok a, s') ∧ f a s' = (.ok b, s'') := by
  rw [bind_run]
  constructor
  · intro h
    rcases hm : m s with ⟨r, s'⟩
    rw [hm] at h
    cases r with
    | error e => simp at h
    | ok a => exact ⟨a, s', rfl, h⟩
  · rintro ⟨a, s', h1, h2⟩
    rw [h1]; exact h2

theorem bind_err {m : M σ α} {f : α → M σ β} {s s'' : St σ} {e : PyErr} :
    (m >>= f) s = (.error e, s'') ↔
      m s = (.error e, s'') ∨ ∃ a s', m s = (.ok a, s') ∧ f a s' = (.error e, s'') := by
  rw [bind_run]
  constructor
  · intro h
    rcases hm : m s with ⟨r, s'⟩
    rw [hm] at h
    cases r with
    | error e' => left; simpa using h
    | ok a => right; exact ⟨a, s', rfl, h⟩
  · rintro (h | ⟨a, s', h1, h2⟩)
    · rw [h]
    · rw [h1]; exact h2

theorem pure_run (a : α) (s : St σ) : (pure a : M σ α) s = (.ok a, s) := rfl

theorem pure_ok {a b : α} {s s' : St σ} : (pure a : M σ α) s = (.ok b, s') ↔ b = a ∧ s' = s := by
  rw [pure_run]; simp [eq_comm]

theorem throwE_run (e : PyErr) (s : St σ) : (throwE e : M σ α) s = (.error e, s) := rfl

theorem throwE_ok {e : PyErr} {s s' : St σ} {a : α} : (throwE e : M σ α) s = (.ok a, s') ↔ False := by
  rw [throwE_run]; simp

theorem getS_run (s : St σ) : getS s = (.ok s, s) := rfl

theorem getS_ok {s s' a : St σ} : getS s = (.ok a, s') ↔ a = s ∧ s' = s := by
  rw [getS_run]; simp [eq_comm]

theorem getGa_run (s : St σ) : getGa s = (.ok s.ga, s) := rfl

theorem getGa_ok {s s' : St σ} {a : GaData σ} : getGa s = (.ok a, s') ↔ a = s.ga ∧ s' = s := by
  rw [getGa_run]; simp [eq_comm]

theorem modifyS_run (f : St σ → St σ) (s : St σ) : modifyS f s = (.ok (), f s) := rfl

theorem modifyS_ok {f : St σ → St σ} {s s' : St σ} {u : Unit} :
    modifyS f s = (.ok u, s') ↔ s' = f s := by
  rw [modifyS_run]; simp [eq_comm]

theorem modGa_run (f : GaData σ → GaData σ) (s : St σ) : modGa f s = (.ok (), { s with ga := f s.ga }) := rfl

theorem modGa_ok {f : GaData σ → GaData σ} {s s' : St σ} {u : Unit} :
    modGa f s = (.ok u, s') ↔ s' = { s with ga := f s.ga } := by
  rw [modGa_run]; simp [eq_comm]

theorem liftE_run_ok (a : α) (s : St σ) : (liftE (.ok a) : M σ α) s = (.ok a, s) := rfl
theorem liftE_run_err (e : PyErr) (s : St σ) : (liftE (.error e) : M σ α) s = (.error e, s) := rfl

theorem liftE_run (x : Except PyErr α) (s : St σ) : (liftE x : M σ α) s = (x, s) := by
  cases x <;> rfl

theorem liftE_ok {x : Except PyErr α} {s s' : St σ} {a : α} :
    (liftE x : M σ α) s = (.ok a, s') ↔ x = .ok a ∧ s' = s := by
  rw [liftE_run]; simp [eq_comm]

theorem getInd_run (r : Nat) (s : St σ) : getInd r s = (.ok (s.heap r), s) := rfl

theorem getInd_ok {r : Nat} {s s' : St σ} {a : Ind σ} : getInd r s = (.ok a, s') ↔ a = s.heap r ∧ s' = s := by
  rw [getInd_run]; simp [eq_comm]

theorem modInd_run (r : Nat) (f : Ind σ → Ind σ) (s : St σ) :
    modInd r f s = (.ok (), { s with heap := upd s.heap r (f (s.heap r)) }) := rfl

theorem modInd_ok {r : Nat} {f : Ind σ → Ind σ} {s s' : St σ} {u : Unit} :
    modInd r f s = (.ok u, s') ↔ s' = { s with heap := upd s.heap r (f (s.heap r)) } := by
  rw [modInd_run]; simp [eq_comm]

theorem alloc_run (v : Ind σ) (s : St σ) :
    alloc v s = (.ok s.next, { s with heap := upd s.heap s.next v, next := s.next + 1 }) := rfl

theorem alloc_ok {v : Ind σ} {s s' : St σ} {r : Nat} :
    alloc v s = (.ok r, s') ↔ r = s.next ∧ s' = { s with heap := upd s.heap s.next v, next := s.next + 1 } := by
  rw [alloc_run]; simp [eq_comm]

theorem genoOf_ok {r : Nat} {s s' : St σ} {g : List Val} :
    genoOf r s = (.ok g, s') ↔ (s.heap r).genotype = some g ∧ s' = s := by
  unfold genoOf
  cases (s.heap r).genotype <;> simp [eq_comm]

theorem genoOf_run {r : Nat} {s : St σ} {g : List Val} (h : (s.heap r).genotype = some g) :
    genoOf r s = (.ok g, s) := by
  unfold genoOf; rw [h]

theorem ite_run {c : Prop} [Decidable c] {m n : M σ α} {s : St σ} :
    (if c then m else n) s = if c then m s else n s := by split <;> rfl

theorem upd_same {h : Nat → Ind σ} {r : Nat} {v : Ind σ} : upd h r v r = v := by simp [upd]
theorem upd_ne {h : Nat → Ind σ} {r x : Nat} {v : Ind σ} (hx : x ≠ r) : upd h r v x = h x := by simp [upd, hx]

/-! ## Loops -/

theorem forEach_nil {f : α → M σ Unit} {s : St σ} : forEach [] f s = (.ok (), s) := rfl

theorem forEach_cons_ok {x : α} {xs : List α} {f : α → M σ Unit} {s s'' : St σ} {u : Unit} :
    forEach (x :: xs) f s = (.ok u, s'') ↔ ∃ s', f x s = (.ok (), s') ∧ forEach xs f s' = (.ok u, s'') := by
  rw [forEach, bind_ok]
  constructor
  · rintro ⟨a, s', h1, h2⟩; exact ⟨s', h1, h2⟩
  · rintro ⟨s', h1, h2⟩; exact ⟨(), s', h1, h2⟩

/-- Invariant rule for `for` loops. -/
theorem forEach_inv {f : α → M σ Unit} (I : St σ → Prop) :
    ∀ {l : List α}, (∀ x ∈ l, ∀ s s', I s → f x s = (.ok (), s') → I s') →
    ∀ {s s' : St σ} {u : Unit}, I s → forEach l f s = (.ok u, s') → I s' := by
  intro l
  induction l with
  | nil => intro _ s s' u hI h; rw [forEach_nil] at h; simp at h; rw [← h]; exact hI
  | cons x xs ih =>
    intro hf s s' u hI h
    obtain ⟨s1, h1, h2⟩ := forEach_cons_ok.mp h
    exact ih (fun y hy => hf y (List.mem_cons_of_mem _ hy)) (hf x List.mem_cons_self s s1 hI h1) h2

theorem forEach_append_ok {l1 l2 : List α} {f : α → M σ Unit} {s s'' : St σ} {u : Unit} :
    forEach (l1 ++ l2) f s = (.ok u, s'') ↔
      ∃ s', forEach l1 f s = (.ok (), s') ∧ forEach l2 f s' = (.ok u, s'') := by
  induction l1 generalizing s with
  | nil => simp [forEach_nil]
  | cons x xs ih =>
    rw [List.cons_append, forEach_cons_ok]
    constructor
    · rintro ⟨s1, h1, h2⟩
      obtain ⟨s2, h3, h4⟩ := ih.mp h2
      exact ⟨s2, forEach_cons_ok.mpr ⟨s1, h1, h3⟩, h4⟩
    · rintro ⟨s2, h1, h2⟩
      obtain ⟨s1, h3, h4⟩ := forEach_cons_ok.mp h1
      exact ⟨s1, h3, ih.mpr ⟨s2, h4, h2⟩⟩

theorem mapEach_nil_ok {f : α → M σ β} {s s' : St σ} {l : List β} :
    mapEach [] f s = (.ok l, s') ↔ l = [] ∧ s' = s := by
  rw [mapEach, pure_ok]

theorem mapEach_cons_ok {x : α} {xs : List α} {f : α → M σ β} {s s'' : St σ} {l : List β} :
    mapEach (x :: xs) f s = (.ok l, s'') ↔
      ∃ y ys s', f x s = (.ok y, s') ∧ mapEach xs f s' = (.ok ys, s'') ∧ l = y :: ys := by
  rw [mapEach, bind_ok]
  constructor
  · rintro ⟨y, s', h1, h2⟩
    rw [bind_ok] at h2
    obtain ⟨ys, s2, h3, h4⟩ := h2
    rw [pure_ok] at h4
    obtain ⟨rfl, rfl⟩ := h4
    exact ⟨y, ys, s', h1, h3, rfl⟩
  · rintro ⟨y, ys, s', h1, h2, rfl⟩
    refine ⟨y, s', h1, ?_⟩
    rw [bind_ok]
    exact ⟨ys, s'', h2, rfl⟩

/-! ## Randomness -/

theorem draw_ok {s s' : St σ} {x : Nat} :
    draw s = (.ok x, s') ↔ ∃ t, s.tape = x :: t ∧ s' = { s with tape := t } := by
  unfold draw
  cases h : s.tape with
  | nil => simp
  | cons y t =>
    simp only [Prod.mk.injEq, Except.ok.injEq, List.cons.injEq]
    constructor
    · rintro ⟨rfl, rfl⟩; exact ⟨t, ⟨rfl, rfl⟩, rfl⟩
    · rintro ⟨t', ⟨rfl, rfl⟩, rfl⟩; exact ⟨rfl, rfl⟩

/-- The state after an operation that only consumes randomness. -/
def Drew (s s' : St σ) : Prop := ∃ t, s' = { s with tape := t }

theorem Drew.refl (s : St σ) : Drew s s := ⟨s.tape, rfl⟩

theorem Drew.trans {a b c : St σ} (h1 : Drew a b) (h2 : Drew b c) : Drew a c := by
  obtain ⟨t1, rfl⟩ := h1
  obtain ⟨t2, rfl⟩ := h2
  exact ⟨t2, rfl⟩

theorem draw_drew {s s' : St σ} {x : Nat} (h : draw s = (.ok x, s')) : Drew s s' := by
  obtain ⟨t, _, h2⟩ := draw_ok.mp h
  exact ⟨t, h2⟩

theorem randint_ok {a b : Int} {s s' : St σ} {v : Int} (h : randint a b s = (.ok v, s')) :
    a ≤ v ∧ v ≤ b ∧ Drew s s' := by
  unfold randint at h
  split at h
  · rw [throwE_ok] at h; exact h.elim
  · rename_i hab
    obtain ⟨x, s1, h1, h2⟩ := bind_ok.mp h
    rw [pure_ok] at h2
    obtain ⟨rfl, rfl⟩ := h2
    have hp : 0 < b - a + 1 := by omega
    have h3 := Int.emod_nonneg (x : Int) (by omega : b - a + 1 ≠ 0)
    have h4 := Int.emod_lt_of_pos (x : Int) hp
    exact ⟨by omega, by omega, draw_drew h1⟩

theorem randrange_ok {a b st : Int} {s s' : St σ} {v : Int} (h : randrange a b st s = (.ok v, s')) :
    st ≠ 0 ∧ (∃ i : Int, 0 ≤ i ∧ i < rangeLen a b st ∧ v = a + st * i) ∧ Drew s s' := by
  unfold randrange at h
  split at h
  · rw [throwE_ok] at h; exact h.elim
  · rename_i h0
    split at h
    · rw [throwE_ok] at h; exact h.elim
    · rename_i hl
      obtain ⟨x, s1, h1, h2⟩ := bind_ok.mp h
      rw [pure_ok] at h2
      obtain ⟨rfl, rfl⟩ := h2
      exact ⟨h0, ⟨_, Int.emod_nonneg _ (by omega), Int.emod_lt_of_pos _ (by omega), rfl⟩, draw_drew h1⟩

theorem choice_ok {l : List α} {s s' : St σ} {v : α} (h : choice l s = (.ok v, s')) :
    v ∈ l ∧ Drew s s' := by
  unfold choice at h
  split at h
  · rw [throwE_ok] at h; exact h.elim
  · obtain ⟨x, s1, h1, h2⟩ := bind_ok.mp h
    cases hx : l[x % l.length]? with
    | none => rw [hx] at h2; simp only [throwE_ok] at h2
    | some w =>
      rw [hx] at h2
      simp only [pure_ok] at h2
      obtain ⟨rfl, rfl⟩ := h2
      exact ⟨List.mem_of_getElem? hx, draw_drew h1⟩

theorem sampleAux_ok : ∀ {k : Nat} {l : List α} {s s' : St σ} {r : List α},
    sampleAux k l s = (.ok r, s') → (∃ rest, (r ++ rest).Perm l) ∧ r.length = k ∧ Drew s s' := by
  intro k
  induction k with
  | zero =>
    intro l s s' r h
    rw [sampleAux, pure_ok] at h
    obtain ⟨rfl, rfl⟩ := h
    exact ⟨⟨l, by simp⟩, rfl, Drew.refl _⟩
  | succ k ih =>
    intro l s s' r h
    rw [sampleAux] at h
    obtain ⟨x, s1, h1, h2⟩ := bind_ok.mp h
    cases hx : l[x % l.length]? with
    | none => rw [hx] at h2; simp only [throwE_ok] at h2
    | some w =>
      rw [hx] at h2
      simp only at h2
      obtain ⟨rs, s2, h3, h4⟩ := bind_ok.mp h2
      rw [pure_ok] at h4
      obtain ⟨rfl, rfl⟩ := h4
      obtain ⟨⟨rest, hp⟩, hlen, hd⟩ := ih h3
      refine ⟨⟨rest, ?_⟩, by simp [hlen], (draw_drew h1).trans hd⟩
      obtain ⟨hlt, hget⟩ := List.getElem?_eq_some_iff.mp hx
      have : (w :: l.eraseIdx (x % l.length)).Perm l := by
        rw [← hget]; exact List.getElem_cons_eraseIdx_perm hlt
      exact (List.Perm.cons w hp).trans this

theorem sample_ok {l : List α} {k : Int} {s s' : St σ} {r : List α} (h : sample l k s = (.ok r, s')) :
    0 ≤ k ∧ k ≤ l.length ∧ (∃ rest, (r ++ rest).Perm l) ∧ (r.length : Int) = k ∧ Drew s s' := by
  unfold sample at h
  split at h
  · rw [throwE_ok] at h; exact h.elim
  · rename_i hk
    push Not at hk
    obtain ⟨h1, h2, h3⟩ := sampleAux_ok h
    exact ⟨hk.1, hk.2, h1, by omega, h3⟩

theorem sample_mem {l : List α} {k : Int} {s s' : St σ} {r : List α} (h : sample l k s = (.ok r, s')) :
    ∀ x ∈ r, x ∈ l := by
  obtain ⟨_, _, ⟨rest, hp⟩, _, _⟩ := sample_ok h
  intro x hx
  exact hp.subset (List.mem_append_left _ hx)

theorem sample_nodup {l : List α} {k : Int} {s s' : St σ} {r : List α} (h : sample l k s = (.ok r, s'))
    (hl : l.Nodup) : r.Nodup := by
  obtain ⟨_, _, ⟨rest, hp⟩, _, _⟩ := sample_ok h
  exact (List.nodup_append.mp (hp.nodup_iff.mpr hl)).1

theorem random01_ok {s s' : St σ} {q : ℚ} (h : random01 s = (.ok q, s')) : 0 ≤ q ∧ q < 1 ∧ Drew s s' := by
  unfold random01 at h
  obtain ⟨x, s1, h1, h2⟩ := bind_ok.mp h
  rw [pure_ok] at h2
  obtain ⟨rfl, rfl⟩ := h2
  have hp : (0 : ℚ) < ((2 ^ 53 : Nat) : ℚ) := by exact_mod_cast Nat.two_pow_pos 53
  refine ⟨div_nonneg (by exact_mod_cast Nat.zero_le _) hp.le, ?_, draw_drew h1⟩
  rw [div_lt_one hp]
  exact_mod_cast Nat.mod_lt _ (Nat.two_pow_pos 53)

/-- `reseed` and operations that only draw leave everything but the tape. -/
theorem reseed_drew (s : St σ) : ∃ s', reseed s = (.ok (), s') ∧ Drew s s' := by
  unfold reseed
  cases h : s.seed with
  | none => exact ⟨s, rfl, Drew.refl _⟩
  | some t => exact ⟨_, rfl, ⟨t, by rw [← h]⟩⟩

theorem reseed_ok {s s' : St σ} {u : Unit} (h : reseed s = (.ok u, s')) : Drew s s' := by
  obtain ⟨s1, h1, h2⟩ := reseed_drew s
  rw [h1] at h
  simp at h
  rw [← h]; exact h2

end BaumEva
