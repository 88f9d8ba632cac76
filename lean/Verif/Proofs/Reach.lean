import Verif.Proofs.Fill
import Verif.Spec.Reach
/-!
# Which random numbers lead where

A drawing computation of fixed length is a function of its draws; the operators of the library are bijections
between the reduced draws (every draw below its bound) and their possible results.
-/
namespace BaumEva
open Spec
variable {σ α β : Type}

/-- `m` uses exactly `k` draws and nothing else of the state; its result is a function of them. -/
def Det (m : M σ α) (k : Nat) (F : List Nat → α) : Prop :=
  ∀ (s : St σ) (t u : List Nat), t.length = k → m { s with tape := t ++ u } = (.ok (F t), { s with tape := u })

theorem Det.gives {m : M σ α} {k : Nat} {F : List Nat → α} (h : Det m k F) {t : List Nat} (ht : t.length = k) {a : α} :
    Gives m t a ↔ F t = a := by
  constructor
  · intro hg
    have h1 := hg {} []
    rw [h _ _ _ ht] at h1
    simpa using h1
  · rintro rfl s u
    exact h s t u ht

/-- One draw. -/
theorem Det.one {m : M σ α} {f : Nat → α}
    (h : ∀ (s : St σ) (x : Nat) (u : List Nat), m { s with tape := x :: u } = (.ok (f x), { s with tape := u })) :
    Det m 1 (fun t => f (t.headD 0)) := by
  intro s t u ht
  obtain ⟨x, rfl⟩ := List.length_eq_one_iff.mp ht
  exact h s x u

theorem Det.pure (a : α) : Det (Pure.pure a : M σ α) 0 (fun _ => a) := by
  intro s t u ht
  obtain rfl := List.length_eq_zero_iff.mp ht
  rfl

theorem draw_cons (s : St σ) (x : Nat) (u : List Nat) :
    draw { s with tape := x :: u } = (.ok x, { s with tape := u }) := rfl

theorem randint_cons {a b : Int} (h : a ≤ b) (s : St σ) (x : Nat) (u : List Nat) :
    randint a b { s with tape := x :: u } = (.ok (a + (x : Int) % (b - a + 1)), { s with tape := u }) := by
  unfold randint
  rw [ite_run, if_neg (by omega), bind_of_ok (draw_cons s x u)]
  rfl

theorem randrange_cons {a b st : Int} (h0 : st ≠ 0) (h : 0 < rangeLen a b st) (s : St σ) (x : Nat) (u : List Nat) :
    randrange a b st { s with tape := x :: u } =
      (.ok (a + st * ((x : Int) % rangeLen a b st)), { s with tape := u }) := by
  unfold randrange
  rw [ite_run, if_neg h0, ite_run, if_neg (by omega), bind_of_ok (draw_cons s x u)]
  rfl

theorem choice_cons {l : List α} (h : l ≠ []) (s : St σ) (x : Nat) (u : List Nat) :
    choice l { s with tape := x :: u } =
      (.ok (l[x % l.length]'(Nat.mod_lt _ (List.length_pos_of_ne_nil h))), { s with tape := u }) := by
  unfold choice
  rw [ite_run, if_neg (by simpa using h), bind_of_ok (draw_cons s x u),
    List.getElem?_eq_getElem (Nat.mod_lt _ (List.length_pos_of_ne_nil h))]
  rfl

/-- A list of one-draw computations. -/
theorem Det.mapEach {m : α → M σ β} {f : α → Nat → β} {l : List α}
    (h : ∀ a ∈ l, ∀ (s : St σ) (x : Nat) (u : List Nat), m a { s with tape := x :: u } = (.ok (f a x), { s with tape := u })) :
    Det (BaumEva.mapEach l m) l.length (fun t => List.zipWith f l t) := by
  induction l with
  | nil =>
    intro s t u ht
    obtain rfl := List.length_eq_zero_iff.mp ht
    rfl
  | cons a l ih =>
    intro s t u ht
    cases t with
    | nil => simp at ht
    | cons x t =>
      rw [BaumEva.mapEach, List.cons_append, bind_of_ok (h a (List.mem_cons_self ..) s x (t ++ u)),
        bind_of_ok (ih (fun b hb => h b (List.mem_cons_of_mem _ hb)) s t u (by simpa using ht))]
      rfl

theorem Det.map {m : M σ α} {k : Nat} {F : List Nat → α} (h : Det m k F) (g : α → β) :
    Det (do let a ← m; Pure.pure (g a)) k (fun t => g (F t)) := by
  intro s t u ht
  rw [bind_of_ok (h s t u ht)]
  rfl

/-- One-draw pieces are bijective together if each is. -/
theorem zip_unique {n : α → Nat} {f : α → Nat → β} {P : α → β → Prop} {l : List α}
    (h : ∀ a ∈ l, ∀ b, P a b → ∃! v, v < n a ∧ f a v = b) :
    ∀ {bs : List β}, List.Forall₂ P l bs →
      ∃! t : List Nat, Reduced (l.map n) t ∧ List.zipWith f l t = bs := by
  induction l with
  | nil =>
    intro bs hb
    cases hb
    exact ⟨[], ⟨.nil, rfl⟩, fun t ht => by cases ht.1; rfl⟩
  | cons a l ih =>
    intro bs hb
    cases hb with
    | cons h1 h2 =>
      obtain ⟨v, ⟨v1, v2⟩, v3⟩ := h a (List.mem_cons_self ..) _ h1
      obtain ⟨t, ⟨t1, t2⟩, t3⟩ := ih (fun b hb => h b (List.mem_cons_of_mem _ hb)) h2
      refine ⟨v :: t, ⟨.cons v1 t1, by simp [v2, t2]⟩, ?_⟩
      rintro t' ⟨r1, r2⟩
      cases r1 with
      | cons q1 q2 =>
        simp only [List.zipWith_cons_cons, List.cons.injEq] at r2
        rw [v3 _ ⟨q1, r2.1⟩, t3 _ ⟨q2, r2.2⟩]

/-! ## Selection without replacement -/

/-- The selection as a function of the draws. -/
def pick [Inhabited α] : List α → List Nat → List α
  | _, [] => []
  | l, x :: t => l[x % l.length]?.getD default :: pick (l.eraseIdx (x % l.length)) t

theorem sampleAux_det [Inhabited α] : ∀ {k : Nat} {l : List α}, k ≤ l.length → Det (σ := σ) (sampleAux k l) k (pick l) := by
  intro k
  induction k with
  | zero =>
    intro l _ s t u ht
    obtain rfl := List.length_eq_zero_iff.mp ht
    rfl
  | succ k ih =>
    intro l hl s t u ht
    cases t with
    | nil => simp at ht
    | cons x t =>
      have hlt : x % l.length < l.length := Nat.mod_lt _ (by omega)
      rw [sampleAux, List.cons_append, bind_of_ok (draw_cons s x (t ++ u)), List.getElem?_eq_getElem hlt]
      simp only
      rw [bind_of_ok (ih (by rw [List.length_eraseIdx_of_lt hlt]; omega) s t u (by simpa using ht)), pick,
        List.getElem?_eq_getElem hlt]
      rfl

theorem pick_unique [Inhabited α] : ∀ {ys l : List α}, l.Nodup → ys.Nodup → (∀ y ∈ ys, y ∈ l) →
    ∃! t, Reduced (countdown l.length ys.length) t ∧ pick l t = ys := by
  intro ys
  induction ys with
  | nil =>
    intro l _ _ _
    exact ⟨[], ⟨.nil, rfl⟩, fun t ht => by cases ht.1; rfl⟩
  | cons y ys ih =>
    intro l hl hy hsub
    obtain ⟨i, hi, rfl⟩ := List.getElem_of_mem (hsub y (List.mem_cons_self ..))
    have hy' := List.nodup_cons.mp hy
    have hlen : (l.eraseIdx i).length = l.length - 1 := List.length_eraseIdx_of_lt hi
    obtain ⟨t, ⟨t1, t2⟩, t3⟩ := ih (l := l.eraseIdx i) (hl.sublist (List.eraseIdx_sublist ..)) hy'.2 (by
      intro z hz
      have hz' := hsub z (List.mem_cons_of_mem _ hz)
      obtain ⟨j, hj, rfl⟩ := List.getElem_of_mem hz'
      have hne : j ≠ i := by rintro rfl; exact hy'.1 hz
      rw [List.mem_eraseIdx_iff_getElem]
      exact ⟨j, hj, hne, rfl⟩)
    refine ⟨i :: t, ⟨?_, ?_⟩, ?_⟩
    · rw [List.length_cons, countdown]
      exact .cons hi (by rw [← hlen]; exact t1)
    · rw [pick, Nat.mod_eq_of_lt hi, List.getElem?_eq_getElem hi, t2]; rfl
    · rintro t' ⟨r1, r2⟩
      rw [List.length_cons, countdown] at r1
      cases r1 with
      | cons q1 q2 =>
        rename_i x t'
        rw [pick, Nat.mod_eq_of_lt q1, List.getElem?_eq_getElem q1] at r2
        simp only [Option.getD_some, List.cons.injEq] at r2
        have : x = i := (List.Nodup.getElem_inj_iff hl).mp r2.1
        subst this
        rw [t3 _ ⟨by rw [hlen]; exact q2, r2.2⟩]

theorem countdown_length (n k : Nat) : (countdown n k).length = k := by
  induction k generalizing n with
  | zero => rfl
  | succ k ih => rw [countdown, List.length_cons, ih]

end BaumEva
