import Verif.Model.Run
import Verif.Proofs.Safe
/-!
# Computations that need finitely many draws

`Tame m`: a success does not depend on draws that are not used, and enough further draws (zeros, say) always bring
`m` to its end.  This holds for everything in the model but the two loops that look for a second parent.
-/
namespace BaumEva
variable {σ α β : Type}

/-- The state with further draws at the end of the tape. -/
def St.more (s : St σ) (u : List Nat) : St σ := { s with tape := s.tape ++ u }

@[simp] theorem St.more_ga (s : St σ) (u : List Nat) : (s.more u).ga = s.ga := rfl
@[simp] theorem St.more_heap (s : St σ) (u : List Nat) : (s.more u).heap = s.heap := rfl
@[simp] theorem St.more_next (s : St σ) (u : List Nat) : (s.more u).next = s.next := rfl
@[simp] theorem St.more_seed (s : St σ) (u : List Nat) : (s.more u).seed = s.seed := rfl
@[simp] theorem St.more_tape (s : St σ) (u : List Nat) : (s.more u).tape = s.tape ++ u := rfl
@[simp] theorem St.more_conds (s : St σ) (u : List Nat) : (s.more u).conds = s.conds := rfl
@[simp] theorem St.more_more (s : St σ) (u w : List Nat) : (s.more u).more w = s.more (u ++ w) := by
  simp [St.more]
@[simp] theorem St.more_nil (s : St σ) : s.more [] = s := by simp [St.more]

/-- Unused draws do not matter for a success. -/
def ExtOk (m : M σ α) : Prop := ∀ (s s' : St σ) (a : α) (u : List Nat), s.seed = none → m s = (.ok a, s') →
  m (s.more u) = (.ok a, s'.more u) ∧ s'.seed = none

/-- A success depends on the draws that are used only. -/
def Trim (m : M σ α) : Prop := ∀ (s s' : St σ) (a : α), s.seed = none → m s = (.ok a, s') →
  ∃ pre, s.tape = pre ++ s'.tape ∧ ∀ v, m { s with tape := pre ++ v } = (.ok a, { s' with tape := v })

/-- The draws have run out. -/
def Dry (r : Except PyErr α × St σ) : Prop := r.1 = .error .exhausted ∧ r.2.tape = []

/-- With numbers below `B`, `m` is at its end after `K` further draws. -/
def Brief (B K : Nat) (m : M σ α) (s : St σ) : Prop := ∀ u : List Nat, (∀ x ∈ u, x < B) → K ≤ u.length →
  ¬ Dry (m (s.more u)) ∧ ∀ a s', m (s.more u) = (.ok a, s') → ∃ s'', m (s.more (u.take K)) = (.ok a, s'')

/-- `m` needs finitely many draws. -/
structure Tame (m : M σ α) : Prop where
  ext : ExtOk m
  trim : Trim m
  brief : ∀ (B : Nat) (s : St σ), s.seed = none → ∃ K, Brief B K m s

theorem Tame.halts {m : M σ α} (h : Tame m) (s : St σ) (hn : s.seed = none) : ∃ k, ¬ Dry (m (s.more (List.replicate k 0))) := by
  obtain ⟨K, hK⟩ := h.brief 1 s hn
  exact ⟨K, (hK (List.replicate K 0) (by simp) (by simp)).1⟩

theorem Brief.longer {B K K' : Nat} {m : M σ α} {s : St σ} (hx : ExtOk m) (hn : s.seed = none) (h : Brief B K m s) (hk : K ≤ K') :
    Brief B K' m s := by
  intro u hu hl
  obtain ⟨h1, h2⟩ := h u hu (hk.trans hl)
  refine ⟨h1, fun a s' e => ?_⟩
  obtain ⟨s'', e2⟩ := h2 a s' e
  obtain ⟨e3, _⟩ := hx _ _ _ ((u.drop K).take (K' - K)) (by exact hn) e2
  rw [St.more_more, ← List.take_add, Nat.add_sub_cancel' hk] at e3
  exact ⟨_, e3⟩

theorem uniform_bound {B : Nat} : ∀ (K : Nat) (P : List Nat → Nat → Prop), (∀ u n m, n ≤ m → P u n → P u m) →
    (∀ u, u.length = K → (∀ x ∈ u, x < B) → ∃ n, P u n) → ∃ n, ∀ u, u.length = K → (∀ x ∈ u, x < B) → P u n := by
  intro K
  induction K with
  | zero =>
    intro P _ h
    obtain ⟨n, hn⟩ := h [] rfl (by simp)
    exact ⟨n, fun u hu _ => by rw [List.length_eq_zero_iff.mp hu]; exact hn⟩
  | succ K ih =>
    intro P hmono h
    have h1 : ∀ x, ∃ n, x < B → ∀ u, u.length = K → (∀ y ∈ u, y < B) → P (x :: u) n := by
      intro x
      by_cases hx : x < B
      · obtain ⟨n, hn⟩ := ih (fun u => P (x :: u)) (fun u n m => hmono _ n m) (fun u hu hb => h (x :: u) (by simp [hu]) (by
          intro y hy
          rcases List.mem_cons.mp hy with rfl | hy
          · exact hx
          · exact hb y hy))
        exact ⟨n, fun _ => hn⟩
      · exact ⟨0, fun h => absurd h hx⟩
    choose N hN using h1
    have h2 : ∀ b, ∃ M, ∀ x, x < b → N x ≤ M := by
      intro b
      induction b with
      | zero => exact ⟨0, fun x hx => absurd hx (Nat.not_lt_zero _)⟩
      | succ b ihb =>
        obtain ⟨M, hM⟩ := ihb
        refine ⟨max M (N b), fun x hx => ?_⟩
        rcases Nat.lt_or_eq_of_le (Nat.le_of_lt_succ hx) with h | rfl
        · exact (hM x h).trans (Nat.le_max_left _ _)
        · exact Nat.le_max_right _ _
    obtain ⟨M, hM⟩ := h2 B
    refine ⟨M, fun u hu hb => ?_⟩
    cases u with
    | nil => simp at hu
    | cons x u =>
      have hx := hb x List.mem_cons_self
      exact hmono _ _ _ (hM x hx) (hN x hx u (by simpa using hu) fun y hy => hb y (List.mem_cons_of_mem _ hy))

namespace Tame

/-- Computations that ignore the tape. -/
theorem blind {m : M σ α} (h : ∀ (s : St σ) (t : List Nat), m { s with tape := t } = ((m s).1, { (m s).2 with tape := t }))
    (hs : ∀ s : St σ, (m s).2.seed = s.seed) : Tame m := by
  have ht : ∀ s : St σ, (m s).2.tape = s.tape := by
    intro s
    have h1 := h s s.tape
    have h2 : m s = ((m s).1, { (m s).2 with tape := s.tape }) := h1
    exact congrArg (fun p => p.2.tape) h2
  constructor
  · intro s s' a u hn hm
    have h1 := h s (s.tape ++ u)
    rw [hm] at h1
    have h2 := ht s
    rw [hm] at h2
    simp only at h2
    have h3 := hs s
    rw [hm] at h3
    refine ⟨?_, h3.trans hn⟩
    show m { s with tape := s.tape ++ u } = _
    rw [h1, St.more, h2]
  · intro s s' a _ hm
    refine ⟨[], ?_, fun v => ?_⟩
    · have := ht s
      rw [hm] at this
      exact this.symm
    · rw [List.nil_append, h s v, hm]
  · intro B s _
    refine ⟨1, fun u _ hl => ⟨?_, fun a s' e => ⟨{ s' with tape := s.tape ++ u.take 1 }, ?_⟩⟩⟩
    · rintro ⟨_, hd⟩
      rw [ht] at hd
      have : u = [] := (List.append_eq_nil_iff.mp hd).2
      rw [this] at hl
      simp at hl
    · have := h (s.more u) (s.tape ++ u.take 1)
      rw [e] at this
      exact this

theorem pure (a : α) : Tame (Pure.pure a : M σ α) := blind (fun _ _ => rfl) (fun _ => rfl)
theorem throwE (e : PyErr) : Tame (BaumEva.throwE e : M σ α) := blind (fun _ _ => rfl) (fun _ => rfl)
theorem liftE (x : Except PyErr α) : Tame (BaumEva.liftE x : M σ α) := by
  cases x <;> exact blind (fun _ _ => rfl) (fun _ => rfl)
theorem getGa : Tame (BaumEva.getGa : M σ (GaData σ)) := blind (fun _ _ => rfl) (fun _ => rfl)
theorem getInd (r : Nat) : Tame (BaumEva.getInd r : M σ (Ind σ)) := blind (fun _ _ => rfl) (fun _ => rfl)
theorem modInd (r : Nat) (f : Ind σ → Ind σ) : Tame (BaumEva.modInd r f) := blind (fun _ _ => rfl) (fun _ => rfl)
theorem modGa (f : GaData σ → GaData σ) : Tame (BaumEva.modGa f) := blind (fun _ _ => rfl) (fun _ => rfl)
theorem alloc (x : Ind σ) : Tame (BaumEva.alloc x) := blind (fun _ _ => rfl) (fun _ => rfl)
theorem genoOf (r : Nat) : Tame (BaumEva.genoOf r : M σ _) := by
  refine blind (fun s t => ?_) (fun s => ?_)
  · unfold BaumEva.genoOf
    cases h : (s.heap r).genotype <;> rfl
  · unfold BaumEva.genoOf
    cases h : (s.heap r).genotype <;> rfl
theorem scoreOf (r : Nat) : Tame (BaumEva.scoreOf r : M σ _) := by
  refine blind (fun s t => ?_) (fun s => ?_)
  · unfold BaumEva.scoreOf
    cases h : (s.heap r).score <;> rfl
  · unfold BaumEva.scoreOf
    cases h : (s.heap r).score <;> rfl
theorem frontPrefix (rs : List Nat) : Tame (BaumEva.frontPrefix rs : M σ _) := blind (fun _ _ => rfl) (fun _ => rfl)

theorem modifyS {f : St σ → St σ} (h : ∀ (s : St σ) (t : List Nat), f { s with tape := t } = { f s with tape := t })
    (hs : ∀ s, (f s).seed = s.seed) : Tame (BaumEva.modifyS f) :=
  blind (fun s t => by unfold BaumEva.modifyS; rw [h]) hs

theorem draw : Tame (BaumEva.draw : M σ Nat) := by
  constructor
  · intro s s' a u hn h
    unfold BaumEva.draw at h ⊢
    cases ht : s.tape with
    | nil => rw [ht] at h; simp at h
    | cons x t =>
      rw [ht] at h
      simp only [Prod.mk.injEq, Except.ok.injEq] at h
      obtain ⟨rfl, rfl⟩ := h
      refine ⟨?_, hn⟩
      simp [St.more, ht]
  · intro s s' a _ h
    unfold BaumEva.draw at h ⊢
    cases ht : s.tape with
    | nil => rw [ht] at h; simp at h
    | cons x t =>
      rw [ht] at h
      simp only [Prod.mk.injEq, Except.ok.injEq] at h
      obtain ⟨rfl, rfl⟩ := h
      exact ⟨[x], rfl, fun v => rfl⟩
  · intro B s _
    refine ⟨1, fun u _ hl => ?_⟩
    cases u with
    | nil => simp at hl
    | cons y u =>
      cases ht : s.tape with
      | nil =>
        have e : BaumEva.draw (s.more (y :: u)) = (.ok y, { s with tape := u }) := by
          unfold BaumEva.draw; simp [St.more, ht]
        refine ⟨fun hd => ?_, fun a s' h => ?_⟩
        · rw [e] at hd; exact absurd hd.1 (by simp)
        · rw [e] at h
          simp only [Prod.mk.injEq, Except.ok.injEq] at h
          obtain ⟨rfl, _⟩ := h
          refine ⟨{ s with tape := [] }, ?_⟩
          unfold BaumEva.draw; simp [St.more, ht]
      | cons x t =>
        have e : ∀ w, BaumEva.draw (s.more w) = (.ok x, { s with tape := t ++ w }) := by
          intro w
          unfold BaumEva.draw; simp [St.more, ht]
        refine ⟨fun hd => ?_, fun a s' h => ?_⟩
        · rw [e] at hd; exact absurd hd.1 (by simp)
        · rw [e] at h
          simp only [Prod.mk.injEq, Except.ok.injEq] at h
          obtain ⟨rfl, _⟩ := h
          exact ⟨_, e _⟩

theorem reseed : Tame (BaumEva.reseed : M σ Unit) := by
  constructor
  · intro s s' a u hn h
    unfold BaumEva.reseed at h ⊢
    simp only [St.more_seed, hn] at h ⊢
    simp only [Prod.mk.injEq] at h
    obtain ⟨_, rfl⟩ := h
    exact ⟨rfl, hn⟩
  · intro s s' a hn h
    unfold BaumEva.reseed at h ⊢
    simp only [hn] at h ⊢
    simp only [Prod.mk.injEq] at h
    obtain ⟨_, rfl⟩ := h
    exact ⟨[], rfl, fun v => by simp [hn]⟩
  · intro B s hn
    refine ⟨0, fun u _ _ => ?_⟩
    have e : ∀ w, BaumEva.reseed (s.more w) = (.ok (), s.more w) := by
      intro w
      unfold BaumEva.reseed; simp only [St.more_seed, hn]
    refine ⟨fun hd => ?_, fun a s' _ => ⟨_, e _⟩⟩
    rw [e] at hd
    exact absurd hd.1 (by simp)

end Tame

theorem Trim.bind {m : M σ α} {f : α → M σ β} (he : ExtOk m) (hm : Trim m) (hf : ∀ a, Trim (f a)) : Trim (m >>= f) := by
  intro s s' b hn h
  obtain ⟨a, s1, h1, h2⟩ := bind_ok.mp h
  obtain ⟨_, n1⟩ := he s s1 a [] hn h1
  obtain ⟨p1, e1, k1⟩ := hm s s1 a hn h1
  obtain ⟨p2, e2, k2⟩ := hf a s1 s' b n1 h2
  refine ⟨p1 ++ p2, by rw [e1, e2, List.append_assoc], fun v => ?_⟩
  rw [List.append_assoc, bind_of_ok (k1 _)]
  exact k2 v

namespace Tame

theorem bind {m : M σ α} {f : α → M σ β} (hm : Tame m) (hf : ∀ a, Tame (f a)) : Tame (m >>= f) := by
  refine ⟨?_, Trim.bind hm.ext hm.trim fun a => (hf a).trim, ?_⟩
  · intro s s' b u hn h
    obtain ⟨a, s1, h1, h2⟩ := bind_ok.mp h
    obtain ⟨e1, n1⟩ := hm.ext s s1 a u hn h1
    obtain ⟨e2, n2⟩ := (hf a).ext s1 s' b u n1 h2
    exact ⟨by rw [bind_of_ok e1]; exact e2, n2⟩
  · intro B s hn
    obtain ⟨K, hK⟩ := hm.brief B s hn
    obtain ⟨N, hN⟩ := uniform_bound (B := B) K (fun u n => ∀ a s1, m (s.more u) = (.ok a, s1) → Brief B n (f a) s1)
      (fun u n k hnk h a s1 e => (h a s1 e).longer (hf a).ext (hm.ext _ s1 a [] (by exact hn) e).2 hnk) (by
        intro u _ _
        rcases hx : m (s.more u) with ⟨r, s1⟩
        cases r with
        | error e => exact ⟨0, fun a s1 h => by simp at h⟩
        | ok a =>
          obtain ⟨n, h⟩ := (hf a).brief B s1 (hm.ext _ s1 a [] (by exact hn) hx).2
          refine ⟨n, fun a' s1' e => ?_⟩
          simp only [Prod.mk.injEq, Except.ok.injEq] at e
          obtain ⟨rfl, rfl⟩ := e
          exact h)
    refine ⟨K + N, fun u hu hl => ?_⟩
    obtain ⟨k1, k2⟩ := hK u hu (by omega)
    have key : ∀ a s', m (s.more u) = (.ok a, s') → ∃ s1, m (s.more (u.take K)) = (.ok a, s1) ∧ s' = s1.more (u.drop K) := by
      intro a s' e
      obtain ⟨s1, e1⟩ := k2 a s' e
      obtain ⟨e2, _⟩ := hm.ext _ s1 a (u.drop K) (by exact hn) e1
      rw [St.more_more, List.take_append_drop, e] at e2
      simp only [Prod.mk.injEq, true_and] at e2
      exact ⟨s1, e1, e2⟩
    have htake : ∀ x ∈ u.take K, x < B := fun x hx => hu x (List.take_subset _ _ hx)
    have hdrop : ∀ x ∈ u.drop K, x < B := fun x hx => hu x (List.drop_subset _ _ hx)
    constructor
    · intro hd
      rcases hx : m (s.more u) with ⟨r, s'⟩
      cases r with
      | error e =>
        rw [bind_of_err hx] at hd
        obtain ⟨h1, h2⟩ := hd
        simp only [Except.error.injEq] at h1
        subst h1
        exact k1 ⟨by rw [hx], by rw [hx]; exact h2⟩
      | ok a =>
        obtain ⟨s1, e1, rfl⟩ := key a s' hx
        rw [bind_of_ok hx] at hd
        exact (hN (u.take K) (by simp; omega) htake a s1 e1 (u.drop K) hdrop (by simp; omega)).1 hd
    · intro b s2 h
      obtain ⟨a, s', hx, h2⟩ := bind_ok.mp h
      obtain ⟨s1, e1, rfl⟩ := key a s' hx
      obtain ⟨s3, e3⟩ := (hN (u.take K) (by simp; omega) htake a s1 e1 (u.drop K) hdrop (by simp; omega)).2 b s2 h2
      obtain ⟨e4, _⟩ := hm.ext _ s1 a ((u.drop K).take N) (by exact hn) e1
      rw [St.more_more, ← List.take_add] at e4
      exact ⟨s3, by rw [bind_of_ok e4]; exact e3⟩

theorem getS {f : St σ → M σ α} (h : ∀ s, Tame (f s)) (hu : ∀ (s : St σ) (t : List Nat), f { s with tape := t } = f s) :
    Tame (BaumEva.getS >>= f) := by
  have e : ∀ s : St σ, (BaumEva.getS >>= f) s = f s s := fun s => bind_of_ok (getS_run s)
  constructor
  · intro s s' a u hn hm
    rw [e] at hm ⊢
    obtain ⟨e1, n1⟩ := (h s).ext s s' a u hn hm
    refine ⟨?_, n1⟩
    rw [← e1]
    exact congrFun (hu s (s.tape ++ u)) _
  · intro s s' a hn hm
    rw [e] at hm
    obtain ⟨pre, e1, k1⟩ := (h s).trim s s' a hn hm
    refine ⟨pre, e1, fun v => ?_⟩
    rw [e, hu s (pre ++ v)]
    exact k1 v
  · intro B s hn
    obtain ⟨K, hK⟩ := (h s).brief B s hn
    have e2 : ∀ u, (BaumEva.getS >>= f) (s.more u) = f s (s.more u) := fun u => by
      rw [e]; exact congrFun (hu s _) _
    refine ⟨K, fun u h1 h2 => ?_⟩
    rw [e2, e2]
    exact hK u h1 h2

theorem ite {c : Prop} [Decidable c] {m n : M σ α} (h1 : Tame m) (h2 : Tame n) : Tame (if c then m else n) := by
  split
  · exact h1
  · exact h2

theorem forEach {f : α → M σ Unit} (h : ∀ a, Tame (f a)) : ∀ l : List α, Tame (BaumEva.forEach l f) := by
  intro l
  induction l with
  | nil => exact pure ()
  | cons x xs ih => exact bind (h x) fun _ => ih

theorem mapEach {f : α → M σ β} (h : ∀ a, Tame (f a)) : ∀ l : List α, Tame (BaumEva.mapEach l f) := by
  intro l
  induction l with
  | nil => exact pure _
  | cons x xs ih => exact bind (h x) fun _ => bind ih fun _ => pure _

theorem randint (a b : Int) : Tame (BaumEva.randint a b : M σ Int) := by
  unfold BaumEva.randint
  exact ite (throwE _) (bind draw fun _ => pure _)

theorem randrange (a b c : Int) : Tame (BaumEva.randrange a b c : M σ Int) := by
  unfold BaumEva.randrange
  exact ite (throwE _) (ite (throwE _) (bind draw fun _ => pure _))

theorem choice (l : List α) : Tame (BaumEva.choice l : M σ α) := by
  unfold BaumEva.choice
  refine ite (throwE _) (bind draw fun _ => ?_)
  split
  · exact pure _
  · exact throwE _

theorem sampleAux : ∀ (k : Nat) (l : List α), Tame (BaumEva.sampleAux k l : M σ (List α)) := by
  intro k
  induction k with
  | zero => intro l; exact pure _
  | succ k ih =>
    intro l
    rw [BaumEva.sampleAux]
    refine bind draw fun _ => ?_
    split
    · exact bind (ih _) fun _ => pure _
    · exact throwE _

theorem sample (l : List α) (k : Int) : Tame (BaumEva.sample l k : M σ (List α)) := by
  unfold BaumEva.sample
  exact ite (throwE _) (sampleAux _ _)

/-! ## crossover -/

theorem segmentPoints (lo len : Nat) : Tame (BaumEva.segmentPoints lo len : M σ _) := by
  unfold BaumEva.segmentPoints
  refine bind (sample _ _) fun l => ?_
  split
  · exact pure _
  · exact throwE _

theorem uniformLoop (p1 p2 : List Val) : ∀ (n i : Nat), Tame (BaumEva.uniformLoop p1 p2 i n : M σ _) := by
  intro n
  induction n with
  | zero => intro i; exact pure _
  | succ n ih =>
    intro i
    rw [BaumEva.uniformLoop]
    refine bind (randint _ _) fun c => ?_
    simp only
    split
    · exact throwE _
    · exact bind (ih _) fun _ => pure _

theorem crossGeno (op : CrossOp) (len : Nat) (p1 p2 : List Val) : Tame (BaumEva.crossGeno op len p1 p2 : M σ _) := by
  unfold BaumEva.crossGeno
  cases op with
  | onePoint => exact bind (randint _ _) fun _ => pure _
  | twoPoint => exact bind (segmentPoints _ _) fun _ => pure _
  | uniform => exact bind (uniformLoop _ _ _ _) fun _ => pure _
  | order => exact bind (segmentPoints _ _) fun _ => pure _

theorem getChild (op : CrossOp) (len : Nat) (p1 p2 : List Val) : Tame (BaumEva.getChild op len p1 p2 : M σ _) := by
  unfold BaumEva.getChild
  exact bind (crossGeno _ _ _ _) fun _ => bind (randint _ _) fun _ => alloc _

theorem crossPairs (op : CrossOp) (len : Nat) : ∀ l : List Nat, Tame (BaumEva.crossPairs op len l : M σ _)
  | [] => pure _
  | [_] => throwE _
  | a :: b :: rest => by
    rw [BaumEva.crossPairs]
    exact bind (genoOf _) fun _ => bind (genoOf _) fun _ => bind (getChild _ _ _ _) fun _ => bind (modGa _) fun _ =>
      crossPairs op len rest

theorem newPopulation : Tame (BaumEva.newPopulation : M σ Unit) := reseed

theorem crossExec (op : CrossOp) : Tame (BaumEva.crossExec op : M σ _) := by
  unfold BaumEva.crossExec
  refine bind getGa fun ga => ?_
  split
  · exact throwE _
  · exact bind (genoOf _) fun _ => bind newPopulation fun _ => bind (modGa _) fun _ => crossPairs _ _ _

/-! ## mutation -/

theorem determinesMutation (l : MutLvl) : Tame (BaumEva.determinesMutation l : M σ _) := by
  unfold BaumEva.determinesMutation
  refine bind (randint _ _) fun _ => ?_
  split
  · exact pure _
  · exact throwE _

theorem mutateComb (op : MutOp) (g : List Val) : Tame (BaumEva.mutateComb op g : M σ _) := by
  unfold BaumEva.mutateComb
  cases op with
  | inversion => exact bind (segmentPoints _ _) fun _ => pure _
  | movement =>
    refine bind (sample _ _) fun _ => ?_
    split
    · exact pure _
    · exact throwE _
  | swap =>
    refine bind (sample _ _) fun _ => ?_
    split
    · exact pure _
    · exact throwE _
  | shift => exact bind (randint _ _) fun _ => bind (randint _ _) fun _ => bind (choice _) fun _ => pure _
  | binString => exact pure _
  | categorical => exact pure _

theorem mutateBits (l : MutLvl) : ∀ g : List Val, Tame (BaumEva.mutateBits l g : M σ _) := by
  intro g
  induction g with
  | nil => exact pure _
  | cons x xs ih =>
    rw [BaumEva.mutateBits]
    exact bind (determinesMutation l) fun _ => bind ih fun _ => pure _

theorem mutateCatGene (p : CatGene) (x : Val) : Tame (BaumEva.mutateCatGene p x : M σ _) := by
  unfold BaumEva.mutateCatGene
  cases p with
  | values l => exact ite (choice _) (pure _)
  | range lo hi step => exact ite (throwE _) (ite (choice _) (pure _))
  | other => exact throwE _

theorem mutateCatAt (l : MutLvl) (ps : List CatGene) (x : Val) : Tame (BaumEva.mutateCatAt l ps x : M σ _) := by
  unfold BaumEva.mutateCatAt
  refine bind (determinesMutation l) fun _ => ite ?_ (pure _)
  cases ps with
  | nil => exact throwE _
  | cons p _ => exact mutateCatGene p x

theorem mutateCat (l : MutLvl) : ∀ (g : List Val) (ps : List CatGene), Tame (BaumEva.mutateCat l ps g : M σ _) := by
  intro g
  induction g with
  | nil => intro ps; rw [BaumEva.mutateCat]; exact pure _
  | cons x xs ih =>
    intro ps
    rw [BaumEva.mutateCat]
    exact bind (mutateCatAt _ _ _) fun _ => bind (ih _) fun _ => pure _

theorem mutateChild (op : MutOp) (r : Nat) : Tame (BaumEva.mutateChild op r : M σ _) := by
  unfold BaumEva.mutateChild
  refine getS (fun s => ?_) (fun s t => rfl)
  have comb : Tame (do
      let m ← BaumEva.determinesMutation (σ := σ) (s.mutLvl.effective s.ga.attrs.arith)
      if m then do
        let g ← BaumEva.genoOf r
        let g' ← BaumEva.mutateComb op g
        BaumEva.modInd r fun ind => { ind with genotype := some g' }
      else Pure.pure ()) :=
    bind (determinesMutation _) fun _ => ite (bind (genoOf _) fun _ => bind (mutateComb _ _) fun _ => modInd _ _) (pure _)
  cases op with
  | binString => exact bind (genoOf _) fun _ => bind (mutateBits _ _) fun _ => modInd _ _
  | categorical =>
    refine bind (genoOf _) fun _ => ?_
    split
    · exact bind (mutateCat _ _ _) fun _ => modInd _ _
    · exact throwE _
  | inversion => exact comb
  | movement => exact comb
  | swap => exact comb
  | shift => exact comb

theorem mutExec (op : MutOp) : Tame (BaumEva.mutExec op : M σ _) := by
  unfold BaumEva.mutExec
  refine getS (fun s => ?_) (fun s t => rfl)
  cases op with
  | binString =>
    show Tame (match s.ga.attrs.spec with | .binary _ _ => _ | _ => _)
    cases s.ga.attrs.spec with
    | binary _ _ =>
      exact bind (liftE _) fun _ => bind (modifyS (fun _ _ => rfl) (fun _ => rfl)) fun _ => forEach (mutateChild _) _
    | cat _ => exact throwE _
    | orderCat _ _ _ => exact throwE _
  | categorical => exact forEach (mutateChild _) _
  | inversion => exact forEach (mutateChild _) _
  | movement => exact forEach (mutateChild _) _
  | swap => exact forEach (mutateChild _) _
  | shift => exact forEach (mutateChild _) _

/-! ## the next generation -/

theorem isDuplicate (rs : List Nat) : Tame (BaumEva.isDuplicate rs : M σ _) := by
  unfold BaumEva.isDuplicate
  exact bind (mapEach genoOf _) fun _ => pure _

theorem withGeno (rs : List Nat) : Tame (BaumEva.withGeno rs : M σ _) := by
  unfold BaumEva.withGeno
  exact mapEach (fun _ => bind (genoOf _) fun _ => pure _) _

theorem addBest (k : Nat) : Tame (BaumEva.addBest k : M σ _) := by
  unfold BaumEva.addBest
  exact bind getGa fun _ => bind (isDuplicate _) fun _ =>
    ite (bind (withGeno _) fun _ => bind (sample _ _) fun _ => pure _) (pure _)

theorem resample (pool : List Nat) (k : Nat) : ∀ (n : Nat) (e : List Nat), Tame (BaumEva.resample pool k n e : M σ _) := by
  intro n
  induction n with
  | zero => intro e; exact pure _
  | succ n ih =>
    intro e
    rw [BaumEva.resample]
    exact bind (isDuplicate _) fun _ => ite (bind (sample _ _) fun _ => ih _) (pure _)

theorem addRandom (k : Nat) : Tame (BaumEva.addRandom k : M σ _) := by
  unfold BaumEva.addRandom
  refine bind getGa fun _ => bind (sample _ _) fun _ => bind (resample _ _ _ _) fun _ => ?_
  split
  · exact pure _
  · exact throwE _

theorem installPop (es : List Nat) : Tame (BaumEva.installPop es : M σ _) := modGa _

theorem chooseElites (tr : Transfer) (k : Nat) : Tame (BaumEva.chooseElites tr k : M σ _) := by
  unfold BaumEva.chooseElites
  cases tr with
  | best => exact addBest k
  | random => exact addRandom k

theorem sortByScore [LinearOrder σ] : Tame (BaumEva.sortByScore : M σ _) := by
  unfold BaumEva.sortByScore
  exact bind getGa fun _ => bind (mapEach (fun _ => bind (scoreOf _) fun _ => pure _) _) fun _ => modGa _

theorem ensureSorted [LinearOrder σ] : Tame (BaumEva.ensureSorted : M σ _) := by
  unfold BaumEva.ensureSorted
  exact bind getGa fun _ => ite (pure _) sortByScore

theorem newGenExec [LinearOrder σ] (tr : Transfer) : Tame (BaumEva.newGenExec tr : M σ _) := by
  unfold BaumEva.newGenExec
  refine bind ensureSorted fun _ => bind getGa fun _ => ite (bind (chooseElites _ _) fun _ => installPop _) ?_
  split
  · exact installPop _
  · exact throwE _

/-! ## evaluation and bookkeeping -/

theorem getPhenotype : Tame (BaumEva.getPhenotype : M σ _) := by
  unfold BaumEva.getPhenotype
  refine bind getGa fun _ => forEach (fun _ => bind (getInd _) fun _ => ?_) _
  split
  · exact pure _
  · exact bind (genoOf _) fun _ => bind (liftE _) fun _ => modInd _ _

theorem swapPop : Tame (BaumEva.swapPop : M σ _) := by
  unfold BaumEva.swapPop
  exact bind getGa fun _ => forEach (fun _ => modInd _ _) _

theorem callObj (f : List Val → Except PyErr Ret) (g : List Val) : Tame (BaumEva.callObj f g : M σ _) := by
  unfold BaumEva.callObj
  exact bind (modifyS (fun _ _ => rfl) (fun _ => rfl)) fun _ => liftE _

theorem calcObj (fit : Fit σ) (g : List Val) : Tame (BaumEva.calcObj fit g) := by
  unfold BaumEva.calcObj
  exact bind (callObj _ _) fun _ => liftE _

theorem feasLoop (r : Nat) : ∀ (cs : List Cond) (vs : List ℚ), Tame (BaumEva.feasLoop r cs vs : M σ _)
  | _, [] => by rw [BaumEva.feasLoop]; exact pure _
  | [], _ :: _ => throwE _
  | c :: cs, v :: vs => by
    rw [BaumEva.feasLoop]
    exact bind (by unfold BaumEva.markFeas; exact ite (pure _) (modInd _ _)) fun _ => feasLoop r cs vs

theorem evalCond (fit : Fit σ) (r : Nat) (vs : List ℚ) : Tame (BaumEva.evalCond fit r vs) := by
  unfold BaumEva.evalCond
  refine bind (liftE _) fun _ => bind (modInd _ _) fun _ => bind (feasLoop _ _ _) fun _ => getS (fun s => ?_) (fun s t => rfl)
  split
  · exact throwE _
  · exact liftE _

theorem evalValues (fit : Fit σ) (r : Nat) (v : Option Ret) : Tame (BaumEva.evalValues fit r v) := by
  unfold BaumEva.evalValues
  refine ite ?_ (bind (modInd _ _) fun _ => pure _)
  split
  · exact evalCond _ _ _
  · exact throwE _

theorem evalInd (fit : Fit σ) (r : Nat) : Tame (BaumEva.evalInd fit r) := by
  unfold BaumEva.evalInd
  refine bind (getInd _) fun _ => ?_
  split
  · exact pure _
  · exact bind (genoOf _) fun _ => bind (calcObj _ _) fun _ => bind (evalValues _ _ _) fun _ => bind (getInd _) fun _ =>
      bind (liftE _) fun _ => modInd _ _

theorem baseFitness (fit : Fit σ) : Tame (baseFitnessExec fit) := by
  unfold baseFitnessExec
  exact bind getGa fun _ => ite (bind getPhenotype fun _ => bind swapPop fun _ => bind (forEach (evalInd _) _) fun _ =>
    swapPop) (forEach (evalInd _) _)

theorem recordScores : Tame (BaumEva.recordScores : M σ _) := by
  unfold BaumEva.recordScores
  refine bind getGa fun _ => ?_
  split
  · exact bind (scoreOf _) fun _ => bind (scoreOf _) fun _ => bind (scoreOf _) fun _ => modGa _
  · exact throwE _

theorem replaceBest (r : Nat) : Tame (BaumEva.replaceBest r : M σ _) := by
  unfold BaumEva.replaceBest
  exact bind (getInd _) fun _ => bind (alloc _) fun _ => modGa _

theorem decideBest [LinearOrder σ] (r : Nat) : Tame (BaumEva.decideBest r : M σ _) := by
  unfold BaumEva.decideBest
  refine bind getGa fun _ => ?_
  split
  · exact replaceBest _
  · exact bind (scoreOf _) fun _ => bind (scoreOf _) fun _ => ite (bind (replaceBest _) fun _ => modGa _) (modGa _)
  · exact throwE _

theorem gaUpdate [LinearOrder σ] : Tame (BaumEva.gaUpdate : M σ _) := by
  unfold BaumEva.gaUpdate snapshot
  refine bind ensureSorted fun _ => bind recordScores fun _ => bind getGa fun _ => ?_
  split
  · exact throwE _
  · exact bind (decideBest _) fun _ => bind (modGa _) fun _ => modifyS (fun _ _ => rfl) (fun _ => rfl)

/-! ## the initial population -/

theorem addDict (g : List Val) : Tame (BaumEva.addDict g : M σ _) := by
  unfold BaumEva.addDict
  exact bind (alloc _) fun _ => modGa _

theorem resetIdxFrom : ∀ (l : List Nat) (i : Nat), Tame (BaumEva.resetIdxFrom i l : M σ _) := by
  intro l
  induction l with
  | nil => intro i; exact pure _
  | cons r rs ih => intro i; exact bind (modInd _ _) fun _ => ih _

theorem resetIdx : Tame (BaumEva.resetIdx : M σ _) := by
  unfold BaumEva.resetIdx
  exact bind getGa fun _ => resetIdxFrom _ _

theorem generate (at_ : Attrs) : Tame (BaumEva.generate at_ : M σ _) := by
  unfold BaumEva.generate
  split
  · refine mapEach (fun g => ?_) _
    cases g with
    | range a b c => exact bind (randrange _ _ _) fun _ => pure _
    | values l => exact choice l
    | other => exact throwE _
  · exact bind (sample _ _) fun _ => pure _
  · exact bind (mapEach (fun p => bind (randint _ _) fun _ => liftE _) _) fun _ => pure _

theorem prepare : Tame (BaumEva.prepare : M σ _) := by
  unfold BaumEva.prepare
  refine bind getGa fun _ => ?_
  split
  · exact bind (liftE _) fun _ => modGa _
  · exact pure _

theorem fill (input : Option (List (List Val))) : Tame (BaumEva.fill input : M σ _) := by
  unfold BaumEva.fill
  refine bind prepare fun _ => bind getGa fun ga => bind (forEach (fun _ => bind (liftE _) fun _ => addDict _) _) fun _ =>
    bind (forEach (fun _ => bind (generate _) fun _ => addDict _) _) fun _ => ?_
  split
  · exact bind getPhenotype fun _ => resetIdx
  · exact resetIdx

theorem setParams (spec : PopSpec) (n : Nat) (input : Option (List (List Val))) : Tame (BaumEva.setParams spec n input : M σ _) := by
  unfold BaumEva.setParams
  exact ite (throwE _) (modGa _)

theorem newFitness (t : Task σ) : Tame (BaumEva.newFitness t) := by
  unfold BaumEva.newFitness
  refine getS (fun s => ?_) (fun s t => rfl)
  simp only
  split
  · exact pure _
  · exact ite (pure _) (ite (pure _) (ite (bind (modifyS (fun _ _ => rfl) (fun _ => rfl)) fun _ => pure _) (throwE _)))

theorem newMutation (op : MutOp) (l : MutLvl) : Tame (BaumEva.newMutation op l : M σ _) := by
  unfold BaumEva.newMutation
  exact bind (liftE _) fun _ => modifyS (fun _ _ => rfl) (fun _ => rfl)

theorem printBest : Tame (BaumEva.printBest : M σ _) := by
  unfold BaumEva.printBest
  refine getS (fun s => ?_) (fun s t => rfl)
  split
  · exact throwE _
  · exact pure _
  · exact throwE _
  · exact ite (pure _) (throwE _)

end Tame
end BaumEva
