import Verif.Spec.Chance
import Verif.Proofs.Exact
import Mathlib.Algebra.BigOperators.Group.List.Basic
import Mathlib.Algebra.Order.BigOperators.Group.List
import Mathlib.Algebra.BigOperators.Ring.List
import Mathlib.Data.Nat.Count
/-!
# Chances
-/
namespace BaumEva
open Spec
variable {σ α β : Type}

/-! ## counting lists -/

theorem mem_tapes {B : Nat} : ∀ {L : Nat} {t : List Nat}, t ∈ tapes B L ↔ t.length = L ∧ ∀ x ∈ t, x < B := by
  intro L
  induction L with
  | zero =>
    intro t
    simp only [tapes, List.mem_singleton, List.length_eq_zero_iff]
    constructor
    · rintro rfl; simp
    · exact fun h => h.1
  | succ L ih =>
    intro t
    simp only [tapes, List.mem_flatMap, List.mem_range, List.mem_map]
    constructor
    · rintro ⟨x, hx, t, ht, rfl⟩
      obtain ⟨a, b⟩ := ih.mp ht
      refine ⟨by simp [a], ?_⟩
      simp only [List.mem_cons, forall_eq_or_imp]
      exact ⟨hx, b⟩
    · rintro ⟨a, b⟩
      cases t with
      | nil => simp at a
      | cons x t =>
        simp only [List.mem_cons, forall_eq_or_imp] at b
        exact ⟨x, b.1, t, ih.mpr ⟨by simpa using a, b.2⟩, rfl⟩

theorem nodup_tapes {B : Nat} : ∀ {L : Nat}, (tapes B L).Nodup := by
  intro L
  induction L with
  | zero => simp [tapes]
  | succ L ih =>
    rw [tapes, List.nodup_flatMap]
    refine ⟨fun x _ => ih.map (fun a b h => (List.cons.inj h).2), ?_⟩
    refine List.nodup_range.imp ?_
    intro x y hxy t h1 h2
    simp only [List.mem_map] at h1 h2
    obtain ⟨_, _, rfl⟩ := h1
    obtain ⟨_, _, e⟩ := h2
    exact hxy (List.cons.inj e).1.symm

theorem length_tapes {B : Nat} : ∀ {L : Nat}, (tapes B L).length = B ^ L := by
  intro L
  induction L with
  | zero => simp [tapes]
  | succ L ih => simp [tapes, List.length_flatMap, ih, Nat.pow_succ, Nat.mul_comm]

/-! ## laws of chances -/

section
variable {B : Nat} {p q : List Nat → Prop}

theorem chance_nonneg {L : Nat} : 0 ≤ chance B L p := by unfold chance; positivity

theorem chance_mono {L : Nat} (h : ∀ t, p t → q t) : chance B L p ≤ chance B L q := by
  unfold chance
  refine div_le_div_of_nonneg_right ?_ (by positivity)
  norm_cast
  exact List.countP_mono_left fun t _ ht => by simpa using h t (by simpa using ht)

theorem chance_one {L : Nat} (hB : 0 < B) (h : ∀ t, p t) : chance B L p = 1 := by
  unfold chance
  rw [List.countP_eq_length.mpr (fun t _ => by simpa using h t), length_tapes]
  have : (0 : ℚ) < B := by exact_mod_cast hB
  push_cast
  exact div_self (by positivity)

theorem chance_le_one {L : Nat} (hB : 0 < B) : chance B L p ≤ 1 := by
  rw [← chance_one (p := fun _ => True) (L := L) hB fun _ => trivial]
  exact chance_mono fun _ _ => trivial

theorem chance_zero (h : ¬ p []) : chance B 0 p = 0 := by
  unfold chance
  simp [tapes, h]

theorem chance_none {L : Nat} (h : ∀ t, ¬ p t) : chance B L p = 0 := by
  unfold chance
  rw [List.countP_eq_zero.mpr (fun t _ => by simpa using h t)]
  simp

open Classical in
theorem chance_succ {L : Nat} : chance B (L + 1) p = ((List.range B).map fun x => chance B L fun t => p (x :: t)).sum / B := by
  unfold chance
  rw [tapes, List.countP_flatMap]
  have : ((List.range B).map fun x => (((tapes B L).countP fun t => decide (p (x :: t)) : ℕ) : ℚ) / (B : ℚ) ^ L) =
      (((List.range B).map fun x => ((tapes B L).countP fun t => decide (p (x :: t)))).map (Nat.cast : ℕ → ℚ)).map (· / (B : ℚ) ^ L) := by
    simp
  rw [this]
  have hs : ∀ (l : List ℚ) (d : ℚ), (l.map (· / d)).sum = l.sum / d := by
    intro l d
    induction l with
    | nil => simp
    | cons a l ih => simp [ih, add_div]
  rw [hs, ← Nat.cast_list_sum, pow_succ, div_div]
  simp [List.countP_map, Function.comp_def]

end

/-! ## experiments that use up a part of the draws -/

/-- An experiment: with the draws `t` it ends in `b` and leaves the draws `v`. -/
structure Experiment (G : List Nat → β → List Nat → Prop) : Prop where
  unique : ∀ {t b v b' v'}, G t b v → G t b' v' → b = b' ∧ v = v'
  prefixed : ∀ {t b v}, G t b v → ∃ pre, t = pre ++ v ∧ ∀ w, G (pre ++ w) b w

theorem Experiment.only {G : List Nat → β → List Nat → Prop} (h : Experiment G) (P : β → Prop) :
    Experiment fun t b v => G t b v ∧ P b :=
  ⟨fun a b => h.unique a.1 b.1, fun a => by
    obtain ⟨pre, e, k⟩ := h.prefixed a.1
    exact ⟨pre, e, fun w => ⟨k w, a.2⟩⟩⟩

theorem Experiment.done {G : List Nat → β → List Nat → Prop} (h : Experiment G) {b : β} {v : List Nat} (h0 : G [] b v) :
    ∀ t, G t b t := by
  obtain ⟨pre, e, k⟩ := h.prefixed h0
  obtain ⟨rfl, rfl⟩ := List.append_eq_nil_iff.mp e.symm
  exact fun t => k t

theorem Experiment.cons {G : List Nat → β → List Nat → Prop} (h : Experiment G) (h0 : ∀ b v, ¬ G [] b v) (x : Nat) :
    Experiment fun t => G (x :: t) := by
  refine ⟨fun a b => h.unique a b, fun a => ?_⟩
  obtain ⟨pre, e, k⟩ := h.prefixed a
  cases pre with
  | nil => exact absurd (k []) (h0 _ _)
  | cons y pre =>
    have e2 := List.cons.inj (e.trans List.cons_append)
    obtain ⟨rfl, e3⟩ := e2
    exact ⟨pre, e3, k⟩

theorem sum_map_le {l : List Nat} {f g : Nat → ℚ} (h : ∀ x ∈ l, f x ≤ g x) : (l.map f).sum ≤ (l.map g).sum := by
  induction l with
  | nil => simp
  | cons a l ih =>
    simp only [List.map_cons, List.sum_cons]
    have := h a List.mem_cons_self
    have := ih fun x hx => h x (List.mem_cons_of_mem _ hx)
    linarith

theorem sum_map_mul {l : List Nat} {c : ℚ} {f : Nat → ℚ} : (l.map fun x => c * f x).sum = c * (l.map f).sum := by
  induction l with
  | nil => simp
  | cons a l ih => simp [ih, mul_add]

/-- If, wherever an experiment ends, the chance of what comes next is at most `c`, then the chance that it ends and this
comes next is at most `c` times the chance that it ends. -/
theorem chance_bind {B : Nat} (hB : 0 < B) {ψ : β → List Nat → Prop} {c : ℚ} : ∀ {L : Nat} {G : List Nat → β → List Nat → Prop},
    Experiment G → (∀ t b v, G t b v → ∀ L, chance B L (ψ b) ≤ c) →
    chance B L (fun t => ∃ b v, G t b v ∧ ψ b v) ≤ c * chance B L (fun t => ∃ b v, G t b v) := by
  intro L
  induction L with
  | zero =>
    intro G hG h
    by_cases h0 : ∃ b v, G [] b v
    · obtain ⟨b, v, h0⟩ := h0
      have hd := hG.done h0
      rw [chance_one (p := fun t => ∃ b v, G t b v) hB fun t => ⟨b, t, hd t⟩, mul_one]
      refine le_trans (chance_mono (q := ψ b) ?_) (h _ _ _ h0 0)
      rintro t ⟨b', v', a1, a2⟩
      obtain ⟨rfl, rfl⟩ := hG.unique (hd t) a1
      exact a2
    · rw [chance_zero (by rintro ⟨b, v, a, _⟩; exact h0 ⟨b, v, a⟩), chance_zero h0, mul_zero]
  | succ L ih =>
    intro G hG h
    by_cases h0 : ∃ b v, G [] b v
    · obtain ⟨b, v, h0⟩ := h0
      have hd := hG.done h0
      rw [chance_one (p := fun t => ∃ b v, G t b v) hB fun t => ⟨b, t, hd t⟩, mul_one]
      refine le_trans (chance_mono (q := ψ b) ?_) (h _ _ _ h0 (L + 1))
      rintro t ⟨b', v', a1, a2⟩
      obtain ⟨rfl, rfl⟩ := hG.unique (hd t) a1
      exact a2
    · have h0' : ∀ b v, ¬ G [] b v := fun b v a => h0 ⟨b, v, a⟩
      rw [chance_succ, chance_succ, ← mul_div_assoc, ← sum_map_mul]
      refine div_le_div_of_nonneg_right (sum_map_le fun x _ => ?_) (by positivity)
      exact ih (hG.cons h0' x) fun t b v => h _ b v

/-! ## residues -/

/-- The draws `t` have the residues `r` modulo `m` for the pairs `(m, r)` of `R`. -/
def Fits (R : List (Nat × Nat)) (t : List Nat) : Prop := List.Forall₂ (fun mr x => x % mr.1 = mr.2) R t

/-- Residues that can be met by numbers below `B`, each with its share of these. -/
def Possible (B : Nat) (R : List (Nat × Nat)) : Prop := ∀ mr ∈ R, mr.2 < mr.1 ∧ mr.1 ∣ B

/-- The chance to meet the residues. -/
def odds (R : List (Nat × Nat)) : ℚ := (R.map fun mr => 1 / (mr.1 : ℚ)).prod

theorem odds_cons (mr : Nat × Nat) (R : List (Nat × Nat)) : odds (mr :: R) = 1 / mr.1 * odds R := by simp [odds]

theorem odds_nonneg : ∀ R : List (Nat × Nat), 0 ≤ odds R
  | [] => by simp [odds]
  | mr :: R => by
    rw [odds_cons]
    exact mul_nonneg (by positivity) (odds_nonneg R)

theorem odds_le_one {B : Nat} : ∀ {R : List (Nat × Nat)}, Possible B R → odds R ≤ 1
  | [], _ => by simp [odds]
  | mr :: R, h => by
    rw [odds_cons]
    have h1 := (h mr List.mem_cons_self).1
    refine mul_le_one₀ ?_ (odds_nonneg R) (odds_le_one fun x hx => h x (List.mem_cons_of_mem _ hx))
    rw [div_le_one (by exact_mod_cast (by omega : 0 < mr.1))]
    exact_mod_cast (by omega : 1 ≤ mr.1)

theorem odds_append (R S : List (Nat × Nat)) : odds (R ++ S) = odds R * odds S := by
  unfold odds; simp

theorem Fits.exist {R : List (Nat × Nat)} {B : Nat} (h : Possible B R) : ∃ t, Fits R t := by
  refine ⟨R.map Prod.snd, ?_⟩
  unfold Fits
  rw [List.forall₂_map_right_iff, List.forall₂_same]
  exact fun mr hm => Nat.mod_eq_of_lt (h mr hm).1

theorem countP_mod {m r : Nat} (h : r < m) : ∀ k : Nat, (List.range (m * k)).countP (fun x => x % m = r) = k := by
  intro k
  induction k with
  | zero => simp
  | succ k ih =>
    rw [Nat.mul_succ, List.range_add, List.countP_append, ih, List.countP_map]
    have : (List.range m).countP ((fun x => decide (x % m = r)) ∘ fun x => m * k + x) = (List.range m).countP fun x => x == r := by
      refine List.countP_congr fun x hx => ?_
      rw [List.mem_range] at hx
      simp [Nat.mod_eq_of_lt hx]
    rw [this]
    have hc := List.count_eq_one_of_mem List.nodup_range (List.mem_range.mpr h)
    rw [List.count] at hc
    rw [hc]

theorem sum_ite {l : List Nat} {P : Nat → Prop} [DecidablePred P] {a b : ℚ} :
    (l.map fun x => if P x then a else b).sum = b * l.length + (a - b) * (l.countP fun x => P x : ℕ) := by
  induction l with
  | nil => simp
  | cons x l ih =>
    simp only [List.map_cons, List.sum_cons, ih, List.length_cons, List.countP_cons]
    by_cases h : P x
    · simp only [h, if_true, decide_true]; push_cast; ring
    · simp only [h, if_false, decide_false]; push_cast; simp; ring

/-- An experiment that does not end when its draws meet given residues ends with at most the remaining chance. -/
theorem chance_miss {B : Nat} (hB : 0 < B) : ∀ {L : Nat} {R : List (Nat × Nat)} {G : List Nat → β → List Nat → Prop},
    Experiment G → Possible B R → (∀ t u b v, Fits R t → ¬ G (t ++ u) b v) →
    chance B L (fun t => ∃ b v, G t b v) ≤ 1 - odds R := by
  intro L
  induction L with
  | zero =>
    intro R G hG hR h
    have : ¬ ∃ b v, G [] b v := by
      rintro ⟨b, v, h0⟩
      obtain ⟨t, ht⟩ := Fits.exist hR
      exact h t [] b _ ht (hG.done h0 _)
    rw [chance_zero this]
    have := odds_le_one hR
    linarith
  | succ L ih =>
    intro R G hG hR h
    have h0 : ∀ b v, ¬ G [] b v := by
      intro b v h0
      obtain ⟨t, ht⟩ := Fits.exist hR
      exact h t [] b _ ht (hG.done h0 _)
    cases R with
    | nil =>
      rw [chance_none]
      · simp [odds]
      · rintro t ⟨b, v, hb⟩
        exact h [] t b v .nil hb
    | cons mr R =>
      obtain ⟨m, r⟩ := mr
      obtain ⟨hr, k, rfl⟩ := hR (m, r) List.mem_cons_self
      have hle : ∀ x ∈ List.range (m * k), chance (m * k) L (fun t => ∃ b v, G (x :: t) b v) ≤ if x % m = r then 1 - odds R else 1 := by
        intro x _
        split
        · rename_i hx
          exact ih (hG.cons h0 x) (fun mr hm => hR mr (List.mem_cons_of_mem _ hm)) fun t u b v ht =>
            h (x :: t) u b v (.cons hx ht)
        · exact chance_le_one hB
      rw [chance_succ]
      have hsum := sum_map_le hle
      rw [sum_ite, List.length_range, countP_mod hr] at hsum
      have hB' : (0 : ℚ) < (m * k : ℕ) := by exact_mod_cast hB
      have hm : (0 : ℚ) < m := by exact_mod_cast (by omega : 0 < m)
      rw [div_le_iff₀ hB']
      refine hsum.trans (le_of_eq ?_)
      rw [odds_cons]
      push_cast
      field_simp
      ring

/-! ## programs as experiments -/

/-- Running `m` from `s` with other draws. -/
def EndsIn (m : M σ α) (s : St σ) (t : List Nat) (b : α × St σ) (v : List Nat) : Prop :=
  b.2.tape = [] ∧ m { s with tape := t } = (.ok b.1, { b.2 with tape := v })

theorem outcome_experiment {m : M σ α} (h : Trim m) {s : St σ} (hn : s.seed = none) : Experiment (EndsIn m s) := by
  constructor
  · rintro t ⟨a, b⟩ v ⟨a', b'⟩ v' ⟨h1, h2⟩ ⟨h1', h2'⟩
    rw [h2] at h2'
    simp only [Prod.mk.injEq, Except.ok.injEq] at h2'
    obtain ⟨rfl, e⟩ := h2'
    simp only at h1 h1' e
    have e1 : v = v' := congrArg St.tape e
    have e2 : b = b' := by
      have := congrArg (fun z : St σ => { z with tape := [] }) e
      simp only at this
      rw [← h1] at this
      have h3 : b' = { b' with tape := b.tape } := by rw [h1, ← h1']
      rw [h3]
      exact this
    exact ⟨by rw [e2], e1⟩
  · rintro t ⟨a, b⟩ v ⟨h1, h2⟩
    obtain ⟨pre, e, k⟩ := h { s with tape := t } { b with tape := v } a hn h2
    exact ⟨pre, e, fun w => ⟨h1, k w⟩⟩

theorem EndsIn.of_run {m : M σ α} {s s' : St σ} {a : α} {t : List Nat} (h : m { s with tape := t } = (.ok a, s')) :
    EndsIn m s t (a, { s' with tape := [] }) s'.tape := ⟨rfl, h⟩

end BaumEva
