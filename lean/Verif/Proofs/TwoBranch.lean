import Verif.Proofs.Sure
/-!
# Chances of two branches

An experiment that starts with given draws with a small chance, and what follows it.
-/
namespace BaumEva
open Spec
variable {β : Type}

theorem sum_spike {B x : Nat} (hx : x < B) (a : ℚ) : ((List.range B).map fun y => if y = x then a else 1).sum = B - 1 + a := by
  induction B with
  | zero => omega
  | succ B ih =>
    rw [List.range_succ, List.map_append, List.sum_append]
    rcases Nat.lt_or_ge x B with h | h
    · rw [ih h]
      simp only [List.map_cons, List.map_nil, List.sum_cons, List.sum_nil]
      rw [if_neg (by omega)]
      push_cast
      ring
    · obtain rfl : x = B := by omega
      have : (List.range x).map (fun y => if y = x then a else 1) = (List.range x).map fun _ => (1 : ℚ) := by
        apply List.map_congr_left
        intro y hy
        rw [List.mem_range] at hy
        rw [if_neg (by omega)]
      rw [this]
      simp

/-- An experiment that has no outcome after the draws `w`. -/
theorem chance_word {B : Nat} (hB : 0 < B) : ∀ {L : Nat} {w : List Nat} {G : List Nat → β → List Nat → Prop},
    Experiment G → (∀ x ∈ w, x < B) → (∀ u b v, ¬ G (w ++ u) b v) →
    chance B L (fun t => ∃ b v, G t b v) ≤ 1 - (1 / (B : ℚ)) ^ w.length := by
  have hB1 : (1 : ℚ) ≤ B := by exact_mod_cast hB
  have hq : 1 / (B : ℚ) ≤ 1 := by rw [div_le_one (by linarith)]; exact hB1
  intro L
  induction L with
  | zero =>
    intro w G hG hw h
    have : ¬ ∃ b v, G [] b v := by
      rintro ⟨b, v, h0⟩
      have := hG.done h0 (w ++ [])
      exact h [] b _ this
    rw [chance_zero this]
    have := pow_le_one₀ (n := w.length) (by positivity) hq
    linarith
  | succ L ih =>
    intro w G hG hw h
    have h0 : ∀ b v, ¬ G [] b v := by
      intro b v h0
      exact h [] b _ (hG.done h0 (w ++ []))
    cases w with
    | nil =>
      rw [chance_none]
      · simp
      · rintro t ⟨b, v, hb⟩
        exact h t b v hb
    | cons x w =>
      have hle : ∀ y ∈ List.range B, chance B L (fun t => ∃ b v, G (y :: t) b v) ≤ if y = x then 1 - (1 / (B : ℚ)) ^ w.length else 1 := by
        intro y _
        split
        · rename_i hy
          subst hy
          exact ih (hG.cons h0 y) (fun z hz => hw z (List.mem_cons_of_mem _ hz)) fun u b v => h u b v
        · exact chance_le_one hB
      rw [chance_succ]
      have hsum := sum_map_le hle
      rw [sum_spike (hw x List.mem_cons_self)] at hsum
      have hB' : (0 : ℚ) < B := by linarith
      rw [div_le_iff₀ hB', List.length_cons, pow_succ]
      refine hsum.trans (le_of_eq ?_)
      field_simp
      ring

/-- Events that exclude each other. -/
theorem chance_disjoint {B L : Nat} (hB : 0 < B) {p q : List Nat → Prop} (h : ∀ t, p t → ¬ q t) : chance B L p + chance B L q ≤ 1 := by
  rw [← chance_compl (L := L) (p := p) hB]
  have : chance B L q ≤ chance B L fun t => ¬ p t := chance_mono fun t hq hp => h t hp hq
  linarith

theorem chance_union {B L : Nat} {p q : List Nat → Prop} : chance B L (fun t => p t ∨ q t) ≤ chance B L p + chance B L q := by
  unfold chance
  rw [← add_div]
  refine div_le_div_of_nonneg_right ?_ (by positivity)
  norm_cast
  induction tapes B L with
  | nil => simp
  | cons t l ih =>
    simp only [List.countP_cons] at ih ⊢
    by_cases hp : p t <;> by_cases hq : q t <;> simp only [hp, hq] <;> simp <;> omega

/-- What follows an experiment has the chance `a` if the experiment hits, and `c` in any case; the draws `w` hit. -/
theorem chance_branch {B : Nat} (hB : 0 < B) {ψ : β → List Nat → Prop} {a c : ℚ} (ha : 0 ≤ a) (hac : a ≤ c) {L : Nat}
    {G : List Nat → β → List Nat → Prop} (hG : Experiment G) {H : β → Prop}
    (hhit : ∀ t b v, G t b v → H b → ∀ L, chance B L (ψ b) ≤ a) (hall : ∀ t b v, G t b v → ∀ L, chance B L (ψ b) ≤ c)
    {w : List Nat} (hw : ∀ x ∈ w, x < B) (hword : ∀ u b v, G (w ++ u) b v → H b) :
    chance B L (fun t => ∃ b v, G t b v ∧ ψ b v) ≤ c - (1 / (B : ℚ)) ^ w.length * (c - a) := by
  have h1 := chance_bind hB (L := L) (hG.only H) (ψ := ψ) (c := a) fun t b v h => hhit t b v h.1 h.2
  have h2 := chance_bind hB (L := L) (hG.only fun b => ¬ H b) (ψ := ψ) (c := c) fun t b v h => hall t b v h.1
  have h3 := chance_word hB (L := L) (hG.only fun b => ¬ H b) hw fun u b v h => h.2 (hword u b v h.1)
  have h4 := chance_disjoint hB (L := L) (p := fun t => ∃ b v, G t b v ∧ H b) (q := fun t => ∃ b v, G t b v ∧ ¬ H b) (by
    rintro t ⟨b, v, e1, e2⟩ ⟨b', v', e3, e4⟩
    rw [(hG.unique e1 e3).1] at e2
    exact e4 e2)
  have h5 : chance B L (fun t => ∃ b v, G t b v ∧ ψ b v) ≤
      chance B L (fun t => ∃ b v, (G t b v ∧ H b) ∧ ψ b v) + chance B L (fun t => ∃ b v, (G t b v ∧ ¬ H b) ∧ ψ b v) := by
    refine le_trans (chance_mono ?_) chance_union
    rintro t ⟨b, v, e1, e2⟩
    by_cases hb : H b
    · exact .inl ⟨b, v, ⟨e1, hb⟩, e2⟩
    · exact .inr ⟨b, v, ⟨e1, hb⟩, e2⟩
  set x := chance B L (fun t => ∃ b v, G t b v ∧ H b)
  set y := chance B L (fun t => ∃ b v, G t b v ∧ ¬ H b)
  have h6 : a * x ≤ a * (1 - y) := mul_le_mul_of_nonneg_left (by linarith) ha
  have h7 : (c - a) * y ≤ (c - a) * (1 - (1 / (B : ℚ)) ^ w.length) := mul_le_mul_of_nonneg_left h3 (by linarith)
  nlinarith

end BaumEva
