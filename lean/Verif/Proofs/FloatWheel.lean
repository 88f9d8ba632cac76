import Verif.Proofs.Float
import Verif.Proofs.Roulette
import Mathlib.Algebra.Order.BigOperators.Group.List
/-!
# Lemmas about the roulette wheel in machine arithmetic
-/
namespace BaumEva
open Spec

/-! ## The nearest entry -/

theorem argminLoopR_spec (rnd : ℚ → ℚ) (r : ℚ) : ∀ (xs : List ℚ) (i best : Nat) (d : ℚ) (sel : List ℚ),
    (∀ k, xs[k]? = sel[i + k]?) → sel.length = i + xs.length → best < i →
    (∃ y, sel[best]? = some y ∧ |rnd (y - r)| = d) →
    (∀ j, j < i → ∀ y, sel[j]? = some y → d ≤ |rnd (y - r)|) →
    ∃ y, sel[argminLoopR rnd r xs i best d]? = some y ∧
      ∀ (j : Nat) (z : ℚ), sel[j]? = some z → |rnd (y - r)| ≤ |rnd (z - r)| := by
  intro xs
  induction xs with
  | nil =>
    intro i best d sel hx hl hb ⟨y, hy, hd⟩ hmin
    refine ⟨y, hy, ?_⟩
    intro j z hz
    have hj : j < sel.length := (List.getElem?_eq_some_iff.mp hz).1
    rw [hd]
    exact hmin j (by simp at hl; omega) z hz
  | cons x xs ih =>
    intro i best d sel hx hl hb hd hmin
    have hxi : sel[i]? = some x := by have := hx 0; simpa using this.symm
    simp only [argminLoopR]
    split
    · rename_i hlt
      refine ih (i + 1) i _ sel (fun k => ?_) (by simp at hl; omega) (by omega) ⟨x, hxi, rfl⟩ ?_
      · have := hx (k + 1)
        simp only [List.getElem?_cons_succ] at this
        rw [this]; congr 1; omega
      · intro j hj y hy
        rcases Nat.lt_succ_iff_lt_or_eq.mp hj with h | h
        · exact le_trans hlt.le (hmin j h y hy)
        · subst h; rw [hxi] at hy; injection hy with hy; rw [hy]
    · rename_i hlt
      push Not at hlt
      refine ih (i + 1) best d sel (fun k => ?_) (by simp at hl; omega) (by omega) hd ?_
      · have := hx (k + 1)
        simp only [List.getElem?_cons_succ] at this
        rw [this]; congr 1; omega
      · intro j hj y hy
        rcases Nat.lt_succ_iff_lt_or_eq.mp hj with h | h
        · exact hmin j h y hy
        · subst h; rw [hxi] at hy; injection hy with hy; rw [← hy]; exact hlt

theorem argminDistR_spec (rnd : ℚ → ℚ) {sel : List ℚ} (r : ℚ) (h : sel ≠ []) :
    ∃ y, sel[argminDistR rnd sel r]? = some y ∧
      ∀ (j : Nat) (z : ℚ), sel[j]? = some z → |rnd (y - r)| ≤ |rnd (z - r)| := by
  cases sel with
  | nil => exact absurd rfl h
  | cons x xs =>
    unfold argminDistR
    refine argminLoopR_spec rnd r xs 1 0 _ (x :: xs) (fun k => ?_) (by simp; omega) (by omega) ⟨x, by simp, rfl⟩ ?_
    · rw [Nat.add_comm]; simp
    · intro j hj y hy
      have : j = 0 := by omega
      subst this
      simp at hy
      rw [hy]

/-- The wheel turns its random number into the position of the nearest entry that is not above it. -/
theorem rouletteIndexR_cases (rnd : ℚ → ℚ) {sel : List ℚ} (r : ℚ) (h : sel ≠ []) :
    ∃ (k : Nat) (y : ℚ), sel[k]? = some y ∧
      (∀ (j : Nat) (z : ℚ), sel[j]? = some z → |rnd (y - r)| ≤ |rnd (z - r)|) ∧
      ((y ≤ r ∧ rouletteIndexR rnd sel r = k) ∨ (r < y ∧ rouletteIndexR rnd sel r = (k : Int) - 1)) := by
  obtain ⟨y, h1, h2⟩ := argminDistR_spec rnd r h
  refine ⟨_, y, h1, h2, ?_⟩
  unfold rouletteIndexR
  simp only
  have : sel.getD (argminDistR rnd sel r) 0 = y := by rw [List.getD_eq_getElem?_getD, h1]; rfl
  rw [this]
  by_cases hy : y ≤ r
  · left; rw [if_pos hy]; exact ⟨hy, rfl⟩
  · right; rw [if_neg hy]; exact ⟨not_le.mp hy, rfl⟩

/-- A wheel whose entries lie at least four unit roundoffs apart and not above 2 answers `i` exactly for the random
numbers from entry `i` up to entry `i + 1`, and the number of entries less one from the last entry on. -/
theorem rouletteIndexR_window {rnd : ℚ → ℚ} (R : Rounding rnd) {sel : List ℚ} {n : Nat} (hl : sel.length = n + 1)
    (h0 : sel[0]? = some 0) (htop : ∀ x ∈ sel, x ≤ 2)
    (hgap : ∀ (i j : Nat) (a b : ℚ), i < j → sel[i]? = some a → sel[j]? = some b → a + 4 * ulp ≤ b)
    {r : ℚ} (hr0 : 0 ≤ r) (hr1 : r < 1) {i : Nat} {a : ℚ} (hi : sel[i]? = some a) (ha : a ≤ r)
    (hb : ∀ b, sel[i + 1]? = some b → r < b) : rouletteIndexR rnd sel r = i := by
  obtain ⟨k, y, hk, hmin, hc⟩ := rouletteIndexR_cases rnd (sel := sel) r (by intro hc; rw [hc] at hl; simp at hl)
  have hu := ulp_pos
  have hin : i < n + 1 := by rw [← hl]; exact (List.getElem?_eq_some_iff.mp hi).1
  have hkn : k < n + 1 := by rw [← hl]; exact (List.getElem?_eq_some_iff.mp hk).1
  have hyy : 0 ≤ y := by
    rcases Nat.eq_zero_or_pos k with h | h
    · subst h; rw [h0] at hk; injection hk with hk; rw [hk]
    · have := hgap 0 k 0 y h h0 hk; linarith
  have haa : 0 ≤ a := by
    rcases Nat.eq_zero_or_pos i with h | h
    · subst h; rw [h0] at hi; injection hi with hi; rw [hi]
    · have := hgap 0 i 0 a h h0 hi; linarith
  -- the chosen position is `i` or `i + 1`
  rcases Nat.lt_or_ge k i with hki | hki
  · exfalso
    have g := hgap k i y a hki hk hi
    have m := hmin i a hi
    rw [R.abs, R.abs, abs_of_nonpos (by linarith), abs_of_nonpos (by linarith)] at m
    have e1 := R.upper (q := -(a - r)) (by linarith)
    have e2 := R.lower (q := -(y - r)) (by linarith)
    have t1 : ulp * (r - a) ≤ ulp * 1 := mul_le_mul_of_nonneg_left (by linarith) hu.le
    have t2 : ulp * (r - y) ≤ ulp * 1 := mul_le_mul_of_nonneg_left (by linarith) hu.le
    linarith
  · rcases Nat.eq_or_lt_of_le hki with hki | hki
    · subst hki
      rw [hi] at hk; injection hk with hk; subst hk
      rcases hc with ⟨_, hc⟩ | ⟨hc, _⟩
      · exact hc
      · exact absurd ha (not_le.mpr hc)
    · obtain ⟨b, hib⟩ : ∃ b, sel[i + 1]? = some b := ⟨sel[i + 1]'(by omega), List.getElem?_eq_getElem (by omega)⟩
      have hrb := hb b hib
      rcases Nat.eq_or_lt_of_le (Nat.succ_le_of_lt hki) with hkk | hkk
      · have hkk : i + 1 = k := hkk
        subst hkk
        rw [hib] at hk; injection hk with hk; subst hk
        rcases hc with ⟨hc, _⟩ | ⟨_, hc⟩
        · exact absurd hrb (not_lt.mpr hc)
        · rw [hc]; push_cast; ring
      · exfalso
        have g := hgap (i + 1) k b y hkk hib hk
        have m := hmin (i + 1) b hib
        have hy2 : y ≤ 2 := htop y (List.mem_of_getElem? hk)
        rw [R.abs, R.abs, abs_of_nonneg (by linarith), abs_of_nonneg (by linarith)] at m
        have e1 := R.upper (q := b - r) (by linarith)
        have e2 := R.lower (q := y - r) (by linarith)
        have t1 : ulp * (b - r) ≤ ulp * (2 - 4 * ulp) := mul_le_mul_of_nonneg_left (by linarith) hu.le
        have t2 : ulp * (y - r) ≤ ulp * 2 := mul_le_mul_of_nonneg_left (by linarith) hu.le
        have t3 : 0 < ulp * ulp := mul_pos hu hu
        linarith

/-- Entries in ascending order: the answer is a position of the population for all random numbers below the last entry. -/
theorem rouletteIndexR_valid {rnd : ℚ → ℚ} {sel : List ℚ} {n : Nat} (hl : sel.length = n + 1)
    (h0 : sel[0]? = some 0) {r top : ℚ} (hr0 : 0 ≤ r) (hn : sel[n]? = some top) (hr : r < top) :
    ∃ i : Nat, rouletteIndexR rnd sel r = i ∧ i < n := by
  obtain ⟨k, y, hk, _, hc⟩ := rouletteIndexR_cases rnd (sel := sel) r (by intro hc; rw [hc] at hl; simp at hl)
  have hkn : k < n + 1 := by rw [← hl]; exact (List.getElem?_eq_some_iff.mp hk).1
  rcases hc with ⟨h1, h2⟩ | ⟨h1, h2⟩
  · refine ⟨k, h2, ?_⟩
    rcases Nat.lt_succ_iff_lt_or_eq.mp hkn with h | h
    · exact h
    · subst h; rw [hn] at hk; injection hk with hk; linarith
  · rcases Nat.eq_zero_or_pos k with h | h
    · subst h; rw [h0] at hk; injection hk with hk; linarith
    · exact ⟨k - 1, by rw [h2]; omega, by omega⟩

/-! ## Sums -/

theorem sumR_near {rnd : ℚ → ℚ} (R : Rounding rnd) {T : ℚ} {n : Nat} (hn : (n : ℚ) * (2 * ulp) ≤ 1) :
    ∀ (ws : List ℚ) (j : Nat) (acc ex : ℚ), (∀ w ∈ ws, 0 ≤ w) → 0 ≤ ex → ex + ws.sum ≤ T → j + ws.length ≤ n →
    |acc - ex| ≤ j * (2 * ulp * T) → |sumR rnd ws acc - (ex + ws.sum)| ≤ ((j + ws.length : Nat) : ℚ) * (2 * ulp * T) := by
  intro ws
  induction ws with
  | nil => intro j acc ex _ _ _ _ h; simpa [sumR] using h
  | cons w ws ih =>
    intro j acc ex hw hex hT hjn h
    simp only [List.sum_cons, List.length_cons] at hT hjn ⊢
    have hw0 := hw w List.mem_cons_self
    have hs0 : 0 ≤ ws.sum := List.sum_nonneg (fun x hx => hw x (List.mem_cons_of_mem _ hx))
    have hT0 : 0 ≤ T := by linarith
    have hu := ulp_pos
    simp only [sumR]
    have hj : ((j : Nat) : ℚ) * (2 * ulp * T) ≤ T := by
      have h1 : (j : ℚ) ≤ n := by exact_mod_cast (by omega : j ≤ n)
      have h2 : (j : ℚ) * (2 * ulp) ≤ 1 := le_trans (mul_le_mul_of_nonneg_right h1 (by linarith)) hn
      have := mul_le_mul_of_nonneg_right h2 hT0
      linarith
    have he := R.err (acc + w)
    have hz : |acc + w| ≤ 2 * T := by
      rw [abs_le] at h ⊢; constructor <;> linarith
    have hz' := mul_le_mul_of_nonneg_left hz hu.le
    have := ih (j + 1) (rnd (acc + w)) (ex + w) (fun x hx => hw x (List.mem_cons_of_mem _ hx)) (by linarith)
      (by linarith) (by omega) (by
        push_cast
        rw [abs_le] at h he ⊢
        constructor <;> linarith)
    rw [show ex + (w + ws.sum) = ex + w + ws.sum by ring, show j + (ws.length + 1) = j + 1 + ws.length by omega]
    exact this

/-- `sum` over non-negative machine numbers is off by at most `2 n` unit roundoffs. -/
theorem sumR_err {rnd : ℚ → ℚ} (R : Rounding rnd) {ws : List ℚ} (hw : ∀ w ∈ ws, 0 ≤ w)
    (hn : (ws.length : ℚ) * (2 * ulp) ≤ 1) : |sumR rnd ws 0 - ws.sum| ≤ ws.length * (2 * ulp) * ws.sum := by
  have := sumR_near R (T := ws.sum) hn ws 0 0 0 hw le_rfl (by simp) (by omega) (by simp)
  simp only [zero_add] at this
  linarith

/-! ## Cumulative shares -/

theorem cumSharesR_length (rnd : ℚ → ℚ) (total : ℚ) : ∀ (ws : List ℚ) (acc : ℚ),
    (cumSharesR rnd total ws acc).length = ws.length := by
  intro ws
  induction ws with
  | nil => intro acc; rfl
  | cons w ws ih => intro acc; simp [cumSharesR, ih]

/-- One share in machine arithmetic. -/
theorem shareR_near {rnd : ℚ → ℚ} (R : Rounding rnd) {w T S t : ℚ} (hw : 0 ≤ w) (hS : 0 < S) (ht : t ≤ 1 / 4)
    (hT : |T - S| ≤ t * S) : |rnd (w / T) - w / S| ≤ (2 * t + 2 * ulp) * (w / S) := by
  have ht0 : 0 ≤ t := by
    by_contra hc
    push Not at hc
    have := mul_neg_of_neg_of_pos hc hS
    have := abs_nonneg (T - S)
    linarith
  rw [abs_le] at hT
  have hTp : 3 / 4 * S ≤ T := by
    have := mul_le_mul_of_nonneg_right ht hS.le
    linarith
  have hT0 : 0 < T := by linarith
  have hwS : 0 ≤ w / S := div_nonneg hw hS.le
  have hwT : 0 ≤ w / T := div_nonneg hw hT0.le
  have e := R.err (w / T)
  rw [abs_of_nonneg hwT] at e
  -- `w / T - w / S = (w / S) * (S - T) / T`
  have h1 : |w / T - w / S| ≤ 3 / 2 * t * (w / S) := by
    have e1 : w / T - w / S = w / S * ((S - T) / T) := by field_simp
    rw [e1, abs_mul, abs_of_nonneg hwS, mul_comm]
    apply mul_le_mul_of_nonneg_right _ hwS
    rw [abs_div, abs_of_pos hT0, div_le_iff₀ hT0]
    have : t * S ≤ t * (3 / 2 * T) := mul_le_mul_of_nonneg_left (by linarith) ht0
    rw [abs_le]; constructor <;> linarith
  have h2 : w / T ≤ 2 * (w / S) := by
    rw [abs_le] at h1
    have := mul_le_mul_of_nonneg_right (show 3 / 2 * t ≤ 1 by linarith) hwS
    linarith
  have h3 := mul_le_mul_of_nonneg_left h2 ulp_pos.le
  have h4 : 0 ≤ t * (w / S) := mul_nonneg ht0 hwS
  rw [abs_le] at e h1 ⊢
  constructor <;> linarith

theorem cumSharesR_near {rnd : ℚ → ℚ} (R : Rounding rnd) {T S t : ℚ} (hS : 0 < S) (ht : t ≤ 1 / 4)
    (hT : |T - S| ≤ t * S) {n : Nat} (hn : (n : ℚ) * (2 * ulp) ≤ 1 / 4) :
    ∀ (ws : List ℚ) (j : Nat) (acc ex : ℚ), (∀ w ∈ ws, 0 ≤ w) → 0 ≤ ex → ex + ws.sum / S ≤ 1 → j + ws.length ≤ n →
    |acc - ex| ≤ j * (2 * ulp) + (2 * t + 2 * ulp) * ex →
    ∀ i, i < ws.length → ∃ x, (cumSharesR rnd T ws acc)[i]? = some x ∧
      |x - (ex + (ws.take (i + 1)).sum / S)| ≤
        ((j + i + 1 : Nat) : ℚ) * (2 * ulp) + (2 * t + 2 * ulp) * (ex + (ws.take (i + 1)).sum / S) := by
  have hu := ulp_pos
  have ht0 : 0 ≤ t := by
    by_contra hc
    push Not at hc
    have := mul_neg_of_neg_of_pos hc hS
    have := abs_nonneg (T - S)
    linarith
  intro ws
  induction ws with
  | nil => intro j acc ex _ _ _ _ _ i hi; simp at hi
  | cons w ws ih =>
    intro j acc ex hw hex hT1 hjn h
    simp only [List.sum_cons, List.length_cons, add_div] at hT1 hjn
    have hw0 := hw w List.mem_cons_self
    have hs0 : 0 ≤ ws.sum / S :=
      div_nonneg (List.sum_nonneg (fun x hx => hw x (List.mem_cons_of_mem _ hx))) hS.le
    have hws : 0 ≤ w / S := div_nonneg hw0 hS.le
    have hsh := shareR_near R hw0 hS ht hT
    -- the new accumulator
    have hacc : |rnd (acc + rnd (w / T)) - (ex + w / S)| ≤
        ((j + 1 : Nat) : ℚ) * (2 * ulp) + (2 * t + 2 * ulp) * (ex + w / S) := by
      have hj : ((j : Nat) : ℚ) * (2 * ulp) ≤ 1 / 4 := by
        have h1 : (j : ℚ) ≤ n := by exact_mod_cast (by omega : j ≤ n)
        exact le_trans (mul_le_mul_of_nonneg_right h1 (by linarith)) hn
      have hc : (2 * t + 2 * ulp) * (ex + w / S) ≤ 3 / 4 := by
        have hle : ex + w / S ≤ 1 := by linarith
        have hc0 : 0 ≤ 2 * t + 2 * ulp := by linarith
        have h1 := mul_le_mul_of_nonneg_left hle hc0
        have : ulp ≤ 1 / 1000 := by unfold ulp; norm_num
        linarith
      have hz : |acc + rnd (w / T) - (ex + w / S)| ≤ j * (2 * ulp) + (2 * t + 2 * ulp) * (ex + w / S) := by
        rw [abs_le] at h hsh ⊢
        constructor <;> linarith
      have hz2 : |acc + rnd (w / T)| ≤ 2 := by
        rw [abs_le] at hz ⊢
        constructor <;> linarith
      have he := R.err (acc + rnd (w / T))
      have := mul_le_mul_of_nonneg_left hz2 hu.le
      push_cast
      rw [abs_le] at he hz ⊢
      constructor <;> linarith
    intro i hi
    cases i with
    | zero =>
      refine ⟨rnd (acc + rnd (w / T)), by simp [cumSharesR], ?_⟩
      simpa using hacc
    | succ i =>
      obtain ⟨x, hx, hb⟩ := ih (j + 1) _ (ex + w / S) (fun x hx => hw x (List.mem_cons_of_mem _ hx)) (by linarith)
        (by linarith) (by omega) hacc i (by simpa using hi)
      refine ⟨x, by simpa [cumSharesR] using hx, ?_⟩
      simp only [List.take_succ_cons, List.sum_cons, add_div]
      rw [show j + (i + 1) + 1 = j + 1 + i + 1 by omega, ← add_assoc]
      exact hb

/-- Neighbouring entries of the wheel are at least four unit roundoffs apart if the exact shares are not too small. -/
theorem cumSharesR_gap {rnd : ℚ → ℚ} (R : Rounding rnd) {T S t : ℚ} (hS : 0 < S) (ht : t ≤ 1 / 4)
    (hT : |T - S| ≤ t * S) {ws : List ℚ} {acc : ℚ} {j : Nat} {a b : ℚ} (hacc : 0 ≤ acc)
    (hw : ∀ w ∈ ws, 0 ≤ w ∧ 16 * ulp ≤ w / S) (htop : ∀ x ∈ acc :: cumSharesR rnd T ws acc, x ≤ 3 / 2)
    (ha : (acc :: cumSharesR rnd T ws acc)[j]? = some a) (hb : (acc :: cumSharesR rnd T ws acc)[j + 1]? = some b) :
    a + 4 * ulp ≤ b := by
  have hu := ulp_pos
  induction ws generalizing acc j with
  | nil => simp [cumSharesR] at hb
  | cons w ws ih =>
    obtain ⟨hw0, hw1⟩ := hw w List.mem_cons_self
    have hsh := shareR_near R hw0 hS ht hT
    have hws : 0 ≤ w / S := div_nonneg hw0 hS.le
    rw [abs_le] at hsh
    have hx : 0 ≤ rnd (w / T) := by
      apply R.nonneg; apply div_nonneg hw0
      rw [abs_le] at hT
      have := mul_le_mul_of_nonneg_right ht hS.le
      linarith
    have htop' := htop
    simp only [cumSharesR, List.mem_cons] at htop'
    cases j with
    | zero =>
      simp only [cumSharesR, List.getElem?_cons_zero, List.getElem?_cons_succ, Option.some.injEq] at ha hb
      subst ha hb
      have ht2 : rnd (acc + rnd (w / T)) ≤ 3 / 2 := htop' _ (.inr (.inl rfl))
      have hlow : 7 * ulp ≤ rnd (w / T) := by
        have h1 : (2 * t + 2 * ulp) * (w / S) ≤ (1 / 2 + 2 * ulp) * (w / S) :=
          mul_le_mul_of_nonneg_right (by linarith) hws
        have h2 : 7 * ulp ≤ (1 / 2 - 2 * ulp) * (w / S) := by
          have : (1 / 2 - 2 * ulp) * (16 * ulp) ≤ (1 / 2 - 2 * ulp) * (w / S) :=
            mul_le_mul_of_nonneg_left hw1 (by unfold ulp; norm_num)
          have h3 : 7 * ulp ≤ (1 / 2 - 2 * ulp) * (16 * ulp) := by unfold ulp; norm_num
          linarith
        linarith
      have hlo := R.lower (q := acc + rnd (w / T)) (by linarith)
      have hz : acc + rnd (w / T) ≤ 2 := by
        have : (1 - ulp) * (acc + rnd (w / T)) ≤ (1 - ulp) * 2 := by
          have : (3 : ℚ) / 2 ≤ (1 - ulp) * 2 := by unfold ulp; norm_num
          linarith
        exact le_of_mul_le_mul_left this (by unfold ulp; norm_num)
      have := mul_le_mul_of_nonneg_left hz hu.le
      linarith
    | succ j =>
      refine ih (acc := rnd (acc + rnd (w / T))) (R.nonneg (by linarith))
        (fun x hx => hw x (List.mem_cons_of_mem _ hx)) ?_ (by simpa [cumSharesR] using ha)
        (by simpa [cumSharesR] using hb)
      intro x hx
      exact htop' x (.inr (by simpa [cumSharesR] using hx))

theorem gaps_add {sel : List ℚ} {c : ℚ} (hc : 0 ≤ c)
    (h : ∀ (j : Nat) (a b : ℚ), sel[j]? = some a → sel[j + 1]? = some b → a + c ≤ b) :
    ∀ (i j : Nat) (a b : ℚ), i < j → sel[i]? = some a → sel[j]? = some b → a + c ≤ b := by
  intro i j
  induction j with
  | zero => intro a b hij; omega
  | succ j ih =>
    intro a b hij ha hb
    rcases Nat.lt_succ_iff_lt_or_eq.mp hij with hlt | heq
    · obtain ⟨hj, _⟩ := List.getElem?_eq_some_iff.mp hb
      have hm : sel[j]? = some (sel[j]'(by omega)) := List.getElem?_eq_getElem (by omega)
      have h1 := ih a _ hlt ha hm
      have h2 := h j _ b hm hb
      linarith
    · subst heq; exact h i a b ha hb

/-! ## The wheel -/

/-- Complete description of the wheel in machine arithmetic, for a total within `2 n` unit roundoffs. -/
theorem wheelR {rnd : ℚ → ℚ} (R : Rounding rnd) {ws sel : List ℚ} {T : ℚ} (hne : ws ≠ []) (hw : ∀ w ∈ ws, 0 < w)
    (hn : ws.length * (16 * ulp) ≤ 1) (hT : |T - ws.sum| ≤ ws.length * (2 * ulp) * ws.sum)
    (hs : selectionScoresR rnd T ws = .ok sel) :
    sel.length = ws.length + 1 ∧ sel[0]? = some 0 ∧
    (∀ i, i ≤ ws.length → ∃ x, sel[i]? = some x ∧ |x - share ws i| ≤ ws.length * (8 * ulp)) ∧
    ((∀ w ∈ ws, 16 * ulp ≤ w / ws.sum) → ∀ (i j : Nat) (a b : ℚ), i < j → sel[i]? = some a → sel[j]? = some b →
      a + 4 * ulp ≤ b) ∧ (∀ x ∈ sel, x ≤ 3 / 2) := by
  have hu := ulp_pos
  have hS : 0 < ws.sum := List.sum_pos _ hw hne
  have hlen : (1 : ℚ) ≤ ws.length := by
    have : 0 < ws.length := List.length_pos_iff.mpr hne
    exact_mod_cast this
  have ht : (ws.length : ℚ) * (2 * ulp) ≤ 1 / 4 := by linarith
  unfold selectionScoresR at hs
  split at hs
  · cases hs
  injection hs with hs
  subst hs
  have hnear : ∀ i, i ≤ ws.length → ∃ x, (0 :: cumSharesR rnd T ws 0)[i]? = some x ∧
      |x - share ws i| ≤ ws.length * (8 * ulp) := by
    intro i hi
    cases i with
    | zero => exact ⟨0, by simp, by simp [share]; positivity⟩
    | succ i =>
      obtain ⟨x, hx, hb⟩ := cumSharesR_near R hS ht hT (n := ws.length) ht ws 0 0 0 (fun w h => (hw w h).le)
        le_rfl (by rw [zero_add, div_self hS.ne']) (by omega) (by simp) i (by omega)
      refine ⟨x, by simpa using hx, ?_⟩
      simp only [zero_add] at hb
      have hsh : share ws (i + 1) = (ws.take (i + 1)).sum / ws.sum := rfl
      rw [← hsh] at hb
      have hsh1 : share ws (i + 1) ≤ 1 := by
        rw [hsh, div_le_one hS]
        have h1 := List.sum_take_add_sum_drop ws (i + 1)
        have h2 : 0 ≤ (ws.drop (i + 1)).sum :=
          List.sum_nonneg (fun x hx => (hw x (List.mem_of_mem_drop hx)).le)
        linarith
      have hi1 : ((i + 1 : Nat) : ℚ) ≤ ws.length := by exact_mod_cast hi
      have h3 := mul_le_mul_of_nonneg_right hi1 (show 0 ≤ 2 * ulp by linarith)
      have h4 := mul_le_mul_of_nonneg_left hsh1
        (show 0 ≤ 2 * (ws.length * (2 * ulp)) + 2 * ulp by positivity)
      have h5 : 1 * (2 * ulp) ≤ ws.length * (2 * ulp) := mul_le_mul_of_nonneg_right hlen (by linarith)
      linarith
  have htop : ∀ x ∈ (0 :: cumSharesR rnd T ws 0), x ≤ 3 / 2 := by
    intro x hx
    obtain ⟨i, hi, e⟩ := List.mem_iff_getElem.mp hx
    rw [List.length_cons, cumSharesR_length] at hi
    obtain ⟨y, hy, hb⟩ := hnear i (by omega)
    rw [List.getElem?_eq_getElem (by rw [List.length_cons, cumSharesR_length]; omega), e] at hy
    injection hy with hy
    subst hy
    have hsh1 : share ws i ≤ 1 := by
      unfold share
      rw [div_le_one hS]
      have h1 := List.sum_take_add_sum_drop ws i
      have h2 : 0 ≤ (ws.drop i).sum :=
        List.sum_nonneg (fun x hx => (hw x (List.mem_of_mem_drop hx)).le)
      linarith
    rw [abs_le] at hb
    linarith
  refine ⟨by rw [List.length_cons, cumSharesR_length], by simp, hnear, ?_, htop⟩
  intro hbig
  apply gaps_add (by linarith)
  intro j a b ha hb
  exact cumSharesR_gap R hS ht hT le_rfl (fun w h => ⟨(hw w h).le, hbig w h⟩) htop ha hb

end BaumEva
