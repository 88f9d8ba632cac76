import Verif.Model.Selection
import Verif.Spec.Float
import Verif.Proofs.Individ
import Mathlib.Tactic.Linarith
import Mathlib.Tactic.Positivity
import Mathlib.Tactic.FieldSimp
/-!
# Lemmas about machine numbers
-/
namespace BaumEva
open Spec

/-! ## Rounding to an integer -/

theorem pyRound_ge {q : ℚ} {n : Int} (h : (n : ℚ) ≤ q) : n ≤ pyRound q := by
  have hf : n ≤ ⌊q⌋ := Int.le_floor.mpr h
  unfold pyRound
  split
  · exact hf
  · split
    · omega
    · split <;> omega

theorem pyRound_floor (q : ℚ) : pyRound q = ⌊q⌋ ∨ pyRound q = ⌊q⌋ + 1 := by
  unfold pyRound
  split
  · exact .inl rfl
  · split
    · exact .inr rfl
    · split
      · exact .inl rfl
      · exact .inr rfl

theorem pyRound_mono {a b : ℚ} (h : a ≤ b) : pyRound a ≤ pyRound b := by
  have hf : ⌊a⌋ ≤ ⌊b⌋ := Int.floor_le_floor h
  rcases lt_or_eq_of_le hf with h1 | h1
  · have := pyRound_floor a
    have := pyRound_floor b
    omega
  · unfold pyRound
    rw [h1]
    split
    · split
      · omega
      · split
        · omega
        · split <;> omega
    · split
      · split
        · linarith
        · split
          · omega
          · exfalso; linarith
      · split
        · split
          · linarith
          · split <;> omega
        · split
          · linarith
          · split <;> omega

theorem pyRound_unique {q : ℚ} {n : Int} (h : |q - n| < 1 / 2) : pyRound q = n := by
  have h1 := pyRound_err q
  rw [abs_lt] at h
  rw [abs_le] at h1
  have h2 : (pyRound q : ℚ) < n + 1 := by linarith
  have h3 : (n : ℚ) < pyRound q + 1 := by linarith
  have h4 : pyRound q < n + 1 := by exact_mod_cast h2
  have h5 : n < pyRound q + 1 := by exact_mod_cast h3
  omega

theorem pyRound_neg (q : ℚ) : pyRound (-q) = -pyRound q := by
  by_cases hh : q - ⌊q⌋ = 1 / 2
  · have e : (-q : ℚ) = ((-⌊q⌋ - 1 : Int) : ℚ) + 1 / 2 := by push_cast; linarith
    have hf : ⌊-q⌋ = -⌊q⌋ - 1 := by
      rw [Int.floor_eq_iff]
      constructor <;> · push_cast; linarith
    unfold pyRound
    rw [hf, hh]
    have h2 : -q - ((-⌊q⌋ - 1 : Int) : ℚ) = 1 / 2 := by push_cast; linarith
    rw [h2]
    simp only [lt_irrefl, if_false]
    split <;> split <;> omega
  · have h1 : (⌊q⌋ : ℚ) ≤ q := Int.floor_le q
    have h2 : q < (⌊q⌋ : ℚ) + 1 := Int.lt_floor_add_one q
    have key : |q - pyRound q| < 1 / 2 := by
      unfold pyRound
      rw [abs_lt]
      split
      · constructor <;> linarith
      · split
        · push_cast; constructor <;> linarith
        · exfalso; apply hh; linarith
    apply pyRound_unique
    push_cast
    rw [show -q - -(pyRound q : ℚ) = -(q - pyRound q) by ring, abs_neg]
    exact key

/-! ## binary64 -/

/-- Weight of the last bit of the 53-bit significand. -/
def lastBit (q : ℚ) : ℚ := 2 ^ (Int.log 2 |q| - 52)

theorem lastBit_pos (q : ℚ) : 0 < lastBit q := zpow_pos (by norm_num) _

theorem lastBit_neg (q : ℚ) : lastBit (-q) = lastBit q := by unfold lastBit; rw [abs_neg]

theorem fl_def {q : ℚ} (h : q ≠ 0) : fl q = (pyRound (q / lastBit q) : ℚ) * lastBit q := by
  unfold fl lastBit; rw [if_neg h]

theorem fl_zero : fl 0 = 0 := by unfold fl; simp

theorem two_zpow_split (e : Int) : (2 : ℚ) ^ e = 2 ^ 52 * 2 ^ (e - 52) := by
  have : ((2 : ℚ) ^ (52 : ℕ)) = (2 : ℚ) ^ (52 : Int) := by norm_cast
  rw [this, ← zpow_add₀ (by norm_num)]
  congr 1; ring

/-- The significand has 53 bits. -/
theorem lastBit_bounds {q : ℚ} (h : q ≠ 0) : 2 ^ 52 * lastBit q ≤ |q| ∧ |q| < 2 ^ 53 * lastBit q := by
  have hq : 0 < |q| := abs_pos.mpr h
  have h1 := Int.zpow_log_le_self (b := 2) (by norm_num) hq
  have h2 := Int.lt_zpow_succ_log_self (b := 2) (by norm_num) |q|
  push_cast at h1 h2
  rw [two_zpow_split] at h1
  rw [zpow_add_one₀ (by norm_num), two_zpow_split] at h2
  refine ⟨h1, lt_of_lt_of_le h2 (le_of_eq ?_)⟩
  unfold lastBit
  ring

theorem fl_neg (q : ℚ) : fl (-q) = -fl q := by
  by_cases h : q = 0
  · subst h; simp [fl_zero]
  · rw [fl_def (neg_ne_zero.mpr h), fl_def h, lastBit_neg, neg_div, pyRound_neg]
    push_cast; ring

theorem fl_err (q : ℚ) : |fl q - q| ≤ ulp * |q| := by
  by_cases h : q = 0
  · subst h; simp [fl_zero]
  · obtain ⟨h1, _⟩ := lastBit_bounds h
    have hp := lastBit_pos q
    rw [fl_def h]
    have e : (pyRound (q / lastBit q) : ℚ) * lastBit q - q
        = ((pyRound (q / lastBit q) : ℚ) - q / lastBit q) * lastBit q := by field_simp
    rw [e, abs_mul, abs_of_pos hp]
    have h3 := pyRound_err (q / lastBit q)
    have h4 : |(pyRound (q / lastBit q) : ℚ) - q / lastBit q| * lastBit q ≤ 1 / 2 * lastBit q :=
      mul_le_mul_of_nonneg_right h3 hp.le
    unfold ulp
    linarith

/-- Multiples of a power of two with at most 53 significant bits are left alone. -/
theorem fl_exact {m : Int} {e : Int} (h : |m| ≤ 2 ^ 53) : fl ((m : ℚ) * 2 ^ e) = m * 2 ^ e := by
  by_cases h0 : m = 0
  · subst h0; simp [fl_zero]
  have hq : (m : ℚ) * 2 ^ e ≠ 0 := mul_ne_zero (by exact_mod_cast h0) (zpow_pos (by norm_num) _).ne'
  set q : ℚ := (m : ℚ) * 2 ^ e with hqd
  obtain ⟨h1, h2⟩ := lastBit_bounds hq
  have hp : (0 : ℚ) < 2 ^ e := zpow_pos (by norm_num) _
  have habs : |q| = |m| * 2 ^ e := by rw [hqd, abs_mul, abs_of_pos hp]; push_cast; rfl
  rw [fl_def hq]
  -- the last bit divides `q`
  suffices hs : ∃ k : Int, q = k * lastBit q by
    obtain ⟨k, hk⟩ := hs
    have hl := lastBit_pos q
    have hd : q / lastBit q = k := by rw [div_eq_iff hl.ne']; exact hk
    rw [hd, pyRound_int]; exact hk.symm
  by_cases hm : |m| = 2 ^ 53
  · have hmq : q = 2 ^ 53 * 2 ^ e ∨ q = -(2 ^ 53 * 2 ^ e) := by
      rcases abs_eq (by norm_num : (0 : Int) ≤ 2 ^ 53) |>.mp hm with hh | hh
      · left; rw [hqd, hh]; norm_num
      · right; rw [hqd, hh]; norm_num
    have hl : lastBit q = 2 ^ (e + 1) := by
      unfold lastBit
      have ha : |q| = (2 : ℚ) ^ (e + 53) := by
        rw [habs, hm, zpow_add₀ (by norm_num)]
        push_cast
        norm_num [mul_comm]
      have := Int.log_zpow (R := ℚ) (b := 2) (by norm_num) (e + 53)
      push_cast at this
      rw [ha, this]
      congr 1; ring
    rw [hl, zpow_add_one₀ (by norm_num)]
    rcases hmq with hh | hh
    · exact ⟨2 ^ 52, by rw [hh]; push_cast; ring⟩
    · exact ⟨-2 ^ 52, by rw [hh]; push_cast; ring⟩
  · have hlt : |m| < 2 ^ 53 := lt_of_le_of_ne h hm
    -- `lastBit q ≤ 2 ^ e`
    have hm1 : |m| + 1 ≤ 2 ^ 53 := hlt
    have hle : Int.log 2 |q| - 52 ≤ e := by
      by_contra hc
      push Not at hc
      have hge : (2 : ℚ) ^ (e + 1) ≤ lastBit q := by
        unfold lastBit
        exact zpow_le_zpow_right₀ (by norm_num) (by omega)
      rw [zpow_add_one₀ (by norm_num)] at hge
      have h3 : (2 : ℚ) ^ 52 * (2 ^ e * 2) ≤ |m| * 2 ^ e := by rw [← habs]; nlinarith
      have h4 : ((|m| : Int) : ℚ) < 2 ^ 53 := by exact_mod_cast hlt
      push_cast at h4
      have h5 : (|(m : ℚ)|) * 2 ^ e < 2 ^ 53 * 2 ^ e := mul_lt_mul_of_pos_right h4 hp
      push_cast at h3
      nlinarith
    obtain ⟨d, hd⟩ : ∃ d : ℕ, e = (Int.log 2 |q| - 52) + d := ⟨(e - (Int.log 2 |q| - 52)).toNat, by omega⟩
    refine ⟨m * 2 ^ d, ?_⟩
    unfold lastBit
    conv_lhs => rw [hqd, hd, zpow_add₀ (by norm_num)]
    push_cast
    rw [zpow_natCast]
    ring

theorem fl_int {n : Int} (h : |n| ≤ 2 ^ 53) : fl n = n := by
  have := fl_exact (e := 0) h
  simpa using this

/-- The result of rounding has at most 53 significant bits. -/
theorem fl_shape (q : ℚ) : ∃ m e : Int, |m| ≤ 2 ^ 53 ∧ fl q = m * 2 ^ e := by
  by_cases h : q = 0
  · exact ⟨0, 0, by norm_num, by simp [h, fl_zero]⟩
  · obtain ⟨_, h2⟩ := lastBit_bounds h
    have hp := lastBit_pos q
    refine ⟨pyRound (q / lastBit q), Int.log 2 |q| - 52, ?_, fl_def h⟩
    rw [abs_lt] at h2
    rw [abs_le]
    constructor
    · apply pyRound_ge
      push_cast
      rw [le_div_iff₀ hp]; linarith
    · apply pyRound_le
      push_cast
      rw [div_le_iff₀ hp]; linarith

theorem fl_idem (q : ℚ) : fl (fl q) = fl q := by
  obtain ⟨m, e, h1, h2⟩ := fl_shape q
  rw [h2, fl_exact h1]

theorem fl_nonneg {q : ℚ} (h : 0 ≤ q) : 0 ≤ fl q := by
  by_cases h0 : q = 0
  · subst h0; simp [fl_zero]
  · rw [fl_def h0]
    have hp := lastBit_pos q
    have : (0 : Int) ≤ pyRound (q / lastBit q) := pyRound_nonneg (by positivity)
    have : (0 : ℚ) ≤ pyRound (q / lastBit q) := by exact_mod_cast this
    positivity

theorem fl_mono_pos {a b : ℚ} (ha : 0 < a) (h : a ≤ b) : fl a ≤ fl b := by
  have hb : 0 < b := lt_of_lt_of_le ha h
  have pa := lastBit_pos a
  have pb := lastBit_pos b
  obtain ⟨_, a2⟩ := lastBit_bounds ha.ne'
  obtain ⟨b1, _⟩ := lastBit_bounds hb.ne'
  rw [abs_of_pos ha] at a2
  rw [abs_of_pos hb] at b1
  have hlog : Int.log 2 |a| ≤ Int.log 2 |b| := by
    rw [abs_of_pos ha, abs_of_pos hb]; exact Int.log_mono_right ha h
  rw [fl_def ha.ne', fl_def hb.ne']
  rcases lt_or_eq_of_le hlog with hl | hl
  · -- a power of two lies in between
    have hab : 2 * lastBit a ≤ lastBit b := by
      unfold lastBit
      rw [show (2 : ℚ) * 2 ^ (Int.log 2 |a| - 52) = 2 ^ (Int.log 2 |a| - 52 + 1) by
        rw [zpow_add_one₀ (by norm_num)]; ring]
      exact zpow_le_zpow_right₀ (by norm_num) (by omega)
    have h1 : pyRound (a / lastBit a) ≤ 2 ^ 53 := by
      apply pyRound_le; push_cast; rw [div_le_iff₀ pa]; linarith
    have h2 : 2 ^ 52 ≤ pyRound (b / lastBit b) := by
      apply pyRound_ge; push_cast; rw [le_div_iff₀ pb]; linarith
    have h1' : (pyRound (a / lastBit a) : ℚ) ≤ 2 ^ 53 := by exact_mod_cast h1
    have h2' : (2 : ℚ) ^ 52 ≤ pyRound (b / lastBit b) := by exact_mod_cast h2
    calc (pyRound (a / lastBit a) : ℚ) * lastBit a ≤ 2 ^ 53 * lastBit a := mul_le_mul_of_nonneg_right h1' pa.le
      _ = 2 ^ 52 * (2 * lastBit a) := by ring
      _ ≤ 2 ^ 52 * lastBit b := by
        apply mul_le_mul_of_nonneg_left hab; positivity
      _ ≤ _ := mul_le_mul_of_nonneg_right h2' pb.le
  · have e : lastBit a = lastBit b := by unfold lastBit; rw [hl]
    rw [e]
    apply mul_le_mul_of_nonneg_right _ pb.le
    have : pyRound (a / lastBit b) ≤ pyRound (b / lastBit b) :=
      pyRound_mono (div_le_div_of_nonneg_right h pb.le)
    exact_mod_cast this

theorem fl_mono {a b : ℚ} (h : a ≤ b) : fl a ≤ fl b := by
  rcases lt_trichotomy a 0 with ha | ha | ha
  · rcases lt_or_ge b 0 with hb | hb
    · have := fl_mono_pos (a := -b) (b := -a) (by linarith) (by linarith)
      rw [fl_neg, fl_neg] at this
      linarith
    · have h1 := fl_nonneg (q := -a) (by linarith)
      have h2 := fl_nonneg hb
      rw [fl_neg] at h1
      linarith
  · subst ha; rw [fl_zero]; exact fl_nonneg h
  · exact fl_mono_pos ha h

theorem lastBit_two {q : ℚ} (h : q ≠ 0) : lastBit (2 * q) = 2 * lastBit q := by
  have hq : 0 < |q| := abs_pos.mpr h
  have hlog : Int.log 2 |2 * q| = Int.log 2 |q| + 1 := by
    rw [abs_mul, abs_two]
    have h2 : 0 < 2 * |q| := by linarith
    have a1 := Int.zpow_log_le_self (b := 2) (by norm_num) hq
    have a2 := Int.lt_zpow_succ_log_self (b := 2) (by norm_num) |q|
    apply le_antisymm
    · rw [← Int.lt_add_one_iff, ← Int.lt_zpow_iff_log_lt (by norm_num) h2]
      push_cast at a2 ⊢
      rw [zpow_add_one₀ (by norm_num)]
      linarith
    · rw [← Int.zpow_le_iff_le_log (by norm_num) h2]
      push_cast at a1 ⊢
      rw [zpow_add_one₀ (by norm_num)]
      linarith
  unfold lastBit
  rw [hlog, show Int.log 2 |q| + 1 - 52 = (Int.log 2 |q| - 52) + 1 by ring, zpow_add_one₀ (by norm_num)]
  ring

theorem fl_two (q : ℚ) : fl (2 * q) = 2 * fl q := by
  by_cases h : q = 0
  · subst h; simp [fl_zero]
  · rw [fl_def h, fl_def (mul_ne_zero (by norm_num) h), lastBit_two h, mul_div_mul_left _ _ (by norm_num)]
    ring

/-- binary64 is a rounding in the sense of the specification. -/
theorem fl_rounding : Rounding fl where
  neg := fl_neg
  mono := fl_mono
  err := fl_err
  idem := fl_idem
  exact := fun _ _ h => fl_exact h
  two := fl_two

/-- Exact arithmetic is one as well. -/
theorem id_rounding : Rounding id where
  neg _ := rfl
  mono h := h
  err q := by simp [ulp]
  idem _ := rfl
  exact _ _ _ := rfl
  two _ := rfl


/-! ## Roundings -/

theorem ulp_pos : 0 < ulp := by unfold ulp; norm_num

namespace Spec.Rounding
variable {rnd : ℚ → ℚ} (R : Rounding rnd)
include R

theorem int {n : Int} (h : |n| ≤ 2 ^ 53) : rnd n = n := by
  have := R.exact n 0 h
  simpa using this

theorem zero : rnd 0 = 0 := by
  have := R.int (n := 0) (by norm_num)
  simpa using this

theorem one : rnd 1 = 1 := by
  have := R.int (n := 1) (by norm_num)
  simpa using this

theorem nonneg {q : ℚ} (h : 0 ≤ q) : 0 ≤ rnd q := by
  have := R.mono h
  rwa [R.zero] at this

theorem abs (q : ℚ) : |rnd q| = rnd |q| := by
  rcases le_total 0 q with h | h
  · rw [abs_of_nonneg h, abs_of_nonneg (R.nonneg h)]
  · have h1 : 0 ≤ rnd (-q) := R.nonneg (by linarith)
    rw [abs_of_nonpos h, R.neg, abs_of_nonpos (by rw [R.neg] at h1; linarith)]

theorem upper {q : ℚ} (h : 0 ≤ q) : rnd q ≤ (1 + ulp) * q := by
  have := R.err q
  rw [abs_of_nonneg h, abs_le] at this
  linarith

theorem lower {q : ℚ} (h : 0 ≤ q) : (1 - ulp) * q ≤ rnd q := by
  have := R.err q
  rw [abs_of_nonneg h, abs_le] at this
  linarith

theorem pos {q : ℚ} (h : 0 < q) : 0 < rnd q := by
  have h1 := R.lower h.le
  have h2 : 0 < (1 - ulp) * q := mul_pos (by unfold ulp; norm_num) h
  linarith

/-- Rounding commutes with scaling by powers of two. -/
theorem scale (k : Int) (q : ℚ) : rnd (2 ^ k * q) = 2 ^ k * rnd q := by
  have hn : ∀ (n : Nat) (q : ℚ), rnd (2 ^ n * q) = 2 ^ n * rnd q := by
    intro n
    induction n with
    | zero => intro q; simp
    | succ n ih => intro q; rw [pow_succ, mul_assoc, ih, R.two, mul_assoc]
  rcases Int.eq_nat_or_neg k with ⟨n, rfl | rfl⟩
  · rw [zpow_natCast]; exact hn n q
  · have h0 : (2 : ℚ) ^ n ≠ 0 := by positivity
    have := hn n ((2 ^ n)⁻¹ * q)
    rw [← mul_assoc, mul_inv_cancel₀ h0, one_mul] at this
    rw [zpow_neg, zpow_natCast, this, ← mul_assoc, inv_mul_cancel₀ h0, one_mul]

end Spec.Rounding

/-! ## Gene parameters and grid points -/

section
variable {rnd : ℚ → ℚ} (R : Rounding rnd) {g : BinGene} {p : GeneParams}
include R

/-- The step of the grid up to four unit roundoffs. -/
theorem stepR_bounds (h : geneParamsR rnd g = .ok p) (hg : g.lo < g.hi) :
    0 < p.realStep ∧ (1 - 4 * ulp) * ((g.hi - g.lo) / (2 ^ p.numBits - 1)) ≤ p.realStep ∧
      p.realStep ≤ (1 + 4 * ulp) * ((g.hi - g.lo) / (2 ^ p.numBits - 1)) := by
  obtain ⟨_, _, h3, h4, _, _⟩ := geneParamsR_ok h
  have hw : 0 < g.hi - g.lo := by linarith
  have hr := R.pos hw
  have hN := R.pos h4
  rw [h3, abs_of_pos hr]
  have hq : 0 < rnd (g.hi - g.lo) / rnd ((2 : ℚ) ^ p.numBits - 1) := div_pos hr hN
  have a1 := R.upper hw.le
  have a2 := R.lower hw.le
  have b1 := R.upper h4.le
  have b2 := R.lower h4.le
  have c1 := R.upper hq.le
  have c2 := R.lower hq.le
  refine ⟨R.pos hq, ?_, ?_⟩
  · refine le_trans ?_ c2
    rw [← mul_div_assoc, ← mul_div_assoc, div_le_div_iff₀ h4 hN]
    have hu : (1 - 4 * ulp) * (1 + ulp) ≤ (1 - ulp) * (1 - ulp) := by unfold ulp; norm_num
    have hp1 : 0 < (1 - 4 * ulp) * (g.hi - g.lo) := mul_pos (by unfold ulp; norm_num) hw
    have hp2 : 0 < (1 - ulp : ℚ) := by unfold ulp; norm_num
    calc (1 - 4 * ulp) * (g.hi - g.lo) * rnd ((2 : ℚ) ^ p.numBits - 1)
        ≤ (1 - 4 * ulp) * (g.hi - g.lo) * ((1 + ulp) * ((2 : ℚ) ^ p.numBits - 1)) :=
          mul_le_mul_of_nonneg_left b1 hp1.le
      _ = ((1 - 4 * ulp) * (1 + ulp)) * ((g.hi - g.lo) * ((2 : ℚ) ^ p.numBits - 1)) := by ring
      _ ≤ ((1 - ulp) * (1 - ulp)) * ((g.hi - g.lo) * ((2 : ℚ) ^ p.numBits - 1)) :=
          mul_le_mul_of_nonneg_right hu (mul_pos hw h4).le
      _ = (1 - ulp) * ((1 - ulp) * (g.hi - g.lo)) * ((2 : ℚ) ^ p.numBits - 1) := by ring
      _ ≤ (1 - ulp) * rnd (g.hi - g.lo) * ((2 : ℚ) ^ p.numBits - 1) :=
          mul_le_mul_of_nonneg_right (mul_le_mul_of_nonneg_left a2 hp2.le) h4.le
  · refine le_trans c1 ?_
    rw [← mul_div_assoc, ← mul_div_assoc, div_le_div_iff₀ hN h4]
    have hu : (1 + ulp) * (1 + ulp) ≤ (1 + 4 * ulp) * (1 - ulp) := by unfold ulp; norm_num
    have hp1 : 0 < (1 + 4 * ulp) * (g.hi - g.lo) := mul_pos (by unfold ulp; norm_num) hw
    have hp2 : 0 < (1 + ulp : ℚ) := by unfold ulp; norm_num
    calc (1 + ulp) * rnd (g.hi - g.lo) * ((2 : ℚ) ^ p.numBits - 1)
        ≤ (1 + ulp) * ((1 + ulp) * (g.hi - g.lo)) * ((2 : ℚ) ^ p.numBits - 1) :=
          mul_le_mul_of_nonneg_right (mul_le_mul_of_nonneg_left a1 hp2.le) h4.le
      _ = ((1 + ulp) * (1 + ulp)) * ((g.hi - g.lo) * ((2 : ℚ) ^ p.numBits - 1)) := by ring
      _ ≤ ((1 + 4 * ulp) * (1 - ulp)) * ((g.hi - g.lo) * ((2 : ℚ) ^ p.numBits - 1)) :=
          mul_le_mul_of_nonneg_right hu (mul_pos hw h4).le
      _ = (1 + 4 * ulp) * (g.hi - g.lo) * ((1 - ulp) * ((2 : ℚ) ^ p.numBits - 1)) := by ring
      _ ≤ _ := mul_le_mul_of_nonneg_left b2 hp1.le

/-- The distance `i * real_step` from the lower end up to seven unit roundoffs. -/
theorem offsetR_bounds (h : geneParamsR rnd g = .ok p) (hg : g.lo < g.hi) (i : Nat) :
    (1 - 7 * ulp) * ((i : ℚ) * ((g.hi - g.lo) / (2 ^ p.numBits - 1))) ≤ rnd (rnd i * p.realStep) ∧
      rnd (rnd i * p.realStep) ≤ (1 + 7 * ulp) * ((i : ℚ) * ((g.hi - g.lo) / (2 ^ p.numBits - 1))) := by
  obtain ⟨hs, s1, s2⟩ := stepR_bounds R h hg
  obtain ⟨_, _, _, h4, _, _⟩ := geneParamsR_ok h
  set S : ℚ := (g.hi - g.lo) / (2 ^ p.numBits - 1) with hS
  have hSp : 0 < S := div_pos (by linarith) h4
  have hi : (0 : ℚ) ≤ i := by positivity
  have a1 := R.upper hi
  have a2 := R.lower hi
  have hri := R.nonneg hi
  have hm : 0 ≤ rnd (i : ℚ) * p.realStep := mul_nonneg hri hs.le
  have c1 := R.upper hm
  have c2 := R.lower hm
  have hiS : 0 ≤ (i : ℚ) * S := mul_nonneg hi hSp.le
  constructor
  · refine le_trans ?_ c2
    have hu : 1 - 7 * ulp ≤ (1 - ulp) * ((1 - ulp) * (1 - 4 * ulp)) := by unfold ulp; norm_num
    calc (1 - 7 * ulp) * ((i : ℚ) * S) ≤ (1 - ulp) * ((1 - ulp) * (1 - 4 * ulp)) * ((i : ℚ) * S) :=
          mul_le_mul_of_nonneg_right hu hiS
      _ = (1 - ulp) * (((1 - ulp) * i) * ((1 - 4 * ulp) * S)) := by ring
      _ ≤ (1 - ulp) * (rnd i * p.realStep) := by
          apply mul_le_mul_of_nonneg_left _ (by unfold ulp; norm_num)
          exact mul_le_mul a2 s1 (mul_nonneg (by unfold ulp; norm_num) hSp.le) hri
  · refine le_trans c1 ?_
    have hu : (1 + ulp) * ((1 + ulp) * (1 + 4 * ulp)) ≤ 1 + 7 * ulp := by unfold ulp; norm_num
    calc (1 + ulp) * (rnd i * p.realStep) ≤ (1 + ulp) * (((1 + ulp) * i) * ((1 + 4 * ulp) * S)) := by
          apply mul_le_mul_of_nonneg_left _ (by unfold ulp; norm_num)
          exact mul_le_mul a1 s2 hs.le (mul_nonneg (by unfold ulp; norm_num) hi)
      _ = (1 + ulp) * ((1 + ulp) * (1 + 4 * ulp)) * ((i : ℚ) * S) := by ring
      _ ≤ _ := mul_le_mul_of_nonneg_right hu hiS

omit R in
theorem grid_le (h : geneParamsR rnd g = .ok p) (hg : g.lo < g.hi) {i : Nat} (hi : i < 2 ^ p.numBits) :
    (i : ℚ) * ((g.hi - g.lo) / (2 ^ p.numBits - 1)) ≤ g.hi - g.lo := by
  obtain ⟨_, _, _, h4, _, _⟩ := geneParamsR_ok h
  have h1 := cast_le_pow hi
  have hS : 0 ≤ (g.hi - g.lo) / ((2 : ℚ) ^ p.numBits - 1) := div_nonneg (by linarith) h4.le
  calc (i : ℚ) * ((g.hi - g.lo) / (2 ^ p.numBits - 1))
      ≤ (2 ^ p.numBits - 1) * ((g.hi - g.lo) / (2 ^ p.numBits - 1)) := mul_le_mul_of_nonneg_right h1 hS
    _ = g.hi - g.lo := by field_simp

/-- A decoded value is the exact grid point up to 16 unit roundoffs of the larger end. -/
theorem pointR_near (h : geneParamsR rnd g = .ok p) (hg : g.lo < g.hi) {i : Nat} (hi : i < 2 ^ p.numBits) :
    |pointR rnd g p i - (g.lo + (i : ℚ) * ((g.hi - g.lo) / (2 ^ p.numBits - 1)))| ≤ 16 * ulp * max |g.lo| |g.hi| := by
  obtain ⟨o1, o2⟩ := offsetR_bounds R h hg i
  have hP := grid_le h hg hi
  obtain ⟨_, _, _, h4, _, _⟩ := geneParamsR_ok h
  have hP0 : 0 ≤ (i : ℚ) * ((g.hi - g.lo) / ((2 : ℚ) ^ p.numBits - 1)) :=
    mul_nonneg (by positivity) (div_nonneg (by linarith) h4.le)
  unfold pointR
  generalize (i : ℚ) * ((g.hi - g.lo) / ((2 : ℚ) ^ p.numBits - 1)) = P at *
  generalize rnd (rnd (i : ℚ) * p.realStep) = D at *
  have hl1 := le_max_left |g.lo| |g.hi|
  have hl2 := le_max_right |g.lo| |g.hi|
  generalize max |g.lo| |g.hi| = Mx at *
  rw [abs_le] at hl1 hl2
  have he := R.err (g.lo + D)
  have hDP : |D - P| ≤ 14 * ulp * Mx := by
    have : 7 * ulp * P ≤ 7 * ulp * (2 * Mx) := by
      apply mul_le_mul_of_nonneg_left _ (by unfold ulp; norm_num)
      linarith
    rw [abs_le]; constructor <;> linarith
  have hM : 0 ≤ Mx := by linarith
  have hx : |g.lo + D| ≤ 2 * Mx := by
    rw [abs_le] at hDP ⊢
    have : 14 * ulp * Mx ≤ Mx := by
      have := mul_le_mul_of_nonneg_right (show 14 * ulp ≤ 1 by unfold ulp; norm_num) hM
      linarith
    constructor <;> linarith
  have h2 : ulp * |g.lo + D| ≤ ulp * (2 * Mx) := mul_le_mul_of_nonneg_left hx ulp_pos.le
  rw [abs_le] at he hDP ⊢
  constructor <;> linarith

theorem pointR_mono (h : geneParamsR rnd g = .ok p) (hg : g.lo < g.hi) {i j : Nat} (hij : i ≤ j) :
    pointR rnd g p i ≤ pointR rnd g p j := by
  obtain ⟨hs, _, _⟩ := stepR_bounds R h hg
  unfold pointR
  apply R.mono
  have h1 : rnd (i : ℚ) ≤ rnd (j : ℚ) := R.mono (by exact_mod_cast hij)
  have := R.mono (mul_le_mul_of_nonneg_right h1 hs.le)
  linarith

theorem pointR_zero : pointR rnd g p 0 = rnd g.lo := by
  unfold pointR
  simp [R.zero]

/-- No decoded value lies below the lower end. -/
theorem pointR_lo (h : geneParamsR rnd g = .ok p) (hg : g.lo < g.hi) (hlo : Machine rnd g.lo) (i : Nat) :
    g.lo ≤ pointR rnd g p i := by
  have := pointR_mono R h hg (Nat.zero_le i)
  rw [pointR_zero R, hlo] at this
  exact this

/-- All but the last grid point stay below the upper end. -/
theorem pointR_hi (h : geneParamsR rnd g = .ok p) (hg : g.lo < g.hi) {i : Nat} (hi : i + 1 < 2 ^ p.numBits)
    (hfine : 16 * ulp * max |g.lo| |g.hi| ≤ (g.hi - g.lo) / (2 ^ p.numBits - 1)) : pointR rnd g p i ≤ g.hi := by
  have h1 := pointR_near R h hg (i := i) (by omega)
  have h2 := grid_le h hg hi
  push_cast at h2
  rw [abs_le] at h1
  linarith

/-- Encoding inverts decoding. -/
theorem stepIdxR_pointR (h : geneParamsR rnd g = .ok p) (hg : g.lo < g.hi) {i : Nat} (hi : i < 2 ^ p.numBits)
    (hfine : 64 * ulp * max |g.lo| |g.hi| ≤ (g.hi - g.lo) / (2 ^ p.numBits - 1)) :
    stepIdxR rnd g p (pointR rnd g p i) = i := by
  have h1 := pointR_near R h hg hi
  obtain ⟨hs, s1, s2⟩ := stepR_bounds R h hg
  have hP := grid_le h hg hi
  obtain ⟨_, _, _, h4, _, _⟩ := geneParamsR_ok h
  have hSp : 0 < (g.hi - g.lo) / ((2 : ℚ) ^ p.numBits - 1) := div_pos (by linarith) h4
  unfold stepIdxR
  generalize (g.hi - g.lo) / ((2 : ℚ) ^ p.numBits - 1) = S at *
  generalize pointR rnd g p i = x at *
  have hl1 := le_max_left |g.lo| |g.hi|
  have hl2 := le_max_right |g.lo| |g.hi|
  generalize max |g.lo| |g.hi| = Mx at *
  rw [abs_le] at hl1 hl2 h1
  have hi0 : (0 : ℚ) ≤ i := by positivity
  have hiS : (0 : ℚ) ≤ i * S := mul_nonneg hi0 hSp.le
  have hM : 0 ≤ Mx := by linarith
  have hu := ulp_pos
  -- the offset
  have e1 := R.err (x - g.lo)
  have hxl : |x - g.lo| ≤ 3 * Mx := by
    have := mul_le_mul_of_nonneg_right (show 16 * ulp ≤ 1 by unfold ulp; norm_num) hM
    rw [abs_le]; constructor <;> linarith
  have e1' : ulp * |x - g.lo| ≤ ulp * (3 * Mx) := mul_le_mul_of_nonneg_left hxl hu.le
  generalize rnd (x - g.lo) = y at *
  have hy : |y - i * S| ≤ 19 * ulp * Mx := by
    rw [abs_le] at e1 ⊢; constructor <;> linarith
  -- the quotient
  have hq : |y / p.realStep - i| ≤ 29 / 64 := by
    have h5 : |y - i * p.realStep| ≤ 28 * ulp * Mx := by
      have : 4 * ulp * (i * S) ≤ 4 * ulp * (2 * Mx) :=
        mul_le_mul_of_nonneg_left (by linarith) (by unfold ulp; norm_num)
      have t1 := mul_le_mul_of_nonneg_left s1 hi0
      have t2 := mul_le_mul_of_nonneg_left s2 hi0
      rw [abs_le] at hy ⊢
      have hn : 0 ≤ ulp * Mx := mul_nonneg hu.le hM
      constructor <;> linarith
    have h6 : 28 * ulp * Mx ≤ 29 / 64 * p.realStep := by
      have t : (28 : ℚ) / 64 * S ≤ 29 / 64 * ((1 - 4 * ulp) * S) := by
        rw [← mul_assoc]
        exact mul_le_mul_of_nonneg_right (by unfold ulp; norm_num) hSp.le
      linarith
    have e : y / p.realStep - i = (y - i * p.realStep) / p.realStep := by field_simp
    rw [e, abs_div, abs_of_pos hs, div_le_iff₀ hs]
    linarith
  have e2 := R.err (y / p.realStep)
  -- the index is small enough for the last rounding
  have hbig : |y / p.realStep| ≤ i + 1 := by
    rw [abs_le] at hq ⊢; constructor <;> linarith
  have hiu : ulp * ((i : ℚ) + 1) ≤ 1 / 30 := by
    -- `i * S ≤ 2 Mx` and `64 ulp Mx ≤ S`
    have t1 : (i : ℚ) * (64 * ulp * Mx) ≤ 2 * Mx := by
      have := mul_le_mul_of_nonneg_left hfine hi0
      linarith
    rcases hM.eq_or_lt with hM0 | hMp
    · exfalso
      have : (g.hi : ℚ) ≤ Mx := hl2.2
      have : -Mx ≤ g.lo := hl1.1
      linarith
    · have t2 : (i : ℚ) * (64 * ulp) ≤ 2 := by
        by_contra hc
        push Not at hc
        have := mul_lt_mul_of_pos_right hc hMp
        linarith
      have : ulp ≤ 1 / 1000 := by unfold ulp; norm_num
      linarith
  apply pyRound_unique
  have t := mul_le_mul_of_nonneg_left hbig hu.le
  rw [abs_le] at e2 hq
  push_cast
  rw [abs_lt]
  constructor <;> linarith

end

/-! ## Whole individuals -/

theorem encodeGenesR_pointsR {rnd : ℚ → ℚ} (R : Rounding rnd) {gray : Bool} : ∀ {gens : List BinGene} {ps : List GeneParams},
    List.Forall₂ (fun g p => geneParamsR rnd g = .ok p) gens ps → Proper gens →
    List.Forall₂ (fun g p => Coarse 64 g p.numBits) gens ps → ∀ rest : List Val,
    IsBits rest → rest.length = totalBits ps → List.Forall₂ InGene gens (pointsR rnd gray rest gens ps) →
    encodeGenesR rnd gray gens ps (pointsR rnd gray rest gens ps) = .ok rest := by
  intro gens ps h
  induction h with
  | nil =>
    intro _ _ rest _ hl _
    simp [totalBits] at hl
    simp [encodeGenesR, hl]
  | cons hp _ ih =>
    intro hg hc rest hb hl hin
    rename_i g p gs ps _
    simp only [totalBits, List.map_cons, List.sum_cons] at hl
    have hlt := hg g List.mem_cons_self
    have hi := decIdx_lt (gray := gray) (take_bits_lt (rest := rest) (n := p.numBits))
    rw [pointsR] at hin ⊢
    cases hin with
    | cons hin1 hin2 =>
      cases hc with
      | cons hc1 hc2 =>
        obtain ⟨q, hq, r1, r2⟩ := hin1
        injection hq with hq
        rw [encodeGenesR]
        rw [if_neg (by push Not; rw [hq]; exact ⟨r1, r2⟩), stepIdxR_pointR R hp hlt hi hc1]
        simp only [Int.toNat_natCast]
        obtain ⟨l, h1, h2, h3, h4⟩ := encodeIndex_eq (gray := gray) (geneParamsR_ok hp).1 hi
        have hl2 : l = rest.take p.numBits := by
          apply bitsValue_inj h3 (isBits_take hb _)
          · rw [h2]; simp; omega
          · rw [h4, encIdx_decIdx]
        rw [h1]
        have := ih (fun x hx => hg x (List.mem_cons_of_mem _ hx)) hc2 (rest.drop p.numBits) (isBits_drop hb _)
          (by simp [totalBits]; omega) hin2
        simp only [bind, Except.bind, this, pure, Except.pure, hl2, List.take_append_drop]

/-- Grids whose points all have at most 53 significant bits are decoded exactly. -/
theorem pointR_exact {rnd : ℚ → ℚ} (R : Rounding rnd) {g : BinGene} {p : GeneParams} (h : geneParamsR rnd g = .ok p)
    {a s e : Int} (hs : 0 < s) (hlo : g.lo = a * 2 ^ e) (hhi : g.hi - g.lo = ((2 ^ p.numBits - 1) * s : Int) * 2 ^ e)
    (h1 : |a| ≤ 2 ^ 53) (h2 : |a + (2 ^ p.numBits - 1) * s| ≤ 2 ^ 53) (h3 : (2 ^ p.numBits - 1) * s ≤ 2 ^ 53) {i : Nat}
    (hi : i < 2 ^ p.numBits) : pointR rnd g p i = g.lo + (i : ℚ) * ((g.hi - g.lo) / (2 ^ p.numBits - 1)) := by
  obtain ⟨_, _, g3, g4, _, _⟩ := geneParamsR_ok h
  have hN : (1 : Int) ≤ 2 ^ p.numBits - 1 := by
    have : (0 : ℚ) < ((2 ^ p.numBits - 1 : Int) : ℚ) := by push_cast; exact g4
    have : (0 : Int) < 2 ^ p.numBits - 1 := by exact_mod_cast this
    omega
  have hiN : (i : Int) ≤ 2 ^ p.numBits - 1 := by
    have : ((i : Nat) : Int) < ((2 ^ p.numBits : Nat) : Int) := by exact_mod_cast hi
    push_cast at this; omega
  have hi0 : (0 : Int) ≤ i := by positivity
  have hp : (0 : ℚ) < 2 ^ e := zpow_pos (by norm_num) _
  have hcast : ((2 : ℚ) ^ p.numBits - 1) = ((2 ^ p.numBits - 1 : Int) : ℚ) := by push_cast; rfl
  rw [hcast] at g3 g4 ⊢
  generalize (2 : Int) ^ p.numBits - 1 = N at *
  have hsN : N ≤ N * s := by nlinarith
  have hs2 : s ≤ N * s := by nlinarith
  have his : (i : Int) * s ≤ N * s := mul_le_mul_of_nonneg_right hiN hs.le
  have his0 : 0 ≤ (i : Int) * s := mul_nonneg hi0 hs.le
  have hNq : (0 : ℚ) < N := g4
  have hdiv : (g.hi - g.lo) / N = s * 2 ^ e := by
    rw [hhi, div_eq_iff hNq.ne']; push_cast; ring
  have hst : p.realStep = s * 2 ^ e := by
    rw [g3, R.int (n := N) (by rw [abs_le]; constructor <;> omega), hhi,
      R.exact _ _ (by rw [abs_le]; constructor <;> omega), abs_of_nonneg (by
        apply mul_nonneg _ hp.le
        have : (0 : Int) ≤ N * s := by omega
        exact_mod_cast this), ← hhi, hdiv, R.exact _ _ (by rw [abs_le]; constructor <;> omega)]
  unfold pointR
  have hri : rnd ((i : Nat) : ℚ) = i := by
    have := R.int (n := (i : Int)) (by rw [abs_le]; constructor <;> omega)
    push_cast at this; exact this
  have e1 : (i : ℚ) * (s * 2 ^ e) = (((i : Int) * s : Int) : ℚ) * 2 ^ e := by push_cast; ring
  rw [hri, hst, hdiv, e1, R.exact _ _ (by rw [abs_le]; constructor <;> omega), hlo]
  have e2 : (a : ℚ) * 2 ^ e + (((i : Int) * s : Int) : ℚ) * 2 ^ e = ((a + i * s : Int) : ℚ) * 2 ^ e := by
    push_cast; ring
  rw [e2]
  apply R.exact
  rw [abs_le] at h1 h2 ⊢
  constructor <;> omega

end BaumEva
