import Verif.Model.Population
import Verif.Spec.Coding
import Mathlib.Tactic.Linarith
import Mathlib.Tactic.Ring
import Mathlib.Tactic.Positivity
import Mathlib.Tactic.FieldSimp
import Mathlib.Data.Nat.Bitwise
import Mathlib.Data.Nat.Digits.Lemmas
/-! # Lemmas about binary coding -/
namespace BaumEva
open Spec

/-! ## Bit budget -/

theorem le_two_pow_sub_one (n : Nat) : (n : Int) ≤ 2 ^ n - 1 := by
  have h : n < 2 ^ n := Nat.lt_two_pow_self
  have : ((n : Int)) < ((2 ^ n : Nat) : Int) := by exact_mod_cast h
  push_cast at this
  omega

theorem bitsLoop_spec (k : Int) : ∀ (f n : Nat), k ≤ n + f → (∀ m, m < n → (2 : Int) ^ m - 1 < k) →
    k ≤ 2 ^ (bitsLoop k f n) - 1 ∧ ∀ m, m < bitsLoop k f n → (2 : Int) ^ m - 1 < k := by
  intro f
  induction f with
  | zero =>
    intro n hf hm
    refine ⟨?_, hm⟩
    have := le_two_pow_sub_one n
    simp only [bitsLoop]
    push_cast at hf
    omega
  | succ f ih =>
    intro n hf hm
    simp only [bitsLoop]
    split
    · rename_i h
      apply ih
      · push_cast at hf ⊢; omega
      · intro m hmn
        rcases Nat.lt_succ_iff_lt_or_eq.mp hmn with h1 | h1
        · exact hm m h1
        · subst h1; exact h
    · rename_i h
      exact ⟨by omega, hm⟩

theorem realNumberOfPoints_spec (k : Int) :
    k ≤ 2 ^ (realNumberOfPoints k).1 - 1 ∧
      ∀ m, m < (realNumberOfPoints k).1 → (2 : Int) ^ m - 1 < k := by
  have := bitsLoop_spec k k.toNat 0 (by simp) (by intro m hm; omega)
  exact this

theorem realNumberOfPoints_snd (k : Int) :
    (realNumberOfPoints k).2 = 2 ^ (realNumberOfPoints k).1 - 1 := rfl

/-! ## Fixed width binary strings -/

theorem bit1_eq : bit1 = Val.str "1" := rfl
theorem bit0_eq : bit0 = Val.str "0" := rfl

theorem bit_ne : bit0 ≠ bit1 := by decide

theorem symWeight_digitVal {d : Nat} (h : d < 2) : symWeight (digitVal d) = d := by
  interval_cases d <;> decide

theorem bitsValue_append (a b : List Val) :
    bitsValue (a ++ b) = bitsValue a * 2 ^ b.length + bitsValue b := by
  induction a with
  | nil => simp [bitsValue]
  | cons x xs ih =>
    simp only [List.cons_append, bitsValue, ih, List.length_append, pow_add]
    ring

theorem bitsValue_replicate_zero (n : Nat) : bitsValue (List.replicate n bit0) = 0 := by
  induction n with
  | zero => rfl
  | succ n ih =>
    rw [List.replicate_succ, bitsValue, ih]
    simp [symWeight, bit0]

theorem bitsValue_lt {l : List Val} : bitsValue l < 2 ^ l.length := by
  induction l with
  | nil => simp [bitsValue]
  | cons x xs ih =>
    simp only [bitsValue, List.length_cons, pow_succ]
    have : symWeight x ≤ 1 := by unfold symWeight; split <;> omega
    nlinarith [Nat.zero_le (2 ^ xs.length)]

theorem bitsValue_binStr (v : Nat) : bitsValue (binStr v) = v := by
  unfold binStr
  split
  · rename_i h; subst h; decide
  · have key : ∀ l : List Nat, (∀ d ∈ l, d < 2) →
        bitsValue ((l.reverse).map digitVal) = Nat.ofDigits 2 l := by
      intro l
      induction l with
      | nil => intro _; rfl
      | cons d ds ih =>
        intro h
        rw [List.reverse_cons, List.map_append, bitsValue_append,
          ih (fun x hx => h x (List.mem_cons_of_mem _ hx))]
        simp only [List.map_cons, List.map_nil, List.length_cons, List.length_nil, bitsValue,
          Nat.ofDigits_cons, symWeight_digitVal (h d List.mem_cons_self)]
        simp; ring
    rw [key _ (fun d hd => Nat.digits_lt_base (by norm_num) hd), Nat.ofDigits_digits]

theorem isBits_binStr (v : Nat) : IsBits (binStr v) := by
  unfold binStr IsBits
  split
  · intro x hx; simp at hx; left; exact hx
  · intro x hx
    simp only [List.mem_map] at hx
    obtain ⟨d, _, rfl⟩ := hx
    unfold digitVal; split
    · left; rfl
    · right; rfl

theorem isBits_append {a b : List Val} : IsBits (a ++ b) ↔ IsBits a ∧ IsBits b := by
  unfold IsBits
  constructor
  · intro h; exact ⟨fun x hx => h x (List.mem_append_left _ hx), fun x hx => h x (List.mem_append_right _ hx)⟩
  · rintro ⟨h1, h2⟩ x hx
    rcases List.mem_append.mp hx with h | h
    · exact h1 x h
    · exact h2 x h

theorem isBits_replicate (n : Nat) : IsBits (List.replicate n bit0) := by
  intro x hx; left; exact (List.mem_replicate.mp hx).2

theorem binStr_length_le {v n : Nat} (hn : 1 ≤ n) : (binStr v).length ≤ n ↔ v < 2 ^ n := by
  unfold binStr
  split
  · rename_i h; subst h; simp; omega
  · simp only [List.length_map, List.length_reverse]
    rw [Nat.digits_length_le_iff (by norm_num)]

theorem indexToBinary_ok {v n : Nat} (hn : 1 ≤ n) (hv : v < 2 ^ n) :
    ∃ l, indexToBinary v n = .ok l ∧ l.length = n ∧ IsBits l ∧ bitsValue l = v := by
  have hlen := (binStr_length_le hn).mpr hv
  unfold indexToBinary
  rw [if_neg (by omega)]
  split
  · rename_i h
    refine ⟨_, rfl, ?_, ?_, ?_⟩
    · simp; omega
    · exact isBits_append.mpr ⟨isBits_replicate _, isBits_binStr v⟩
    · rw [bitsValue_append, bitsValue_replicate_zero, bitsValue_binStr]; simp
  · refine ⟨_, rfl, by omega, isBits_binStr v, bitsValue_binStr v⟩

theorem indexToBinary_err {v n : Nat} (hn : 1 ≤ n) (hv : 2 ^ n ≤ v) :
    indexToBinary v n = .error .exception := by
  unfold indexToBinary
  rw [if_pos]
  by_contra h
  have h2 := (binStr_length_le (v := v) hn).mp (by omega)
  omega

theorem binToNatAux_eq {l : List Val} (h : IsBits l) (acc : Nat) :
    binToNatAux l acc = .ok (acc * 2 ^ l.length + bitsValue l) := by
  induction l generalizing acc with
  | nil => simp [binToNatAux, bitsValue]
  | cons x xs ih =>
    have hx := h x List.mem_cons_self
    have hxs : IsBits xs := fun y hy => h y (List.mem_cons_of_mem _ hy)
    rcases hx with rfl | rfl
    · rw [binToNatAux, if_pos (by decide), ih hxs]
      have : symWeight (Val.str "0") = 0 := by decide
      simp only [bitsValue, this, List.length_cons, pow_succ]
      congr 1; ring
    · rw [binToNatAux, if_neg (by decide), if_pos (by decide), ih hxs]
      have : symWeight (Val.str "1") = 1 := by decide
      simp only [bitsValue, this, List.length_cons, pow_succ]
      congr 1; ring

theorem binToNat_eq {l : List Val} (h : IsBits l) (hne : l ≠ []) : binToNat l = .ok (bitsValue l) := by
  unfold binToNat
  rw [if_neg (by simpa using hne), binToNatAux_eq h]
  simp

theorem bitsValue_inj : ∀ {a b : List Val}, IsBits a → IsBits b → a.length = b.length →
    bitsValue a = bitsValue b → a = b := by
  intro a
  induction a with
  | nil => intro b _ _ hl _; exact (List.length_eq_zero_iff.mp hl.symm).symm
  | cons x xs ih =>
    intro b ha hb hl hv
    cases b with
    | nil => simp at hl
    | cons y ys =>
      have hl' : xs.length = ys.length := by simpa using hl
      have hxs : IsBits xs := fun z hz => ha z (List.mem_cons_of_mem _ hz)
      have hys : IsBits ys := fun z hz => hb z (List.mem_cons_of_mem _ hz)
      have lx := @bitsValue_lt xs
      have ly := @bitsValue_lt ys
      simp only [bitsValue, hl'] at hv
      rw [hl'] at lx
      have w0 : symWeight (Val.str "0") = 0 := by decide
      have w1 : symWeight (Val.str "1") = 1 := by decide
      rcases ha x List.mem_cons_self with rfl | rfl <;> rcases hb y List.mem_cons_self with rfl | rfl
      · rw [w0] at hv; simp at hv; rw [ih hxs hys hl' hv]
      · rw [w0, w1] at hv; omega
      · rw [w0, w1] at hv; omega
      · rw [w1] at hv; simp at hv; rw [ih hxs hys hl' hv]

/-- The symbol of a bit. -/
def bitSym : Bool → Val
  | true => bit1
  | false => bit0

/-- Symbol `j` of a bit string is bit `length - 1 - j` of its value. -/
theorem bits_get {l : List Val} (h : IsBits l) : ∀ {j : Nat}, j < l.length →
    l[j]? = some (bitSym ((bitsValue l).testBit (l.length - 1 - j))) := by
  induction l with
  | nil => intro j hj; simp at hj
  | cons x xs ih =>
    intro j hj
    have hxs : IsBits xs := fun y hy => h y (List.mem_cons_of_mem _ hy)
    have lx := @bitsValue_lt xs
    cases j with
    | zero =>
      have e : (x :: xs).length - 1 - 0 = xs.length := by simp
      rw [e, List.getElem?_cons_zero, bitsValue]
      rcases h x List.mem_cons_self with rfl | rfl
      · have : symWeight (Val.str "0") = 0 := by decide
        rw [this, Nat.zero_mul, Nat.zero_add, Nat.testBit_lt_two_pow lx]; rfl
      · have : symWeight (Val.str "1") = 1 := by decide
        rw [this, Nat.one_mul, Nat.testBit_two_pow_add_eq, Nat.testBit_lt_two_pow lx]; rfl
    | succ j =>
      have hj' : j < xs.length := by simpa using hj
      rw [List.getElem?_cons_succ, ih hxs hj']
      have e : (x :: xs).length - 1 - (j + 1) = xs.length - 1 - j := by simp; omega
      rw [e, bitsValue, Nat.mul_comm, Nat.testBit_two_pow_mul_add _ lx, if_pos (by omega)]

/-! ## Gray code -/

theorem testBit_gray (v i : Nat) : (grayValue v).testBit i = (v.testBit i ^^ v.testBit (i + 1)) := by
  unfold grayValue
  rw [Nat.testBit_xor, Nat.testBit_shiftRight, Nat.add_comm]

/-- The decoding function without accumulator. -/
theorem grayLoop_acc : ∀ (f real g : Nat), grayLoop f real g = real ^^^ grayLoop f 0 g := by
  intro f
  induction f with
  | zero => intro real g; simp [grayLoop]
  | succ f ih =>
    intro real g
    simp only [grayLoop]
    split
    · rw [ih (real ^^^ g), ih (0 ^^^ g), Nat.zero_xor, Nat.xor_assoc]
    · simp

/-- More fuel than the value does not change the result of the loop. -/
theorem grayLoop_fuel : ∀ (g f real : Nat), g ≤ f → grayLoop f real g = grayLoop g real g := by
  intro g
  induction g using Nat.strong_induction_on with
  | _ g ih =>
    intro f real hf
    cases g with
    | zero => cases f <;> simp [grayLoop]
    | succ g =>
      cases f with
      | zero => omega
      | succ f =>
        simp only [grayLoop, Nat.succ_pos, if_true]
        have hlt : (g + 1) >>> 1 < g + 1 := by rw [Nat.shiftRight_eq_div_pow]; omega
        rw [ih _ hlt f _ (by omega), ih _ hlt g _ (by omega)]

theorem indexFromGray_zero : indexFromGray 0 = 0 := rfl

theorem indexFromGray_step (g : Nat) : indexFromGray g = g ^^^ indexFromGray (g >>> 1) := by
  unfold indexFromGray
  cases g with
  | zero => rfl
  | succ g =>
    have hlt : (g + 1) >>> 1 < g + 1 := by rw [Nat.shiftRight_eq_div_pow]; omega
    conv_lhs => simp only [grayLoop, Nat.succ_pos, if_true]
    rw [grayLoop_acc, Nat.zero_xor, grayLoop_fuel _ g _ (by omega)]

theorem grayValue_shift (v : Nat) : (grayValue v) >>> 1 = grayValue (v >>> 1) := by
  apply Nat.eq_of_testBit_eq
  intro i
  rw [Nat.testBit_shiftRight, testBit_gray, testBit_gray, Nat.testBit_shiftRight, Nat.testBit_shiftRight]
  congr 2

theorem indexFromGray_grayValue (v : Nat) : indexFromGray (grayValue v) = v := by
  induction v using Nat.strong_induction_on with
  | _ v ih =>
    rcases Nat.eq_zero_or_pos v with rfl | hv
    · rfl
    · have hlt : v >>> 1 < v := by rw [Nat.shiftRight_eq_div_pow]; omega
      rw [indexFromGray_step, grayValue_shift, ih _ hlt]
      unfold grayValue
      rw [Nat.xor_assoc, Nat.xor_self, Nat.xor_zero]

theorem grayValue_lt {v n : Nat} (h : v < 2 ^ n) : grayValue v < 2 ^ n := by
  unfold grayValue
  apply Nat.xor_lt_two_pow h
  exact lt_of_le_of_lt (by rw [Nat.shiftRight_eq_div_pow]; exact Nat.div_le_self _ _) h

theorem indexFromGray_lt {n : Nat} : ∀ {v : Nat}, v < 2 ^ n → indexFromGray v < 2 ^ n := by
  intro v
  induction v using Nat.strong_induction_on with
  | _ v ih =>
    intro h
    rcases Nat.eq_zero_or_pos v with rfl | hv
    · rw [indexFromGray_zero]; positivity
    · have hlt : v >>> 1 < v := by rw [Nat.shiftRight_eq_div_pow]; omega
      rw [indexFromGray_step]
      exact Nat.xor_lt_two_pow h (ih _ hlt (lt_trans hlt h))

theorem grayValue_indexFromGray (v : Nat) : grayValue (indexFromGray v) = v := by
  induction v using Nat.strong_induction_on with
  | _ v ih =>
    rcases Nat.eq_zero_or_pos v with rfl | hv
    · rfl
    · have hlt : v >>> 1 < v := by rw [Nat.shiftRight_eq_div_pow]; omega
      have h1 := ih _ hlt
      unfold grayValue at h1 ⊢
      rw [indexFromGray_step v]
      apply Nat.eq_of_testBit_eq
      intro i
      have h2 := congrArg (fun n => n.testBit i) h1
      simp only [Nat.testBit_xor, Nat.testBit_shiftRight] at h2 ⊢
      revert h2
      cases v.testBit i <;> cases v.testBit (1 + i) <;> cases (indexFromGray (v >>> 1)).testBit i <;>
        cases (indexFromGray (v >>> 1)).testBit (1 + i) <;> simp

/-- Gray codes of neighbours differ in one bit. -/
theorem gray_neighbour (v : Nat) :
    ∃ k, ∀ i, ((grayValue v).testBit i ≠ (grayValue (v + 1)).testBit i ↔ i = k) := by
  induction v using Nat.strong_induction_on with
  | _ v ih =>
    rcases Nat.even_or_odd' v with ⟨w, rfl | rfl⟩
    · refine ⟨0, fun i => ?_⟩
      rw [testBit_gray, testBit_gray]
      cases i with
      | zero =>
        have h1 : (2 * w).testBit 0 = false := by simp [Nat.testBit_zero]
        have h2 : (2 * w + 1).testBit 0 = true := by simp [Nat.testBit_zero]
        have h3 : (2 * w).testBit 1 = (2 * w + 1).testBit 1 := by
          rw [Nat.testBit_succ, Nat.testBit_succ]; congr 1; omega
        simp only [h1, h2, Nat.zero_add, h3]
        cases (2 * w + 1).testBit 1 <;> simp
      | succ i =>
        have h3 : ∀ j, (2 * w).testBit (j + 1) = (2 * w + 1).testBit (j + 1) := by
          intro j; rw [Nat.testBit_succ, Nat.testBit_succ]; congr 1; omega
        rw [h3, h3]; simp
    · obtain ⟨k, hk⟩ := ih w (by omega)
      refine ⟨k + 1, fun i => ?_⟩
      cases i with
      | zero =>
        rw [testBit_gray, testBit_gray]
        have e : 2 * w + 1 + 1 = 2 * (w + 1) := by ring
        rw [e]
        have h1 : (2 * (w + 1)).testBit 0 = false := by simp [Nat.testBit_zero]
        have h2 : (2 * w + 1).testBit 0 = true := by simp [Nat.testBit_zero]
        have h3 : (2 * w + 1).testBit (0 + 1) = w.testBit 0 := by
          rw [Nat.testBit_succ]; congr 1; omega
        have h4 : (2 * (w + 1)).testBit (0 + 1) = (w + 1).testBit 0 := by
          rw [Nat.testBit_succ]; congr 1; omega
        have h5 : (w + 1).testBit 0 = !w.testBit 0 := by
          rw [Nat.testBit_zero, Nat.testBit_zero]
          rcases Nat.mod_two_eq_zero_or_one w with h | h
          · have : (w + 1) % 2 = 1 := by omega
            simp [h, this]
          · have : (w + 1) % 2 = 0 := by omega
            simp [h, this]
        rw [h1, h2, h3, h4, h5]
        cases w.testBit 0 <;> simp
      | succ i =>
        have e1 : (grayValue (2 * w + 1)).testBit (i + 1) = (grayValue w).testBit i := by
          have := grayValue_shift (2 * w + 1)
          have hs : (2 * w + 1) >>> 1 = w := by rw [Nat.shiftRight_eq_div_pow]; omega
          rw [hs] at this
          rw [← this, Nat.testBit_shiftRight, Nat.add_comm 1 i]
        have e2 : (grayValue (2 * w + 1 + 1)).testBit (i + 1) = (grayValue (w + 1)).testBit i := by
          have := grayValue_shift (2 * w + 1 + 1)
          have hs : (2 * w + 1 + 1) >>> 1 = w + 1 := by rw [Nat.shiftRight_eq_div_pow]; omega
          rw [hs] at this
          rw [← this, Nat.testBit_shiftRight, Nat.add_comm 1 i]
        rw [e1, e2, hk i]; omega

end BaumEva
