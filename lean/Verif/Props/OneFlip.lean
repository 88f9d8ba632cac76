import Verif.Props.Coding
import Verif.Props.Mutation
import Mathlib.Algebra.BigOperators.Intervals
/-!
# C131: how far one inverted bit moves a variable

`BinStringMutation` inverts single bits (C20).  What this does to the decoded values depends on the coding.
-/
namespace BaumEva
open Spec

/-! ## What one bit does to an index -/

/-- Standard coding: the indices differ by `2 ^ m`. -/
def Jumps (m i j : Nat) : Prop := i + 2 ^ m = j ∨ j + 2 ^ m = i

/-- Gray coding: the indices are mirror images in their block of `2 ^ (m + 1)` neighbouring indices. -/
def Mirrored (m i j : Nat) : Prop := i / 2 ^ (m + 1) = j / 2 ^ (m + 1) ∧ i % 2 ^ (m + 1) + j % 2 ^ (m + 1) + 1 = 2 ^ (m + 1)

theorem bitSym_inj {a b : Bool} (h : bitSym a = bitSym b) : a = b := by
  cases a <;> cases b <;> first | rfl | exact absurd h (by decide)

theorem flipBit_bitSym (b : Bool) : flipBit (bitSym b) = bitSym (!b) := by cases b <;> decide

theorem isBits_flip {l : List Val} (h : IsBits l) (k : Nat) : IsBits (l.modify k flipBit) := by
  intro x hx
  obtain ⟨j, hj⟩ := List.mem_iff_getElem?.mp hx
  rw [List.getElem?_modify] at hj
  cases e : l[j]? with
  | none => rw [e] at hj; simp at hj
  | some y =>
    rw [e] at hj
    have hy := h y (List.mem_of_getElem? e)
    simp only [Option.map_eq_map, Option.map_some, Option.some.injEq] at hj
    split at hj
    · rw [← hj]; unfold flipBit; split <;> simp
    · rw [← hj]; exact hy

/-- The value of a bit string with one bit inverted. -/
theorem bitsValue_flip {l : List Val} (h : IsBits l) {k : Nat} (hk : k < l.length) :
    bitsValue (l.modify k flipBit) = bitsValue l ^^^ 2 ^ (l.length - 1 - k) := by
  apply Nat.eq_of_testBit_eq
  intro b
  have hlen : (l.modify k flipBit).length = l.length := List.length_modify ..
  by_cases hb : b < l.length
  · have h1 := bits_get h (j := l.length - 1 - b) (by omega)
    have h2 := bits_get (isBits_flip h k) (j := l.length - 1 - b) (by omega)
    rw [List.getElem?_modify, h1, hlen, show l.length - 1 - (l.length - 1 - b) = b by omega] at h2
    simp only [Option.map_eq_map, Option.map_some, Option.some.injEq] at h2
    rw [Nat.testBit_xor, Nat.testBit_two_pow]
    split at h2
    · rename_i e
      rw [flipBit_bitSym] at h2
      rw [← bitSym_inj h2, decide_eq_true (by omega)]
      simp
    · rename_i e
      rw [← bitSym_inj h2, decide_eq_false (by omega)]
      simp
  · have hw : 2 ^ l.length ≤ 2 ^ b := Nat.pow_le_pow_right (by norm_num) (by omega)
    have h1 : bitsValue l < 2 ^ b := lt_of_lt_of_le bitsValue_lt hw
    have h2 : bitsValue (l.modify k flipBit) < 2 ^ b := lt_of_lt_of_le bitsValue_lt (by rw [hlen]; exact hw)
    rw [Nat.testBit_lt_two_pow h2, Nat.testBit_xor, Nat.testBit_lt_two_pow h1, Nat.testBit_two_pow, decide_eq_false (by omega)]
    rfl

theorem xor_jumps (v m : Nat) : Jumps m v (v ^^^ 2 ^ m) := by
  induction m generalizing v with
  | zero =>
    have e : v ^^^ 2 ^ 0 = 2 * (v / 2) + (1 - v % 2) := by
      rw [Nat.pow_zero]
      apply Nat.eq_of_testBit_eq
      intro b
      cases b with
      | zero =>
        rw [Nat.testBit_xor, Nat.testBit_zero, Nat.testBit_zero, Nat.testBit_zero]
        rcases Nat.mod_two_eq_zero_or_one v with h | h <;> simp [h]
      | succ b =>
        rw [Nat.testBit_xor, Nat.testBit_succ, Nat.testBit_succ, Nat.testBit_succ, show (2 * (v / 2) + (1 - v % 2)) / 2 = v / 2 by omega]
        simp
    unfold Jumps
    rw [e]
    omega
  | succ m ih =>
    have e : v ^^^ 2 ^ (m + 1) = 2 * ((v / 2) ^^^ 2 ^ m) + v % 2 := by
      apply Nat.eq_of_testBit_eq
      intro b
      cases b with
      | zero =>
        rw [Nat.testBit_xor, Nat.testBit_two_pow, decide_eq_false (by omega), Nat.testBit_zero, Nat.testBit_zero]
        simp
      | succ b =>
        rw [Nat.testBit_xor, Nat.testBit_succ, Nat.testBit_succ, Nat.testBit_succ, show (2 * ((v / 2) ^^^ 2 ^ m) + v % 2) / 2 = (v / 2) ^^^ 2 ^ m by omega,
          Nat.testBit_xor, show 2 ^ (m + 1) / 2 = 2 ^ m by rw [Nat.pow_succ]; omega]
    have := ih (v / 2)
    unfold Jumps at this ⊢
    rw [e, Nat.pow_succ]
    omega

/-- The Gray code with one bit inverted is the code of the mirror image. -/
theorem gray_xor (i m : Nat) : grayValue (i ^^^ (2 ^ (m + 1) - 1)) = grayValue i ^^^ 2 ^ m := by
  apply Nat.eq_of_testBit_eq
  intro b
  rw [testBit_gray, Nat.testBit_xor, Nat.testBit_xor, Nat.testBit_xor, testBit_gray, Nat.testBit_two_pow_sub_one, Nat.testBit_two_pow_sub_one, Nat.testBit_two_pow]
  rcases lt_trichotomy b m with h | h | h
  · rw [decide_eq_true (show b < m + 1 by omega), decide_eq_true (show b + 1 < m + 1 by omega), decide_eq_false (show ¬ m = b by omega)]
    cases i.testBit b <;> cases i.testBit (b + 1) <;> rfl
  · rw [decide_eq_true (show b < m + 1 by omega), decide_eq_false (show ¬ b + 1 < m + 1 by omega), decide_eq_true (show m = b by omega)]
    cases i.testBit b <;> cases i.testBit (b + 1) <;> rfl
  · rw [decide_eq_false (show ¬ b < m + 1 by omega), decide_eq_false (show ¬ b + 1 < m + 1 by omega), decide_eq_false (show ¬ m = b by omega)]
    cases i.testBit b <;> cases i.testBit (b + 1) <;> rfl

theorem xor_mirrored (i m : Nat) : Mirrored m i (i ^^^ (2 ^ (m + 1) - 1)) := by
  have hp : 0 < 2 ^ (m + 1) := Nat.two_pow_pos _
  constructor
  · rw [Nat.xor_div_two_pow, Nat.div_eq_of_lt (show 2 ^ (m + 1) - 1 < 2 ^ (m + 1) by omega), Nat.xor_zero]
  · have hlt := Nat.mod_lt i hp
    have : (i ^^^ (2 ^ (m + 1) - 1)) % 2 ^ (m + 1) = 2 ^ (m + 1) - (i % 2 ^ (m + 1) + 1) := by
      apply Nat.eq_of_testBit_eq
      intro b
      rw [Nat.testBit_two_pow_sub_succ hlt, Nat.testBit_mod_two_pow, Nat.testBit_mod_two_pow, Nat.testBit_xor, Nat.testBit_two_pow_sub_one]
      by_cases hb : b < m + 1 <;> simp [hb]
    rw [this]
    omega

/-- What one inverted bit does to the index of a value. -/
def IndexStep (gray : Bool) (m i j : Nat) : Prop := if gray then Mirrored m i j else Jumps m i j

theorem step_flip {gray : Bool} {l : List Val} (h : IsBits l) {k : Nat} (hk : k < l.length) :
    IndexStep gray (l.length - 1 - k) (decIdx gray (bitsValue l)) (decIdx gray (bitsValue (l.modify k flipBit))) := by
  rw [bitsValue_flip h hk]
  generalize l.length - 1 - k = m
  generalize bitsValue l = v
  cases gray with
  | false => exact xor_jumps v m
  | true =>
    show Mirrored m (indexFromGray v) (indexFromGray (v ^^^ 2 ^ m))
    have e : indexFromGray (v ^^^ 2 ^ m) = indexFromGray v ^^^ (2 ^ (m + 1) - 1) := by
      rw [← indexFromGray_grayValue (indexFromGray v ^^^ (2 ^ (m + 1) - 1)), gray_xor, grayValue_indexFromGray]
    rw [e]
    exact xor_mirrored _ _

/-- Mirror images are an odd number of steps apart, less than the length of the block. -/
theorem Mirrored.apart {m i j : Nat} (h : Mirrored m i j) : ∃ c : Nat, c % 2 = 1 ∧ c < 2 ^ (m + 1) ∧ |(j : ℚ) - i| = c := by
  obtain ⟨h1, h2⟩ := h
  have e1 := Nat.div_add_mod i (2 ^ (m + 1))
  have e2 := Nat.div_add_mod j (2 ^ (m + 1))
  rw [← h1] at e2
  have hpow : 2 ^ (m + 1) = 2 * 2 ^ m := by rw [Nat.pow_succ, Nat.mul_comm]
  generalize 2 ^ (m + 1) * (i / 2 ^ (m + 1)) = q at e1 e2
  rcases Nat.le_total i j with hij | hij
  · refine ⟨j - i, by omega, by omega, ?_⟩
    rw [abs_of_nonneg (by rw [sub_nonneg]; exact_mod_cast hij), Nat.cast_sub hij]
  · refine ⟨i - j, by omega, by omega, ?_⟩
    rw [abs_sub_comm, abs_of_nonneg (by rw [sub_nonneg]; exact_mod_cast hij), Nat.cast_sub hij]

theorem Jumps.apart {m i j : Nat} (h : Jumps m i j) : |(j : ℚ) - i| = 2 ^ m := by
  rcases h with rfl | rfl
  · push_cast
    rw [add_sub_cancel_left, abs_of_pos (by positivity)]
  · push_cast
    rw [show (j : ℚ) - (j + 2 ^ m) = -2 ^ m by ring, abs_neg, abs_of_pos (by positivity)]

/-! ## What it does to the decoded values -/

theorem take_flip {l : List Val} {k n : Nat} : (l.modify k flipBit).take n = (l.take n).modify k flipBit := by
  apply List.ext_getElem?
  intro j
  rw [List.getElem?_take, List.getElem?_modify, List.getElem?_modify, List.getElem?_take]
  split <;> simp

theorem take_flip_ge {l : List Val} {k n : Nat} (h : n ≤ k) : (l.modify k flipBit).take n = l.take n := by
  apply List.ext_getElem?
  intro j
  rw [List.getElem?_take, List.getElem?_modify, List.getElem?_take]
  split
  · simp only [if_neg (show ¬ k = j by omega)]; simp
  · rfl

theorem drop_flip_lt {l : List Val} {k n : Nat} (h : k < n) : (l.modify k flipBit).drop n = l.drop n := by
  apply List.ext_getElem?
  intro j
  rw [List.getElem?_drop, List.getElem?_modify, List.getElem?_drop]
  simp only [if_neg (show ¬ k = n + j by omega)]
  simp

theorem drop_flip_ge {l : List Val} {k n : Nat} (h : n ≤ k) : (l.modify k flipBit).drop n = (l.drop n).modify (k - n) flipBit := by
  apply List.ext_getElem?
  intro j
  rw [List.getElem?_drop, List.getElem?_modify, List.getElem?_modify, List.getElem?_drop]
  by_cases e : k = n + j
  · simp only [if_pos e, if_pos (show k - n = j by omega)]
  · simp only [if_neg e, if_neg (show ¬ k - n = j by omega)]

theorem points_flip {gray : Bool} : ∀ {gens : List BinGene} {ps : List GeneParams}, List.Forall₂ (fun g p => geneParams g = .ok p) gens ps →
    ∀ {rest : List Val} {pos : Nat}, IsBits rest → pos < totalBits ps → totalBits ps ≤ rest.length →
    ∃ u g p m i j, gens[u]? = some g ∧ geneParams g = .ok p ∧ m < p.numBits ∧ pos + m + 1 = totalBits (ps.take (u + 1)) ∧
      (points gray rest gens ps)[u]? = some (.num (g.lo + (i : Nat) * p.realStep)) ∧
      (points gray (rest.modify pos flipBit) gens ps)[u]? = some (.num (g.lo + (j : Nat) * p.realStep)) ∧ IndexStep gray m i j ∧
      ∀ k, k ≠ u → (points gray (rest.modify pos flipBit) gens ps)[k]? = (points gray rest gens ps)[k]? := by
  intro gens ps h
  induction h with
  | nil => intro rest pos _ hpos; simp [totalBits] at hpos
  | @cons g p gs ps hp _ ih =>
    intro rest pos hb hpos hl
    simp only [totalBits, List.map_cons, List.sum_cons] at hpos hl
    by_cases hlt : pos < p.numBits
    · have hlen : (rest.take p.numBits).length = p.numBits := by rw [List.length_take]; omega
      have hs := step_flip (gray := gray) (isBits_take hb p.numBits) (k := pos) (by omega)
      refine ⟨0, g, p, p.numBits - 1 - pos, _, _, rfl, hp, by omega, by simp [totalBits]; omega, rfl, rfl, ?_, ?_⟩
      · rw [take_flip]
        rw [hlen] at hs
        exact hs
      · intro k hk
        obtain ⟨k, rfl⟩ := Nat.exists_eq_succ_of_ne_zero hk
        rw [points, points, drop_flip_lt hlt]
        rfl
    · obtain ⟨u, g', p', m, i, j, h1, h2, h3, h4, h5, h6, h7, h8⟩ := ih (isBits_drop hb p.numBits) (pos := pos - p.numBits) (by simp only [totalBits]; omega)
        (by rw [List.length_drop]; simp only [totalBits]; omega)
      refine ⟨u + 1, g', p', m, i, j, h1, h2, h3, ?_, ?_, ?_, h7, ?_⟩
      · rw [List.take_succ_cons]
        simp only [totalBits, List.map_cons, List.sum_cons] at h4 ⊢
        omega
      · rw [points]; exact h5
      · rw [points, drop_flip_ge (by omega)]; exact h6
      · intro k hk
        rw [points, points, drop_flip_ge (by omega), take_flip_ge (by omega)]
        cases k with
        | zero => rfl
        | succ k => exact h8 k (by omega)

theorem gensParamsR_ends {rnd : ℚ → ℚ} : ∀ {gens : List BinGene} {off : Nat} {ps : List GeneParams} {offs : List Nat},
    gensParamsR rnd gens off = .ok (ps, offs) → ∀ {u : Nat}, u < gens.length → offs[u]? = some (off + totalBits (ps.take (u + 1))) := by
  intro gens
  induction gens with
  | nil => intro off ps offs _ u hu; simp at hu
  | cons g gs ih =>
    intro off ps offs h u hu
    obtain ⟨p, r', hp, hr, e⟩ := gensParamsR_cons.mp h
    simp only [Prod.mk.injEq] at e
    obtain ⟨rfl, rfl⟩ := e
    cases u with
    | zero => simp [totalBits]
    | succ u =>
      have := ih (offs := r'.2) (ps := r'.1) hr (u := u) (by simpa using hu)
      rw [List.getElem?_cons_succ, this, List.take_succ_cons]
      simp [totalBits, Nat.add_assoc]

theorem flip_decode {at_ : Attrs} {gray : Bool} {gens : List BinGene} (hp : Prepared at_ gray gens) (he : at_.arith = .exact) {geno : List Val} (hb : IsBits geno)
    (hl : geno.length = at_.idxBits.getLastD 0) {pos : Nat} (hpos : pos < geno.length) :
    ∃ xs ys u g n m i j, decodeIndivid at_ geno = .ok xs ∧ decodeIndivid at_ (geno.modify pos flipBit) = .ok ys ∧ gens[u]? = some g ∧ GridBits g n ∧ m < n ∧
      at_.idxBits[u + 1]? = some (pos + m + 1) ∧ (∀ k, k ≠ u → ys[k]? = xs[k]?) ∧
      xs[u]? = some (.num (g.lo + (i : Nat) * (|g.hi - g.lo| / (2 ^ n - 1)))) ∧ ys[u]? = some (.num (g.lo + (j : Nat) * (|g.hi - g.lo| / (2 ^ n - 1)))) ∧ IndexStep gray m i j := by
  rw [hp.total] at hl
  obtain ⟨u, g, p, m, i, j, h1, h2, h3, h4, h5, h6, h7, h8⟩ := points_flip (gray := gray) (hp.forall he) hb (pos := pos) (by omega) hl.ge
  obtain ⟨offs, o1, o2⟩ := hp.ok
  have hs := (geneParams_ok h2).2.2.1
  refine ⟨_, _, u, g, p.numBits, m, i, j, hp.decode he hb hl.ge, hp.decode he (isBits_flip hb pos) (by rw [List.length_modify]; exact hl.ge), h1,
    (gridBits_iff h2).mpr rfl, h3, ?_, h8, by rw [← hs]; exact h5, by rw [← hs]; exact h6, h7⟩
  rw [o2, List.getElem?_cons_succ, gensParamsR_ends o1 (List.getElem?_eq_some_iff.mp h1).1, Nat.zero_add, h4]

/-- C131: in the standard coding an inverted bit moves one variable, by a power of two of its grid steps; the power is the number of bits of the variable
behind the inverted one. -/
theorem C131_standard {at_ : Attrs} {gens : List BinGene} (hp : Prepared at_ false gens) (he : at_.arith = .exact) {geno : List Val} (hb : IsBits geno)
    (hl : geno.length = at_.idxBits.getLastD 0) {pos : Nat} (hpos : pos < geno.length) :
    ∃ xs ys u g n m x y, decodeIndivid at_ geno = .ok xs ∧ decodeIndivid at_ (geno.modify pos flipBit) = .ok ys ∧ gens[u]? = some g ∧ GridBits g n ∧ m < n ∧
      at_.idxBits[u + 1]? = some (pos + m + 1) ∧ (∀ k, k ≠ u → ys[k]? = xs[k]?) ∧ xs[u]? = some (.num x) ∧ ys[u]? = some (.num y) ∧
      |y - x| = 2 ^ m * (|g.hi - g.lo| / (2 ^ n - 1)) := by
  obtain ⟨xs, ys, u, g, n, m, i, j, h1, h2, h3, h4, h5, h6, h7, h8, h9, h10⟩ := flip_decode hp he hb hl hpos
  refine ⟨xs, ys, u, g, n, m, _, _, h1, h2, h3, h4, h5, h6, h7, h8, h9, ?_⟩
  have hn : (0 : ℚ) ≤ 2 ^ n - 1 := by rw [sub_nonneg]; exact one_le_pow₀ (by norm_num)
  rw [add_sub_add_left_eq_sub, ← sub_mul, abs_mul, abs_of_nonneg (div_nonneg (abs_nonneg _) hn), Jumps.apart h10]

/-- C131: in the Gray coding an inverted bit with `m` bits of its variable behind it moves the variable by an odd number of steps below `2 ^ (m + 1)`. -/
theorem C131_gray {at_ : Attrs} {gens : List BinGene} (hp : Prepared at_ true gens) (he : at_.arith = .exact) {geno : List Val} (hb : IsBits geno)
    (hl : geno.length = at_.idxBits.getLastD 0) {pos : Nat} (hpos : pos < geno.length) :
    ∃ xs ys u g n m x y, ∃ c : Nat, decodeIndivid at_ geno = .ok xs ∧ decodeIndivid at_ (geno.modify pos flipBit) = .ok ys ∧ gens[u]? = some g ∧ GridBits g n ∧
      m < n ∧ at_.idxBits[u + 1]? = some (pos + m + 1) ∧ (∀ k, k ≠ u → ys[k]? = xs[k]?) ∧ xs[u]? = some (.num x) ∧ ys[u]? = some (.num y) ∧
      c % 2 = 1 ∧ c < 2 ^ (m + 1) ∧ |y - x| = c * (|g.hi - g.lo| / (2 ^ n - 1)) := by
  obtain ⟨xs, ys, u, g, n, m, i, j, h1, h2, h3, h4, h5, h6, h7, h8, h9, h10⟩ := flip_decode hp he hb hl hpos
  obtain ⟨c, c1, c2, c3⟩ := Mirrored.apart h10
  refine ⟨xs, ys, u, g, n, m, _, _, c, h1, h2, h3, h4, h5, h6, h7, h8, h9, c1, c2, ?_⟩
  have hn : (0 : ℚ) ≤ 2 ^ n - 1 := by rw [sub_nonneg]; exact one_le_pow₀ (by norm_num)
  rw [add_sub_add_left_eq_sub, ← sub_mul, abs_mul, abs_of_nonneg (div_nonneg (abs_nonneg _) hn), c3]

/-- C131: in the Gray coding the first bit alone carries a variable from one end of its range to the other. -/
theorem C131_gray_ends {n : Nat} (hn : 1 ≤ n) {a : List Val} (ha : encodeIndex true 0 n = .ok a) : encodeIndex true (2 ^ n - 1) n = .ok (a.modify 0 flipBit) := by
  have hp : 0 < 2 ^ n := Nat.two_pow_pos n
  obtain ⟨a', e1, a2, a3, a4⟩ := encodeIndex_eq (gray := true) hn (v := 0) hp
  rw [ha] at e1
  injection e1 with e1
  subst e1
  obtain ⟨b, f1, b2, b3, b4⟩ := encodeIndex_eq (gray := true) hn (v := 2 ^ n - 1) (by omega)
  rw [f1]
  congr 1
  refine bitsValue_inj b3 (isBits_flip a3 0) (by rw [List.length_modify, a2, b2]) ?_
  rw [bitsValue_flip a3 (by omega), a4, b4, a2]
  have := gray_xor 0 (n - 1)
  rw [Nat.zero_xor, show n - 1 + 1 = n by omega] at this
  exact this

/-- C131: a child that `BinStringMutation` changes at one position is such a genotype with one inverted bit. -/
theorem C131_mutation {σ : Type} {q : ℚ} {g g' : List Val} {s s' : St σ} (h : mutateBits (.float q) g s = (.ok g', s')) (hd : DifferOnce g g') :
    ∃ pos, pos < g.length ∧ g' = g.modify pos flipBit := by
  obtain ⟨hl, pos, hpos, h1⟩ := hd
  obtain ⟨ds, _, h2, _, _, h5⟩ := C20_bit_mutation h
  refine ⟨pos, hpos, ?_⟩
  apply List.ext_getElem?
  intro k
  rw [List.getElem?_modify]
  by_cases hk : k < g.length
  · have hx : g[k]? = some g[k] := List.getElem?_eq_getElem hk
    have hds : ds[k]? = some (ds[k]'(by omega)) := List.getElem?_eq_getElem (by omega)
    obtain ⟨a1, a2⟩ := h5 k _ _ hds hx
    have h1k := h1 k hk
    by_cases e : pos = k
    · have hne : g[k]? ≠ g'[k]? := h1k.mpr e.symm
      have ht : Triggers q (ds[k]'(by omega)) := by
        by_contra hc
        exact hne (by rw [a2 hc, hx])
      rw [a1 ht, hx]
      simp [e]
    · have heq : g[k]? = g'[k]? := by
        by_contra hc
        exact e (h1k.mp hc).symm
      rw [← heq, hx]
      simp [e]
  · rw [List.getElem?_eq_none (by omega), List.getElem?_eq_none (by omega)]
    rfl

/-! ## The mean -/

theorem sum_mirror (M : Nat) : ∑ L ∈ Finset.range (2 * M), |(2 * M : ℤ) - 1 - 2 * L| = 2 * M * M := by
  induction M with
  | zero => simp
  | succ M ih =>
    rw [show 2 * (M + 1) = 2 * M + 1 + 1 by ring, Finset.sum_range_succ, Finset.sum_range_succ']
    have : ∀ L ∈ Finset.range (2 * M), |(2 * ((M + 1 : Nat) : ℤ)) - 1 - 2 * ((L + 1 : Nat) : ℤ)| = |(2 * M : ℤ) - 1 - 2 * L| := by
      intro L _
      congr 1
      push_cast
      ring
    rw [Finset.sum_congr rfl this, ih]
    push_cast
    rw [show (2 * ((M : ℤ) + 1) - 1 - 0) = 2 * M + 1 by ring, show (2 * ((M : ℤ) + 1) - 1 - 2 * (2 * M + 1)) = -(2 * M + 1) by ring, abs_neg,
      abs_of_nonneg (by positivity)]
    ring

theorem sum_blocks (f : Nat → ℤ) (b : Nat) (c : ℤ) (h : ∀ q, ∑ L ∈ Finset.range b, f (q * b + L) = c) : ∀ a : Nat, ∑ i ∈ Finset.range (a * b), f i = a * c
  | 0 => by simp
  | a + 1 => by
    rw [Nat.succ_mul, Finset.sum_range_add, sum_blocks f b c h a, h a]
    push_cast
    ring

/-- C131: on average over all values of a variable both codings move it by the same distance, `2 ^ m` steps for the bit with `m` bits behind it. -/
theorem C131_mean {gray : Bool} {n k : Nat} (hk : k < n) {a : Nat → List Val} {j : Nat → Nat} (ha : ∀ i, i < 2 ^ n → encodeIndex gray i n = .ok (a i))
    (hj : ∀ i, i < 2 ^ n → decodeIndex gray ((a i).modify k flipBit) = .ok (j i)) :
    ∑ i ∈ Finset.range (2 ^ n), |(j i : ℤ) - i| = 2 ^ n * 2 ^ (n - 1 - k) := by
  have hstep : ∀ i, i < 2 ^ n → IndexStep gray (n - 1 - k) i (j i) := by
    intro i hi
    obtain ⟨l, e1, a2, a3, a4⟩ := encodeIndex_eq (gray := gray) (show 1 ≤ n by omega) hi
    rw [ha i hi] at e1
    injection e1 with e1
    subst e1
    have hd := hj i hi
    rw [decodeIndex_eq (isBits_flip a3 k) (by intro h0; have := congrArg List.length h0; rw [List.length_modify, a2] at this; simp at this; omega)] at hd
    injection hd with hd
    have := step_flip (gray := gray) a3 (k := k) (by omega)
    rw [a4, decIdx_encIdx, a2, hd] at this
    exact this
  set m := n - 1 - k with hm
  cases gray with
  | false =>
    rw [Finset.sum_congr rfl (g := fun _ => (2 : ℤ) ^ m) (fun i hi => ?_)]
    · simp
    · have := hstep i (Finset.mem_range.mp hi)
      have h2 := Jumps.apart this
      exact_mod_cast h2
  | true =>
    have e : (2 : Nat) ^ n = 2 ^ (n - (m + 1)) * 2 ^ (m + 1) := by rw [← Nat.pow_add]; congr 1; omega
    let f : Nat → ℤ := fun i => |(2 * 2 ^ m : ℤ) - 1 - 2 * ((i % 2 ^ (m + 1) : Nat) : ℤ)|
    have hf : ∀ i ∈ Finset.range (2 ^ n), |(j i : ℤ) - i| = f i := by
      intro i hi
      obtain ⟨h1, h2⟩ := hstep i (Finset.mem_range.mp hi)
      have e1 := Nat.div_add_mod i (2 ^ (m + 1))
      have e2 := Nat.div_add_mod (j i) (2 ^ (m + 1))
      rw [← h1] at e2
      have hpow : 2 ^ (m + 1) = 2 * 2 ^ m := by rw [Nat.pow_succ, Nat.mul_comm]
      show |(j i : ℤ) - i| = |(2 * 2 ^ m : ℤ) - 1 - 2 * ((i % 2 ^ (m + 1) : Nat) : ℤ)|
      congr 1
      have h3 : ((i % 2 ^ (m + 1) : Nat) : ℤ) + ((j i % 2 ^ (m + 1) : Nat) : ℤ) + 1 = 2 * 2 ^ m := by
        have := congrArg (fun x : Nat => (x : ℤ)) (h2.trans hpow)
        push_cast at this ⊢
        exact this
      have h4 : (j i : ℤ) - i = ((j i % 2 ^ (m + 1) : Nat) : ℤ) - ((i % 2 ^ (m + 1) : Nat) : ℤ) := by
        generalize 2 ^ (m + 1) * (i / 2 ^ (m + 1)) = q at e1 e2
        omega
      rw [h4]
      linarith
    rw [Finset.sum_congr rfl hf, e, sum_blocks f (2 ^ (m + 1)) (2 * 2 ^ m * 2 ^ m) (fun q => ?_)]
    · have e' : (2 : ℤ) ^ n = 2 ^ (n - (m + 1)) * 2 ^ (m + 1) := by exact_mod_cast e
      rw [e', pow_succ]
      push_cast
      ring
    · have := sum_mirror (2 ^ m)
      push_cast at this
      rw [← this, show 2 ^ (m + 1) = 2 * 2 ^ m by rw [Nat.pow_succ, Nat.mul_comm]]
      refine Finset.sum_congr rfl fun L hL => ?_
      rw [Finset.mem_range] at hL
      show |(2 * 2 ^ m : ℤ) - 1 - 2 * (((q * (2 * 2 ^ m) + L) % 2 ^ (m + 1) : Nat) : ℤ)| = _
      rw [show 2 ^ (m + 1) = 2 * 2 ^ m by rw [Nat.pow_succ, Nat.mul_comm], Nat.mul_comm q, Nat.mul_add_mod, Nat.mod_eq_of_lt hL]

/-! ## examples -/

/-- The first bit of the second variable: from one end of the range to the other in the Gray coding, by four of the seven steps in the standard coding. -/
example : IsBits [bit0, bit0, bit0, bit0, bit0] ∧ (exAttrs true).idxBits.getLastD 0 = 5 ∧
    (decodeIndivid (exAttrs true) [bit0, bit0, bit0, bit0, bit0]).toOption = some [.num 0, .num (-1)] ∧
    (decodeIndivid (exAttrs true) ([bit0, bit0, bit0, bit0, bit0].modify 2 flipBit)).toOption = some [.num 0, .num 1] ∧
    (decodeIndivid (exAttrs false) ([bit0, bit0, bit0, bit0, bit0].modify 2 flipBit)).toOption = some [.num 0, .num (1 / 7)] := by
  refine ⟨by decide, rfl, by decide +kernel, by decide +kernel, by decide +kernel⟩

/-- Functions as `C131_mean` asks for exist: the encodings of all indices, and the indices after the flip. -/
example (gray : Bool) : ∃ (a : Nat → List Val) (j : Nat → Nat), (∀ i, i < 2 ^ 3 → encodeIndex gray i 3 = .ok (a i)) ∧
    ∀ i, i < 2 ^ 3 → decodeIndex gray ((a i).modify 1 flipBit) = .ok (j i) := by
  have h : ∀ i, ∃ l : List Val, i < 2 ^ 3 → encodeIndex gray i 3 = .ok l ∧ IsBits l ∧ l.length = 3 := by
    intro i
    by_cases hi : i < 2 ^ 3
    · obtain ⟨l, h1, h2, h3, _⟩ := encodeIndex_eq (gray := gray) (by decide : 1 ≤ 3) hi
      exact ⟨l, fun _ => ⟨h1, h3, h2⟩⟩
    · exact ⟨[], fun h => absurd h hi⟩
  choose a ha using h
  refine ⟨a, fun i => decIdx gray (bitsValue ((a i).modify 1 flipBit)), fun i hi => (ha i hi).1, fun i hi => ?_⟩
  obtain ⟨_, h2, h3⟩ := ha i hi
  exact decodeIndex_eq (isBits_flip h2 1) (by intro h0; have := congrArg List.length h0; rw [List.length_modify, h3] at this; simp at this)

end BaumEva
