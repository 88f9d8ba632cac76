import Verif.Proofs.Coding
import Mathlib.Tactic.NormNum
import Mathlib.Algebra.Order.Round
import Mathlib.Algebra.Order.Floor.Ring
/-! # Lemmas about coding of whole individuals -/
namespace BaumEva
open Spec

/-! ## Rounding -/

theorem pyRound_err (q : ℚ) : |(pyRound q : ℚ) - q| ≤ 1 / 2 := by
  have h1 : (⌊q⌋ : ℚ) ≤ q := Int.floor_le q
  have h2 : q < (⌊q⌋ : ℚ) + 1 := Int.lt_floor_add_one q
  unfold pyRound
  rw [abs_le]
  split
  · constructor <;> linarith
  · split
    · push_cast; constructor <;> linarith
    · split
      · constructor <;> linarith
      · push_cast; constructor <;> linarith

theorem pyRound_nonneg {q : ℚ} (h : 0 ≤ q) : 0 ≤ pyRound q := by
  have : 0 ≤ ⌊q⌋ := Int.floor_nonneg.mpr h
  unfold pyRound
  split
  · exact this
  · split
    · omega
    · split <;> omega

theorem pyRound_le {q : ℚ} {n : Int} (h : q ≤ n) : pyRound q ≤ n := by
  have hf : ⌊q⌋ ≤ n := by
    have : ⌊q⌋ ≤ ⌊(n : ℚ)⌋ := Int.floor_le_floor h
    simpa using this
  unfold pyRound
  split
  · exact hf
  · rename_i h1
    have hlt : ⌊q⌋ < n := by
      rcases lt_or_eq_of_le hf with h2 | h2
      · exact h2
      · exfalso; apply h1; rw [h2]; linarith
    split
    · omega
    · split <;> omega

theorem pyRound_int (n : Int) : pyRound (n : ℚ) = n := by
  unfold pyRound
  rw [if_pos (by simp)]
  simp

/-! ## Parameters -/

theorem geneParams_ok {g : BinGene} {p : GeneParams} (h : geneParams g = .ok p) :
    1 ≤ p.numBits ∧ p.realNumPoints = 2 ^ p.numBits - 1 ∧
      p.realStep = |g.hi - g.lo| / ((2 : ℚ) ^ p.numBits - 1) ∧ 0 < (2 : ℚ) ^ p.numBits - 1 ∧
      p.numBits = (realNumberOfPoints (pyInt (|g.hi - g.lo| / g.step))).1 ∧ g.step ≠ 0 := by
  unfold geneParams at h
  simp only at h
  split at h
  · cases h
  · rename_i hs
    split at h
    · cases h
    · rename_i h0
      injection h with h
      subst h
      have hn : 1 ≤ (realNumberOfPoints (pyInt (|g.hi - g.lo| / g.step))).1 := by
        by_contra hc
        have : (realNumberOfPoints (pyInt (|g.hi - g.lo| / g.step))).1 = 0 := by omega
        apply h0; rw [this]; norm_num
      refine ⟨hn, rfl, rfl, ?_, rfl, hs⟩
      have : (1 : ℚ) < 2 ^ (realNumberOfPoints (pyInt (|g.hi - g.lo| / g.step))).1 :=
        one_lt_pow₀ (by norm_num) (by omega)
      simp only
      linarith

theorem realStep_pos {g : BinGene} {p : GeneParams} (h : geneParams g = .ok p) (hg : g.lo < g.hi) :
    0 < p.realStep := by
  obtain ⟨_, _, h3, h4, _, _⟩ := geneParams_ok h
  rw [h3, abs_of_pos (by linarith)]
  exact div_pos (by linarith) h4

theorem realStep_mul {g : BinGene} {p : GeneParams} (h : geneParams g = .ok p) (hg : g.lo < g.hi) :
    ((2 : ℚ) ^ p.numBits - 1) * p.realStep = g.hi - g.lo := by
  obtain ⟨_, _, h3, h4, _, _⟩ := geneParams_ok h
  rw [h3, abs_of_pos (by linarith)]
  field_simp

/-- Total number of bits. -/
def totalBits (ps : List GeneParams) : Nat := (ps.map GeneParams.numBits).sum

theorem gensParams_cons {g : BinGene} {gs : List BinGene} {off : Nat} {r : List GeneParams × List Nat} :
    gensParams (g :: gs) off = .ok r ↔
      ∃ p r', geneParams g = .ok p ∧ gensParams gs (off + p.numBits) = .ok r' ∧
        r = (p :: r'.1, (off + p.numBits) :: r'.2) := by
  conv_lhs => unfold gensParams
  cases hp : geneParams g with
  | error e => simp [bind, Except.bind]
  | ok p =>
    cases hr : gensParams gs (off + p.numBits) with
    | error e => simp [bind, Except.bind, hr]
    | ok r' =>
      obtain ⟨a, b⟩ := r'
      simp only [bind, Except.bind, hr, pure, Except.pure, Except.ok.injEq]
      constructor
      · intro h; exact ⟨p, (a, b), rfl, hr, h.symm⟩
      · rintro ⟨p', r'', h1, h2, h3⟩
        subst h1
        rw [hr] at h2
        injection h2 with h2
        rw [h3, ← h2]

theorem gensParams_forall {gens : List BinGene} : ∀ {off : Nat} {ps : List GeneParams} {offs : List Nat},
    gensParams gens off = .ok (ps, offs) → List.Forall₂ (fun g p => geneParams g = .ok p) gens ps := by
  induction gens with
  | nil => intro off ps offs h; simp [gensParams] at h; rw [h.1]; exact .nil
  | cons g gs ih =>
    intro off ps offs h
    obtain ⟨p, r', hp, hr, e⟩ := gensParams_cons.mp h
    simp only [Prod.mk.injEq] at e
    rw [e.1]
    exact .cons hp (ih (offs := r'.2) hr)

theorem gensParams_last {gens : List BinGene} : ∀ {off : Nat} {ps : List GeneParams} {offs : List Nat},
    gensParams gens off = .ok (ps, offs) → (off :: offs).getLastD 0 = off + totalBits ps := by
  induction gens with
  | nil => intro off ps offs h; simp [gensParams] at h; simp [h, totalBits]
  | cons g gs ih =>
    intro off ps offs h
    obtain ⟨p, r', hp, hr, e⟩ := gensParams_cons.mp h
    simp only [Prod.mk.injEq] at e
    have := ih (offs := r'.2) hr
    rw [e.1, e.2, List.getLastD_cons]
    have e2 : ((off + p.numBits) :: r'.2).getLastD off = ((off + p.numBits) :: r'.2).getLastD 0 := by
      rw [List.getLastD_cons, List.getLastD_cons]
    rw [e2, this]
    simp [totalBits]; omega

/-! ## Decoding -/

/-- Index denoted by the value of a segment. -/
def decIdx (gray : Bool) (v : Nat) : Nat := if gray then indexFromGray v else v

/-- Value stored for an index. -/
def encIdx (gray : Bool) (v : Nat) : Nat := if gray then grayValue v else v

theorem encIdx_decIdx (gray : Bool) (v : Nat) : encIdx gray (decIdx gray v) = v := by
  cases gray <;> simp [encIdx, decIdx, grayValue_indexFromGray]

theorem decIdx_encIdx (gray : Bool) (v : Nat) : decIdx gray (encIdx gray v) = v := by
  cases gray <;> simp [encIdx, decIdx, indexFromGray_grayValue]

theorem decIdx_lt {gray : Bool} {v n : Nat} (h : v < 2 ^ n) : decIdx gray v < 2 ^ n := by
  cases gray
  · simpa [decIdx] using h
  · simpa [decIdx] using indexFromGray_lt h

theorem encIdx_lt {gray : Bool} {v n : Nat} (h : v < 2 ^ n) : encIdx gray v < 2 ^ n := by
  cases gray
  · simpa [encIdx] using h
  · simpa [encIdx] using grayValue_lt h

theorem decodeIndex_eq {gray : Bool} {l : List Val} (h : IsBits l) (hne : l ≠ []) :
    decodeIndex gray l = .ok (decIdx gray (bitsValue l)) := by
  unfold decodeIndex
  rw [binToNat_eq h hne]
  rfl

/-- The grid points denoted by the consecutive segments of a symbol list. -/
def points (gray : Bool) : List Val → List BinGene → List GeneParams → List Val
  | rest, g :: gs, p :: ps =>
    .num (g.lo + (decIdx gray (bitsValue (rest.take p.numBits)) : ℚ) * p.realStep) ::
      points gray (rest.drop p.numBits) gs ps
  | _, _, _ => []

theorem isBits_take {l : List Val} (h : IsBits l) (n : Nat) : IsBits (l.take n) :=
  fun x hx => h x (List.mem_of_mem_take hx)

theorem isBits_drop {l : List Val} (h : IsBits l) (n : Nat) : IsBits (l.drop n) :=
  fun x hx => h x (List.mem_of_mem_drop hx)

theorem decodeGenes_eq {gray : Bool} {geno : List Val} (hb : IsBits geno) :
    ∀ {gens : List BinGene} {off : Nat} {ps : List GeneParams} {offs : List Nat},
    gensParams gens off = .ok (ps, offs) → off + totalBits ps ≤ geno.length →
    decodeGenes gray geno gens ps (off :: offs) = .ok (points gray (geno.drop off) gens ps) := by
  intro gens
  induction gens with
  | nil => intro off ps offs h _; simp [decodeGenes, points]
  | cons g gs ih =>
    intro off ps offs h hl
    obtain ⟨p, r', hp, hr, e⟩ := gensParams_cons.mp h
    simp only [Prod.mk.injEq] at e
    obtain ⟨rfl, rfl⟩ := e
    have hn := (geneParams_ok hp).1
    simp only [totalBits, List.map_cons, List.sum_cons] at hl
    have hseg : slice geno off (off + p.numBits) = (geno.drop off).take p.numBits := by
      unfold slice; congr 1; omega
    have hne : (geno.drop off).take p.numBits ≠ [] := by
      intro h0
      have := congrArg List.length h0
      simp at this; omega
    rw [decodeGenes, hseg, decodeIndex_eq (isBits_take (isBits_drop hb _) _) hne]
    have := ih (offs := r'.2) hr (by simp only [totalBits]; omega)
    simp only [bind, Except.bind, this, pure, Except.pure, points, List.drop_drop]

theorem points_length {gray : Bool} : ∀ {gens : List BinGene} {ps : List GeneParams} {rest : List Val},
    gens.length = ps.length → (points gray rest gens ps).length = gens.length := by
  intro gens
  induction gens with
  | nil => intro ps rest h; simp [points]
  | cons g gs ih =>
    intro ps rest h
    cases ps with
    | nil => simp at h
    | cons p ps => simp only [points, List.length_cons]; rw [ih (by simpa using h)]

theorem take_bits_lt {rest : List Val} {n : Nat} : bitsValue (rest.take n) < 2 ^ n := by
  refine lt_of_lt_of_le bitsValue_lt (Nat.pow_le_pow_right (by norm_num) ?_)
  simp

theorem cast_le_pow {i n : Nat} (h : i < 2 ^ n) : (i : ℚ) ≤ 2 ^ n - 1 := by
  have h2 : i + 1 ≤ 2 ^ n := h
  have h3 : ((i + 1 : Nat) : ℚ) ≤ ((2 ^ n : Nat) : ℚ) := by exact_mod_cast h2
  push_cast at h3
  linarith

/-- A grid point lies in the range of its gene. -/
theorem grid_range {g : BinGene} {p : GeneParams} (hp : geneParams g = .ok p) (hg : g.lo < g.hi) {i : Nat}
    (hi : i < 2 ^ p.numBits) : g.lo ≤ g.lo + (i : ℚ) * p.realStep ∧ g.lo + (i : ℚ) * p.realStep ≤ g.hi := by
  have hs := realStep_pos hp hg
  have hm := realStep_mul hp hg
  have hc := cast_le_pow hi
  have h0 : (0 : ℚ) ≤ i := by positivity
  constructor
  · have := mul_nonneg h0 hs.le; linarith
  · have := mul_le_mul_of_nonneg_right hc hs.le; linarith

theorem points_range {gray : Bool} : ∀ {gens : List BinGene} {ps : List GeneParams},
    List.Forall₂ (fun g p => geneParams g = .ok p) gens ps → Proper gens → ∀ rest : List Val,
    List.Forall₂ InGene gens (points gray rest gens ps) := by
  intro gens ps h
  induction h with
  | nil => intro _ rest; simp [points]
  | cons hp _ ih =>
    intro hg rest
    rename_i g p gs ps _
    rw [points]
    refine .cons ?_ (ih (fun x hx => hg x (List.mem_cons_of_mem _ hx)) _)
    have := grid_range hp (hg g List.mem_cons_self) (decIdx_lt (gray := gray) (take_bits_lt (rest := rest)))
    exact ⟨_, rfl, this.1, this.2⟩

/-! ## Encoding -/

theorem encodeIndex_eq {gray : Bool} {v n : Nat} (hn : 1 ≤ n) (hv : v < 2 ^ n) :
    ∃ l, encodeIndex gray v n = .ok l ∧ l.length = n ∧ IsBits l ∧ bitsValue l = encIdx gray v := by
  unfold encodeIndex
  exact indexToBinary_ok hn (encIdx_lt (gray := gray) hv)

theorem encodeGenes_points {gray : Bool} : ∀ {gens : List BinGene} {ps : List GeneParams},
    List.Forall₂ (fun g p => geneParams g = .ok p) gens ps → Proper gens → ∀ rest : List Val,
    IsBits rest → rest.length = totalBits ps →
    encodeGenes gray gens ps (points gray rest gens ps) = .ok rest := by
  intro gens ps h
  induction h with
  | nil =>
    intro _ rest _ hl
    simp [totalBits] at hl
    simp [encodeGenes, hl]
  | cons hp _ ih =>
    intro hg rest hb hl
    rename_i g p gs ps _
    simp only [totalBits, List.map_cons, List.sum_cons] at hl
    have hlt := hg g List.mem_cons_self
    have hi := decIdx_lt (gray := gray) (take_bits_lt (rest := rest) (n := p.numBits))
    have hr := grid_range hp hlt hi
    have hs := realStep_pos hp hlt
    rw [points, encodeGenes]
    rw [if_neg (by push Not; exact hr)]
    have hround : pyRound ((g.lo + (decIdx gray (bitsValue (rest.take p.numBits)) : ℚ) * p.realStep - g.lo) /
        p.realStep) = (decIdx gray (bitsValue (rest.take p.numBits)) : Int) := by
      have : (g.lo + (decIdx gray (bitsValue (rest.take p.numBits)) : ℚ) * p.realStep - g.lo) / p.realStep
          = ((decIdx gray (bitsValue (rest.take p.numBits)) : Int) : ℚ) := by
        field_simp; push_cast; ring
      rw [this, pyRound_int]
    rw [hround]
    obtain ⟨l, h1, h2, h3, h4⟩ := encodeIndex_eq (gray := gray) (geneParams_ok hp).1 hi
    have hl2 : l = rest.take p.numBits := by
      apply bitsValue_inj h3 (isBits_take hb _)
      · rw [h2]; simp; omega
      · rw [h4, encIdx_decIdx]
    have := ih (fun x hx => hg x (List.mem_cons_of_mem _ hx)) (rest.drop p.numBits) (isBits_drop hb _)
      (by simp [totalBits]; omega)
    simp only [Int.toNat_natCast, h1, bind, Except.bind, this, pure, Except.pure, hl2, List.take_append_drop]

/-- Encoding of in-range numbers: succeeds, yields bits of the total length, and each grid point is within
half a real step of the number. -/
theorem encodeGenes_near {gray : Bool} : ∀ {gens : List BinGene} {ps : List GeneParams},
    List.Forall₂ (fun g p => geneParams g = .ok p) gens ps → Proper gens → ∀ xs : List Val,
    List.Forall₂ InGene gens xs →
    ∃ geno, encodeGenes gray gens ps xs = .ok geno ∧ IsBits geno ∧ geno.length = totalBits ps ∧
      ∀ (k : Nat) (g : BinGene) (p : GeneParams) (q : ℚ), gens[k]? = some g → ps[k]? = some p →
        xs[k]? = some (.num q) → ∃ q' : ℚ, (points gray geno gens ps)[k]? = some (.num q') ∧ |q' - q| ≤ p.realStep / 2 := by
  intro gens ps h
  induction h with
  | nil =>
    intro _ xs hx
    cases hx
    exact ⟨[], rfl, fun x hx => by simp at hx, rfl, by intro k g p q hk; simp at hk⟩
  | cons hp _ ih =>
    intro hg xs hx
    rename_i g p gs ps _
    cases hx with
    | cons hx1 hx2 =>
      rename_i x xs
      obtain ⟨q, rfl, hlo, hhi⟩ := hx1
      have hlt := hg g List.mem_cons_self
      have hs := realStep_pos hp hlt
      have hm := realStep_mul hp hlt
      obtain ⟨geno, e1, e2, e3, e4⟩ := ih (fun x hx => hg x (List.mem_cons_of_mem _ hx)) xs hx2
      have hz0 : 0 ≤ (q - g.lo) / p.realStep := div_nonneg (by linarith) hs.le
      have hzle : (q - g.lo) / p.realStep ≤ (((2 ^ p.numBits - 1 : Nat) : Int) : ℚ) := by
        rw [div_le_iff₀ hs]
        have : (((2 ^ p.numBits - 1 : Nat) : Int) : ℚ) = 2 ^ p.numBits - 1 := by
          have : 1 ≤ 2 ^ p.numBits := Nat.one_le_two_pow
          push_cast [Nat.cast_sub this]; ring
        rw [this, hm]; linarith
      have hr0 := pyRound_nonneg hz0
      have hrle := pyRound_le hzle
      have herr := pyRound_err ((q - g.lo) / p.realStep)
      have hi : (pyRound ((q - g.lo) / p.realStep)).toNat < 2 ^ p.numBits := by
        have : 1 ≤ 2 ^ p.numBits := Nat.one_le_two_pow
        omega
      obtain ⟨l, h1, h2, h3, h4⟩ := encodeIndex_eq (gray := gray) (geneParams_ok hp).1 hi
      refine ⟨l ++ geno, ?_, isBits_append.mpr ⟨h3, e2⟩, ?_, ?_⟩
      · rw [encodeGenes]
        rw [if_neg (by push Not; exact ⟨hlo, hhi⟩)]
        simp only [h1, bind, Except.bind, e1, pure, Except.pure]
      · simp [h2, e3, totalBits]
      · intro k g' p' q' hk1 hk2 hk3
        rw [points]
        have ht : (l ++ geno).take p.numBits = l := by rw [← h2]; simp
        have hd : (l ++ geno).drop p.numBits = geno := by rw [← h2]; simp
        rw [ht, hd, h4, decIdx_encIdx]
        cases k with
        | zero =>
          simp only [List.getElem?_cons_zero, Option.some.injEq, Val.num.injEq] at hk1 hk2 hk3
          subst hk1 hk2 hk3
          refine ⟨_, List.getElem?_cons_zero, ?_⟩
          have hc : (((pyRound ((q - g.lo) / p.realStep)).toNat : Nat) : ℚ)
              = ((pyRound ((q - g.lo) / p.realStep) : Int) : ℚ) := by
            have h5 : (((pyRound ((q - g.lo) / p.realStep)).toNat : Nat) : Int)
              = pyRound ((q - g.lo) / p.realStep) := Int.toNat_of_nonneg hr0
            exact_mod_cast h5
          rw [hc]
          have : g.lo + (pyRound ((q - g.lo) / p.realStep) : ℚ) * p.realStep - q
              = ((pyRound ((q - g.lo) / p.realStep) : ℚ) - (q - g.lo) / p.realStep) * p.realStep := by
            field_simp; ring
          rw [this, abs_mul, abs_of_pos hs]
          have := mul_le_mul_of_nonneg_right herr hs.le
          linarith
        | succ k =>
          simp only [List.getElem?_cons_succ] at hk1 hk2 hk3 ⊢
          exact e4 k g' p' q' hk1 hk2 hk3

end BaumEva

namespace BaumEva
open Spec

/-! ## Acceptance of gene lists -/

theorem geneParams_degenerate {g : BinGene} (h : Degenerate g) : geneParams g = .error .zeroDivision := by
  unfold geneParams
  simp only
  split
  · rfl
  · rename_i hs
    have hk : pyInt (|g.hi - g.lo| / g.step) ≤ 0 := by
      have ha : 0 ≤ |g.hi - g.lo| := abs_nonneg _
      rcases h with h | h
      · have hneg : g.step < 0 := lt_of_le_of_ne h hs
        have hq : |g.hi - g.lo| / g.step ≤ 0 := div_nonpos_of_nonneg_of_nonpos ha hneg.le
        unfold pyInt
        split
        · have : |g.hi - g.lo| / g.step = 0 := le_antisymm hq (by assumption)
          rw [this]; simp
        · exact Int.ceil_le.mpr (by simpa using hq)
      · have hpos : 0 < g.step := lt_of_le_of_lt ha h
        have hq0 : 0 ≤ |g.hi - g.lo| / g.step := div_nonneg ha hpos.le
        have hq1 : |g.hi - g.lo| / g.step < 1 := (div_lt_one hpos).mpr h
        unfold pyInt
        rw [if_pos hq0]
        have : ⌊|g.hi - g.lo| / g.step⌋ < 1 := Int.floor_lt.mpr (by simpa using hq1)
        omega
    have hn : (realNumberOfPoints (pyInt (|g.hi - g.lo| / g.step))).1 = 0 := by
      by_contra hc
      have := (realNumberOfPoints_spec (pyInt (|g.hi - g.lo| / g.step))).2 0 (by omega)
      simp at this
      omega
    rw [if_pos]
    rw [hn]; norm_num

theorem geneParams_accepts {g : BinGene} (h : ¬ Degenerate g) : ∃ p, geneParams g = .ok p := by
  unfold Degenerate at h
  push Not at h
  obtain ⟨h1, h2⟩ := h
  unfold geneParams
  simp only
  rw [if_neg h1.ne']
  have hq : 1 ≤ |g.hi - g.lo| / g.step := (one_le_div h1).mpr h2
  have hk : 1 ≤ pyInt (|g.hi - g.lo| / g.step) := by
    unfold pyInt
    rw [if_pos (by linarith)]
    exact Int.le_floor.mpr (by simpa using hq)
  have hs := (realNumberOfPoints_spec (pyInt (|g.hi - g.lo| / g.step))).1
  have hn : 1 ≤ (realNumberOfPoints (pyInt (|g.hi - g.lo| / g.step))).1 := by
    by_contra hc
    have h0 : (realNumberOfPoints (pyInt (|g.hi - g.lo| / g.step))).1 = 0 := by omega
    rw [h0] at hs
    simp at hs
    omega
  have : (1 : ℚ) < 2 ^ (realNumberOfPoints (pyInt (|g.hi - g.lo| / g.step))).1 :=
    one_lt_pow₀ (by norm_num) (by omega)
  rw [if_neg (by linarith)]
  exact ⟨_, rfl⟩

theorem geneParams_err {g : BinGene} {e : PyErr} (h : geneParams g = .error e) : e = .zeroDivision := by
  by_cases hd : Degenerate g
  · rw [geneParams_degenerate hd] at h; injection h with h; exact h.symm
  · obtain ⟨p, hp⟩ := geneParams_accepts hd
    rw [hp] at h; cases h

theorem gensParams_degenerate : ∀ {gens : List BinGene} {off : Nat}, (∃ g ∈ gens, Degenerate g) →
    gensParams gens off = .error .zeroDivision := by
  intro gens
  induction gens with
  | nil => rintro off ⟨g, hg, _⟩; simp at hg
  | cons g gs ih =>
    rintro off ⟨x, hx, hd⟩
    unfold gensParams
    cases hp : geneParams g with
    | error e => rw [geneParams_err hp]; rfl
    | ok p =>
      rcases List.mem_cons.mp hx with rfl | hx
      · rw [geneParams_degenerate hd] at hp; cases hp
      · simp only [bind, Except.bind, ih ⟨x, hx, hd⟩]

theorem gensParams_accepts : ∀ {gens : List BinGene} {off : Nat}, (∀ g ∈ gens, ¬ Degenerate g) →
    ∃ r, gensParams gens off = .ok r := by
  intro gens
  induction gens with
  | nil => intro off _; exact ⟨_, rfl⟩
  | cons g gs ih =>
    intro off h
    obtain ⟨p, hp⟩ := geneParams_accepts (h g List.mem_cons_self)
    obtain ⟨r, hr⟩ := ih (off := off + p.numBits) (fun x hx => h x (List.mem_cons_of_mem _ hx))
    exact ⟨_, gensParams_cons.mpr ⟨p, r, hp, hr, rfl⟩⟩

/-! ## The same in the arithmetic of the interpreter -/

theorem Arith.exact_rnd : Arith.exact.rnd = id := rfl

theorem geneParamsR_id (g : BinGene) : geneParamsR id g = geneParams g := rfl

theorem gensParamsR_id : ∀ (gens : List BinGene) (off : Nat), gensParamsR id gens off = gensParams gens off := by
  intro gens
  induction gens with
  | nil => intro off; rfl
  | cons g gs ih => intro off; simp only [gensParamsR, gensParams, geneParamsR_id, ih]

theorem encodeGenesR_id (gray : Bool) : ∀ (gens : List BinGene) (ps : List GeneParams) (xs : List Val),
    encodeGenesR id gray gens ps xs = encodeGenes gray gens ps xs := by
  intro gens
  induction gens with
  | nil => intro ps xs; cases ps <;> cases xs <;> rfl
  | cons g gs ih =>
    intro ps xs
    cases ps with
    | nil => cases xs <;> rfl
    | cons p ps =>
      cases xs with
      | nil => rfl
      | cons x xs =>
        cases x with
        | str t => rfl
        | num q => simp only [encodeGenesR, encodeGenes, ih]; rfl

theorem encodeIndividR_id (gray : Bool) (gens : List BinGene) (ps : List GeneParams) (xs : List Val) :
    encodeIndividR id gray gens ps xs = encodeIndivid gray gens ps xs := by
  unfold encodeIndividR encodeIndivid
  rw [encodeGenesR_id]

theorem decodeGenesR_id (gray : Bool) (geno : List Val) : ∀ (gens : List BinGene) (ps : List GeneParams) (offs : List Nat),
    decodeGenesR id gray geno gens ps offs = decodeGenes gray geno gens ps offs := by
  intro gens
  induction gens with
  | nil => intro ps offs; simp [decodeGenesR, decodeGenes]
  | cons g gs ih =>
    intro ps offs
    match ps, offs with
    | [], _ => simp [decodeGenesR, decodeGenes]
    | _ :: _, [] => simp [decodeGenesR, decodeGenes]
    | _ :: _, [_] => simp [decodeGenesR, decodeGenes]
    | p :: ps, a :: b :: offs => simp only [decodeGenesR, decodeGenes, ih]; rfl

theorem geneParamsR_ok {rnd : ℚ → ℚ} {g : BinGene} {p : GeneParams} (h : geneParamsR rnd g = .ok p) :
    1 ≤ p.numBits ∧ p.realNumPoints = 2 ^ p.numBits - 1 ∧
      p.realStep = rnd (|rnd (g.hi - g.lo)| / rnd ((2 : ℚ) ^ p.numBits - 1)) ∧ 0 < (2 : ℚ) ^ p.numBits - 1 ∧
      p.numBits = (realNumberOfPoints (pyInt (rnd (|rnd (g.hi - g.lo)| / g.step)))).1 ∧ g.step ≠ 0 := by
  unfold geneParamsR at h
  simp only at h
  split at h
  · cases h
  · rename_i hs
    split at h
    · cases h
    · rename_i h0
      injection h with h
      subst h
      have hn : 1 ≤ (realNumberOfPoints (pyInt (rnd (|rnd (g.hi - g.lo)| / g.step)))).1 := by
        by_contra hc
        have : (realNumberOfPoints (pyInt (rnd (|rnd (g.hi - g.lo)| / g.step)))).1 = 0 := by omega
        apply h0; rw [this]; norm_num
      refine ⟨hn, rfl, rfl, ?_, rfl, hs⟩
      have : (1 : ℚ) < 2 ^ (realNumberOfPoints (pyInt (rnd (|rnd (g.hi - g.lo)| / g.step)))).1 :=
        one_lt_pow₀ (by norm_num) (by omega)
      simp only
      linarith

/-- The values denoted by the consecutive segments of a symbol list, as `points`. -/
def pointsR (rnd : ℚ → ℚ) (gray : Bool) : List Val → List BinGene → List GeneParams → List Val
  | rest, g :: gs, p :: ps =>
    .num (pointR rnd g p (decIdx gray (bitsValue (rest.take p.numBits)))) ::
      pointsR rnd gray (rest.drop p.numBits) gs ps
  | _, _, _ => []

theorem gensParamsR_cons {rnd : ℚ → ℚ} {g : BinGene} {gs : List BinGene} {off : Nat} {r : List GeneParams × List Nat} :
    gensParamsR rnd (g :: gs) off = .ok r ↔
      ∃ p r', geneParamsR rnd g = .ok p ∧ gensParamsR rnd gs (off + p.numBits) = .ok r' ∧
        r = (p :: r'.1, (off + p.numBits) :: r'.2) := by
  conv_lhs => unfold gensParamsR
  cases hp : geneParamsR rnd g with
  | error e => simp [bind, Except.bind]
  | ok p =>
    cases hr : gensParamsR rnd gs (off + p.numBits) with
    | error e => simp [bind, Except.bind, hr]
    | ok r' =>
      obtain ⟨a, b⟩ := r'
      simp only [bind, Except.bind, hr, pure, Except.pure, Except.ok.injEq]
      constructor
      · intro h; exact ⟨p, (a, b), rfl, hr, h.symm⟩
      · rintro ⟨p', r'', h1, h2, h3⟩
        subst h1
        rw [hr] at h2
        injection h2 with h2
        rw [h3, ← h2]

theorem gensParamsR_forall {rnd : ℚ → ℚ} {gens : List BinGene} : ∀ {off : Nat} {ps : List GeneParams} {offs : List Nat},
    gensParamsR rnd gens off = .ok (ps, offs) → List.Forall₂ (fun g p => geneParamsR rnd g = .ok p) gens ps := by
  induction gens with
  | nil => intro off ps offs h; simp [gensParamsR] at h; rw [h.1]; exact .nil
  | cons g gs ih =>
    intro off ps offs h
    obtain ⟨p, r', hp, hr, e⟩ := gensParamsR_cons.mp h
    simp only [Prod.mk.injEq] at e
    obtain ⟨rfl, rfl⟩ := e
    exact .cons hp (ih (offs := r'.2) hr)

theorem decodeGenesR_eq {rnd : ℚ → ℚ} {gray : Bool} {geno : List Val} (hb : IsBits geno) :
    ∀ {gens : List BinGene} {off : Nat} {ps : List GeneParams} {offs : List Nat},
    gensParamsR rnd gens off = .ok (ps, offs) → off + totalBits ps ≤ geno.length →
    decodeGenesR rnd gray geno gens ps (off :: offs) = .ok (pointsR rnd gray (geno.drop off) gens ps) := by
  intro gens
  induction gens with
  | nil => intro off ps offs h _; simp [decodeGenesR, pointsR]
  | cons g gs ih =>
    intro off ps offs h hl
    obtain ⟨p, r', hp, hr, e⟩ := gensParamsR_cons.mp h
    simp only [Prod.mk.injEq] at e
    obtain ⟨rfl, rfl⟩ := e
    have hn := (geneParamsR_ok hp).1
    simp only [totalBits, List.map_cons, List.sum_cons] at hl
    have hseg : slice geno off (off + p.numBits) = (geno.drop off).take p.numBits := by
      unfold slice; congr 1; omega
    have hne : (geno.drop off).take p.numBits ≠ [] := by
      intro h0
      have := congrArg List.length h0
      simp at this; omega
    rw [decodeGenesR, hseg, decodeIndex_eq (isBits_take (isBits_drop hb _) _) hne]
    have := ih (offs := r'.2) hr (by simp only [totalBits]; omega)
    simp only [bind, Except.bind, this, pure, Except.pure, pointsR, List.drop_drop]

theorem pointsR_length {rnd : ℚ → ℚ} {gray : Bool} : ∀ {gens : List BinGene} {ps : List GeneParams} {rest : List Val},
    gens.length = ps.length → (pointsR rnd gray rest gens ps).length = gens.length := by
  intro gens
  induction gens with
  | nil => intro ps rest h; simp [pointsR]
  | cons g gs ih =>
    intro ps rest h
    cases ps with
    | nil => simp at h
    | cons p ps => simp only [pointsR, List.length_cons]; rw [ih (by simpa using h)]

theorem gensParamsR_last {rnd : ℚ → ℚ} {gens : List BinGene} : ∀ {off : Nat} {ps : List GeneParams} {offs : List Nat},
    gensParamsR rnd gens off = .ok (ps, offs) → (off :: offs).getLastD 0 = off + totalBits ps := by
  induction gens with
  | nil => intro off ps offs h; simp [gensParamsR] at h; simp [h, totalBits]
  | cons g gs ih =>
    intro off ps offs h
    obtain ⟨p, r', hp, hr, e⟩ := gensParamsR_cons.mp h
    simp only [Prod.mk.injEq] at e
    have := ih (offs := r'.2) hr
    rw [e.1, e.2, List.getLastD_cons]
    have e2 : ((off + p.numBits) :: r'.2).getLastD off = ((off + p.numBits) :: r'.2).getLastD 0 := by
      rw [List.getLastD_cons, List.getLastD_cons]
    rw [e2, this]
    simp [totalBits]; omega

theorem pointsR_id (gray : Bool) : ∀ (gens : List BinGene) (ps : List GeneParams) (rest : List Val),
    pointsR id gray rest gens ps = points gray rest gens ps := by
  intro gens
  induction gens with
  | nil => intro ps rest; simp [pointsR, points]
  | cons g gs ih =>
    intro ps rest
    cases ps with
    | nil => simp [pointsR, points]
    | cons p ps => simp only [pointsR, points, ih]; rfl

/-- The attributes a binary population has after `get_gens_params` accepted its genes. -/
structure Prepared (at_ : Attrs) (gray : Bool) (gens : List BinGene) : Prop where
  spec : at_.spec = .binary gray gens
  ok : ∃ offs, gensParamsR at_.arith.rnd gens 0 = .ok (at_.params, offs) ∧ at_.idxBits = 0 :: offs

theorem Prepared.forallR {at_ : Attrs} {gray : Bool} {gens : List BinGene} (h : Prepared at_ gray gens) :
    List.Forall₂ (fun g p => geneParamsR at_.arith.rnd g = .ok p) gens at_.params := by
  obtain ⟨offs, h1, _⟩ := h.ok
  exact gensParamsR_forall h1

theorem Prepared.forall {at_ : Attrs} {gray : Bool} {gens : List BinGene} (h : Prepared at_ gray gens)
    (he : at_.arith = .exact) : List.Forall₂ (fun g p => geneParams g = .ok p) gens at_.params := by
  have := h.forallR
  rw [he] at this
  exact this

theorem Prepared.total {at_ : Attrs} {gray : Bool} {gens : List BinGene} (h : Prepared at_ gray gens) :
    at_.idxBits.getLastD 0 = totalBits at_.params := by
  obtain ⟨offs, h1, h2⟩ := h.ok
  rw [h2, gensParamsR_last h1]; simp

theorem Prepared.decodeR {at_ : Attrs} {gray : Bool} {gens : List BinGene} (h : Prepared at_ gray gens)
    {geno : List Val} (hb : IsBits geno) (hl : totalBits at_.params ≤ geno.length) :
    decodeIndivid at_ geno = .ok (pointsR at_.arith.rnd gray geno gens at_.params) := by
  obtain ⟨offs, h1, h2⟩ := h.ok
  unfold decodeIndivid
  rw [h.spec, h2]
  simp only
  rw [decodeGenesR_eq hb h1 (by omega)]
  simp

theorem Prepared.decode {at_ : Attrs} {gray : Bool} {gens : List BinGene} (h : Prepared at_ gray gens)
    (he : at_.arith = .exact) {geno : List Val} (hb : IsBits geno) (hl : totalBits at_.params ≤ geno.length) :
    decodeIndivid at_ geno = .ok (points gray geno gens at_.params) := by
  rw [h.decodeR hb hl, he, Arith.exact_rnd, pointsR_id]

theorem adopt_exact {at_ : Attrs} {gray : Bool} {gens : List BinGene} (hs : at_.spec = .binary gray gens)
    (he : at_.arith = .exact) (x : List Val) : adopt at_ x = encodeIndivid gray gens at_.params x := by
  unfold adopt
  rw [hs, he]
  exact encodeIndividR_id _ _ _ _

theorem points_segments {gray : Bool} (f : GeneParams → Nat) :
    ∀ {gens : List BinGene} {ps : List GeneParams}, List.Forall₂ (fun g p => geneParams g = .ok p) gens ps →
    ∀ {segs : List (List Val)},
    List.Forall₂ (fun p seg => f p < 2 ^ p.numBits ∧ encodeIndex gray (f p) p.numBits = .ok seg) ps segs →
    points gray segs.flatten gens ps
      = List.zipWith (fun g p => Val.num (g.lo + (f p : ℚ) * p.realStep)) gens ps ∧
    IsBits segs.flatten ∧ segs.flatten.length = totalBits ps := by
  intro gens ps h
  induction h with
  | nil =>
    intro segs hs
    cases hs
    exact ⟨rfl, fun x hx => by simp at hx, rfl⟩
  | cons hp _ ih =>
    intro segs hs
    rename_i g p gs ps _
    cases hs with
    | cons h1 h2 =>
      rename_i seg segs
      obtain ⟨i1, i2, i3⟩ := ih h2
      obtain ⟨l, e1, e2, e3, e4⟩ := encodeIndex_eq (gray := gray) (geneParams_ok hp).1 h1.1
      rw [e1] at h1
      have hl : l = seg := by have := h1.2; injection this
      subst hl
      have ht : (l ++ segs.flatten).take p.numBits = l := by rw [← e2]; simp
      have hd : (l ++ segs.flatten).drop p.numBits = segs.flatten := by rw [← e2]; simp
      refine ⟨?_, ?_, ?_⟩
      · rw [List.flatten_cons, points, ht, hd, e4, decIdx_encIdx, i1]; rfl
      · rw [List.flatten_cons]; exact isBits_append.mpr ⟨e3, i2⟩
      · rw [List.flatten_cons, List.length_append, e2, i3]; simp [totalBits]

theorem encodeIndex_err {gray : Bool} {v n : Nat} {e : PyErr} (h : encodeIndex gray v n = .error e) : e = .exception := by
  unfold encodeIndex at h
  generalize (if gray then grayValue v else v) = w at h
  unfold indexToBinary at h
  split at h
  · injection h with h; exact h.symm
  · split at h <;> cases h

theorem encodeGenesR_reject {rnd : ℚ → ℚ} {gray : Bool} : ∀ {gens : List BinGene} {ps : List GeneParams},
    gens.length = ps.length → ∀ xs : List Val,
    xs.length = gens.length → (∀ x ∈ xs, ∃ q, x = .num q) → ¬ List.Forall₂ InGene gens xs →
    encodeGenesR rnd gray gens ps xs = .error .exception := by
  intro gens
  induction gens with
  | nil =>
    intro ps _ xs hl _ hn
    have : xs = [] := List.length_eq_zero_iff.mp hl
    subst this
    exact absurd .nil hn
  | cons g gs ih =>
    intro ps hp xs hl hx hn
    cases ps with
    | nil => simp at hp
    | cons p ps =>
      cases xs with
      | nil => simp at hl
      | cons x xs =>
        obtain ⟨q, rfl⟩ := hx x List.mem_cons_self
        rw [encodeGenesR]
        split
        · rfl
        · rename_i hr
          push Not at hr
          have hn' : ¬ List.Forall₂ InGene gs xs := fun hc => hn (.cons ⟨q, rfl, hr.1, hr.2⟩ hc)
          have := ih (by simpa using hp) xs (by simpa using hl) (fun y hy => hx y (List.mem_cons_of_mem _ hy)) hn'
          cases he : encodeIndex gray (stepIdxR rnd g p q).toNat p.numBits with
          | error e => rw [encodeIndex_err he]; rfl
          | ok b => simp only [bind, Except.bind, this]

end BaumEva
