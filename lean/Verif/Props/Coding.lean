import Verif.Proofs.Individ
import Verif.Proofs.Monad
/-!
# Properties C01-C09: gene coding of binary populations

Every theorem is followed by an `example` showing a concrete non-trivial case that meets its hypotheses
(or, for unconditional theorems, a concrete value).
-/
namespace BaumEva
open Spec

/-! ## C01 -/

/-- C01: the bit count is the least `n` with `2^n - 1 ≥ k`, the reported interval count is `2^n - 1`, and the
loop has stopped by itself: giving it more fuel changes nothing. -/
theorem C01_bit_budget_least (k : Int) :
    k ≤ 2 ^ (realNumberOfPoints k).1 - 1 ∧
    (∀ m : Nat, k ≤ 2 ^ m - 1 → (realNumberOfPoints k).1 ≤ m) ∧
    (realNumberOfPoints k).2 = 2 ^ (realNumberOfPoints k).1 - 1 ∧
    ∀ f : Nat, k.toNat ≤ f → bitsLoop k f 0 = (realNumberOfPoints k).1 := by
  obtain ⟨h1, h2⟩ := realNumberOfPoints_spec k
  refine ⟨h1, ?_, rfl, ?_⟩
  · intro m hm
    by_contra hc
    have := h2 m (by omega)
    omega
  · intro f hf
    obtain ⟨g1, g2⟩ := bitsLoop_spec k f 0 (by push_cast; omega) (by intro m hm; omega)
    rcases lt_trichotomy (bitsLoop k f 0) (realNumberOfPoints k).1 with h | h | h
    · have := h2 _ h; omega
    · exact h
    · have := g2 _ h; omega

example : realNumberOfPoints 100 = (7, 127) := by decide
example : realNumberOfPoints 127 = (7, 127) := by decide
example : realNumberOfPoints 128 = (8, 255) := by decide
example : realNumberOfPoints (-3) = (0, 0) := by decide

/-! ## C02 -/

/-- C02: for `n ≥ 1`, `index_to_binary` succeeds iff `v < 2^n`; the result then has `n` symbols `'0'`/`'1'`, denotes
`v` in base 2 and is read back as `v`; otherwise it raises. -/
theorem C02_binary_lossless {v n : Nat} (hn : 1 ≤ n) :
    (v < 2 ^ n → ∃ l, indexToBinary v n = .ok l ∧ l.length = n ∧ IsBits l ∧ bitsValue l = v ∧
      binToNat l = .ok v) ∧
    (2 ^ n ≤ v → indexToBinary v n = .error .exception) := by
  refine ⟨fun hv => ?_, fun hv => indexToBinary_err hn hv⟩
  obtain ⟨l, h1, h2, h3, h4⟩ := indexToBinary_ok hn hv
  refine ⟨l, h1, h2, h3, h4, ?_⟩
  rw [binToNat_eq h3 (by intro hc; rw [hc] at h2; simp at h2; omega), h4]

/-- C02: reading a bit string back is injective on strings of equal length, so no two strings collide. -/
theorem C02_binary_read_injective {a b : List Val} (ha : IsBits a) (hb : IsBits b)
    (hl : a.length = b.length) (hne : a ≠ []) (h : binToNat a = binToNat b) : a = b := by
  have hne' : b ≠ [] := by intro hc; rw [hc] at hl; exact hne (List.length_eq_zero_iff.mp (by simpa using hl))
  rw [binToNat_eq ha hne, binToNat_eq hb hne'] at h
  injection h with h
  exact bitsValue_inj ha hb hl h

example : indexToBinary 5 4 = .ok [.str "0", .str "1", .str "0", .str "1"] := by
  norm_num [indexToBinary, binStr, digitVal, bit0, bit1, List.replicate]
example : indexToBinary 16 4 = .error .exception := by norm_num [indexToBinary, binStr]
example : indexToBinary 0 1 = .ok [.str "0"] := by norm_num [indexToBinary, binStr, bit0]

/-! ## C03 -/

/-- C03: Gray coding and its inverse are mutually inverse on all naturals. -/
theorem C03_gray_bijection (v : Nat) :
    indexFromGray (grayValue v) = v ∧ grayValue (indexFromGray v) = v :=
  ⟨indexFromGray_grayValue v, grayValue_indexFromGray v⟩

/-- C03: both maps keep `n`-bit values on `n` bits. -/
theorem C03_gray_width {v n : Nat} (h : v < 2 ^ n) : grayValue v < 2 ^ n ∧ indexFromGray v < 2 ^ n :=
  ⟨grayValue_lt h, indexFromGray_lt h⟩

/-- C03: the decoding loop has stopped by itself for every larger fuel. -/
theorem C03_gray_loop_terminates (g f : Nat) (h : g ≤ f) : grayLoop f 0 g = indexFromGray g :=
  grayLoop_fuel g f 0 h

/-- C03 on strings: with Gray coding every index of an `n`-bit gene is encodable and decodes to itself. -/
theorem C03_gray_string_roundtrip {gray : Bool} {v n : Nat} (hn : 1 ≤ n) (hv : v < 2 ^ n) :
    ∃ l, encodeIndex gray v n = .ok l ∧ l.length = n ∧ IsBits l ∧ decodeIndex gray l = .ok v := by
  obtain ⟨l, h1, h2, h3, h4⟩ := encodeIndex_eq (gray := gray) hn hv
  refine ⟨l, h1, h2, h3, ?_⟩
  rw [decodeIndex_eq h3 (by intro hc; rw [hc] at h2; simp at h2; omega), h4, decIdx_encIdx]

example : grayValue 5 = 7 ∧ indexFromGray 7 = 5 ∧ grayValue 6 = 5 := by decide
example : (5 : Nat) < 2 ^ 3 := by decide

/-! ## C04 -/

/-- C04: the Gray codes of `v` and `v+1` differ in exactly one bit position. -/
theorem C04_gray_neighbours (v : Nat) :
    ∃ k, ∀ i, ((grayValue v).testBit i ≠ (grayValue (v + 1)).testBit i ↔ i = k) := gray_neighbour v

/-- C04: the encodings of neighbouring grid points differ in exactly one symbol. -/
theorem C04_gray_neighbour_strings {v n : Nat} (hn : 1 ≤ n) (hv : v + 1 < 2 ^ n) {a b : List Val}
    (ha : encodeIndex true v n = .ok a) (hb : encodeIndex true (v + 1) n = .ok b) : DifferOnce a b := by
  obtain ⟨a', e1, a2, a3, a4⟩ := encodeIndex_eq (gray := true) hn (v := v) (by omega)
  obtain ⟨b', f1, b2, b3, b4⟩ := encodeIndex_eq (gray := true) hn hv
  rw [ha] at e1; rw [hb] at f1
  injection e1 with e1; injection f1 with f1
  subst e1; subst f1
  simp only [encIdx, if_true] at a4 b4
  obtain ⟨k, hk⟩ := gray_neighbour v
  have hkn : k < n := by
    by_contra hc
    have h := (hk k).mpr rfl
    have hp : 2 ^ n ≤ 2 ^ k := Nat.pow_le_pow_right (by norm_num) (by omega)
    rw [Nat.testBit_lt_two_pow (lt_of_lt_of_le (grayValue_lt (v := v) (n := n) (by omega)) hp),
      Nat.testBit_lt_two_pow (lt_of_lt_of_le (grayValue_lt hv) hp)] at h
    exact h rfl
  have hinj : ∀ x y : Bool, (some (bitSym x) ≠ some (bitSym y) ↔ x ≠ y) := by decide
  refine ⟨by rw [a2, b2], n - 1 - k, by omega, ?_⟩
  intro j hj
  rw [bits_get a3 hj, bits_get b3 (by omega), a4, b4, a2, b2, hinj, hk]
  omega

example : (6 : Nat) + 1 < 2 ^ 3 := by decide
example : encodeIndex true 6 3 = .ok [.str "1", .str "0", .str "1"] ∧
    encodeIndex true 7 3 = .ok [.str "1", .str "0", .str "0"] := by
  have h1 : grayValue 6 = 5 := by decide
  have h2 : grayValue 7 = 4 := by decide
  norm_num [encodeIndex, h1, h2, indexToBinary, binStr, digitVal, bit0, bit1, List.replicate]

/-! ## C05 -/

/-- C05: every bit string of the population's total bit length decodes to one number per gene, inside the
range of that gene, for both codings. -/
theorem C05_decode_in_range {at_ : Attrs} {gray : Bool} {gens : List BinGene} (hp : Prepared at_ gray gens) (he : at_.arith = .exact)
    (hg : Proper gens) {geno : List Val} (hb : IsBits geno) (hl : geno.length = at_.idxBits.getLastD 0) :
    ∃ xs, decodeIndivid at_ geno = .ok xs ∧ List.Forall₂ InGene gens xs := by
  rw [hp.total] at hl
  exact ⟨_, hp.decode he hb hl.ge, points_range (hp.forall he) hg geno⟩

/-- C05: the genotype made of the encodings of the indices `f p` decodes to the equidistant grid points
`lo + i * |hi - lo| / (2^n - 1)`, where `n` is the bit count of the gene. -/
theorem C05_decode_grid {at_ : Attrs} {gray : Bool} {gens : List BinGene} (hp : Prepared at_ gray gens) (he : at_.arith = .exact)
    (f : GeneParams → Nat) {segs : List (List Val)}
    (hs : List.Forall₂ (fun p seg => f p < 2 ^ p.numBits ∧ encodeIndex gray (f p) p.numBits = .ok seg)
      at_.params segs) :
    decodeIndivid at_ segs.flatten = .ok (List.zipWith
      (fun g p => Val.num (g.lo + (f p : ℚ) * (|g.hi - g.lo| / (2 ^ p.numBits - 1)))) gens at_.params) := by
  obtain ⟨h1, h2, h3⟩ := points_segments f (hp.forall he) hs
  rw [hp.decode he h2 h3.ge, h1]
  congr 1
  have := (hp.forall he)
  clear hs h1 h2 h3 hp
  generalize at_.params = ps at this ⊢
  induction this with
  | nil => rfl
  | cons h _ ih => rw [List.zipWith_cons_cons, List.zipWith_cons_cons, ih, (geneParams_ok h).2.2.1]

/-- C05: the index-0 genotype decodes to the lower ends. -/
theorem C05_decode_lower_end {at_ : Attrs} {gray : Bool} {gens : List BinGene} (hp : Prepared at_ gray gens) (he : at_.arith = .exact)
    {segs : List (List Val)}
    (hs : List.Forall₂ (fun p seg => encodeIndex gray 0 p.numBits = .ok seg) at_.params segs) :
    decodeIndivid at_ segs.flatten = .ok (gens.map fun g => Val.num g.lo) := by
  have hs' : List.Forall₂ (fun p seg => (fun _ : GeneParams => 0) p < 2 ^ p.numBits ∧
      encodeIndex gray ((fun _ : GeneParams => 0) p) p.numBits = .ok seg) at_.params segs :=
    hs.imp (fun p s h => ⟨by positivity, h⟩)
  rw [C05_decode_grid hp he _ hs']
  congr 1
  have := (hp.forall he)
  clear hs hs' hp
  generalize at_.params = ps at this ⊢
  induction this with
  | nil => rfl
  | cons h _ ih => rw [List.zipWith_cons_cons, ih]; simp

/-- C05: the genotype of the largest indices decodes to exactly the upper ends. -/
theorem C05_decode_upper_end {at_ : Attrs} {gray : Bool} {gens : List BinGene} (hp : Prepared at_ gray gens) (he : at_.arith = .exact)
    (hg : Proper gens) {segs : List (List Val)}
    (hs : List.Forall₂ (fun p seg => encodeIndex gray (2 ^ p.numBits - 1) p.numBits = .ok seg)
      at_.params segs) :
    decodeIndivid at_ segs.flatten = .ok (gens.map fun g => Val.num g.hi) := by
  have hs' : List.Forall₂ (fun p seg => (fun p : GeneParams => 2 ^ p.numBits - 1) p < 2 ^ p.numBits ∧
      encodeIndex gray ((fun p : GeneParams => 2 ^ p.numBits - 1) p) p.numBits = .ok seg) at_.params segs :=
    hs.imp (fun p s h => ⟨by have := Nat.two_pow_pos p.numBits; simp only; omega, h⟩)
  rw [C05_decode_grid hp he _ hs']
  congr 1
  have := (hp.forall he)
  clear hs hs' hp
  generalize at_.params = ps at this ⊢
  induction this with
  | nil => rfl
  | cons h _ ih =>
    rename_i g p gs ps _
    rw [List.zipWith_cons_cons, ih (fun x hx => hg x (List.mem_cons_of_mem _ hx)), List.map_cons]
    have hlt : g.lo < g.hi := hg g List.mem_cons_self
    have h4 := (geneParams_ok h).2.2.2.1
    have hc : (((2 ^ p.numBits - 1 : Nat)) : ℚ) = 2 ^ p.numBits - 1 := by
      rw [Nat.cast_sub Nat.one_le_two_pow]; push_cast; rfl
    rw [hc, abs_of_pos (by linarith)]
    congr 2
    field_simp
    ring

/-- A concrete two-gene population meeting the hypotheses of C05-C07: `(0, 3, 1)` and `(-1, 1, 1/2)`. -/
def exGens : List BinGene := [⟨0, 3, 1⟩, ⟨-1, 1, 1 / 2⟩]
@[inherit_doc exGens] def exAttrs (gray : Bool) : Attrs :=
  { spec := .binary gray exGens, isPhenotype := true, numIndivid := 4,
    params := [⟨2, 3, 1⟩, ⟨3, 7, 2 / 7⟩], idxBits := [0, 2, 5] }

theorem exPrepared (gray : Bool) : Prepared (exAttrs gray) gray exGens := by
  refine ⟨rfl, [2, 5], ?_, rfl⟩
  have h1 : pyInt (|(3 : ℚ) - 0| / 1) = 3 := by decide +kernel
  have h2 : pyInt (|(1 : ℚ) - -1| / (1 / 2)) = 4 := by decide +kernel
  have h3 : realNumberOfPoints 3 = (2, 3) := by decide
  have h4 : realNumberOfPoints 4 = (3, 7) := by decide
  rw [show (exAttrs gray).arith.rnd = id from rfl, gensParamsR_id]
  norm_num [gensParams, geneParams, exGens, exAttrs, h1, h2, h3, h4, bind, Except.bind, pure, Except.pure]
  have h5 : pyInt 3 = 3 := by decide +kernel
  have h6 : pyInt 4 = 4 := by decide +kernel
  rw [h5, h3, h6, h4]
  norm_num

theorem exProper : Proper exGens := by
  intro g hg
  simp only [exGens, List.mem_cons, List.not_mem_nil, or_false] at hg
  rcases hg with rfl | rfl <;> norm_num

example : IsBits [bit1, bit0, bit1, bit1, bit0] := by decide
example : ([bit1, bit0, bit1, bit1, bit0] : List Val).length = (exAttrs true).idxBits.getLastD 0 := rfl

/-! ### all grid points -/

theorem gridBits_iff {g : BinGene} {p : GeneParams} (h : geneParams g = .ok p) {n : Nat} : GridBits g n ↔ n = p.numBits := by
  obtain ⟨h1, _, h3, _, h5, h6⟩ := geneParams_ok h
  have hk : pyInt (|g.hi - g.lo| / g.step) = ⌊|g.hi - g.lo| / g.step⌋ := by
    unfold pyInt
    split
    · rfl
    · rename_i hneg
      exfalso
      have : pyInt (|g.hi - g.lo| / g.step) ≤ 0 := by
        unfold pyInt
        rw [if_neg hneg]
        push Not at hneg
        exact Int.ceil_le.mpr (by push_cast; exact hneg.le)
      have h2 := (C01_bit_budget_least (pyInt (|g.hi - g.lo| / g.step))).2.1 0 (by simpa using this)
      omega
  obtain ⟨b1, b2, _⟩ := C01_bit_budget_least (pyInt (|g.hi - g.lo| / g.step))
  rw [← h5, hk] at b1
  rw [← h5, hk] at b2
  constructor
  · rintro ⟨c1, c2⟩
    exact le_antisymm (c2 _ b1) (b2 _ c1)
  · rintro rfl
    exact ⟨b1, b2⟩

theorem onGrid_iff {g : BinGene} {p : GeneParams} (h : geneParams g = .ok p) {x : Val} :
    OnGrid g x ↔ ∃ i : Nat, i < 2 ^ p.numBits ∧ x = .num (g.lo + (i : ℚ) * p.realStep) := by
  obtain ⟨_, _, h3, _⟩ := geneParams_ok h
  constructor
  · rintro ⟨n, i, c1, c3, rfl⟩
    obtain rfl := (gridBits_iff h).mp c1
    exact ⟨i, c3, by rw [h3]⟩
  · rintro ⟨i, c3, rfl⟩
    exact ⟨p.numBits, i, (gridBits_iff h).mpr rfl, c3, by rw [h3]⟩

theorem points_onGrid {gray : Bool} : ∀ {gens : List BinGene} {ps : List GeneParams},
    List.Forall₂ (fun g p => geneParams g = .ok p) gens ps → ∀ rest : List Val,
    List.Forall₂ OnGrid gens (points gray rest gens ps) := by
  intro gens ps h
  induction h with
  | nil => intro rest; simp [points]
  | cons hp _ ih =>
    intro rest
    rw [points]
    exact .cons ((onGrid_iff hp).mpr ⟨_, decIdx_lt (gray := gray) (take_bits_lt (rest := rest)), rfl⟩) (ih _)

theorem onGrid_points {gray : Bool} : ∀ {gens : List BinGene} {ps : List GeneParams},
    List.Forall₂ (fun g p => geneParams g = .ok p) gens ps → ∀ xs : List Val, List.Forall₂ OnGrid gens xs →
    ∃ geno, IsBits geno ∧ geno.length = totalBits ps ∧ points gray geno gens ps = xs := by
  intro gens ps h
  induction h with
  | nil => intro xs hx; cases hx; exact ⟨[], by simp [IsBits], rfl, by simp [points]⟩
  | @cons g p gs ps hp _ ih =>
    intro xs hx
    cases hx with
    | @cons _ x _ xs h1 h2 =>
      obtain ⟨geno, a1, a2, a3⟩ := ih xs h2
      obtain ⟨i, b1, rfl⟩ := (onGrid_iff hp).mp h1
      obtain ⟨l, c1, c2, c3, c4⟩ := encodeIndex_eq (gray := gray) (geneParams_ok hp).1 b1
      refine ⟨l ++ geno, isBits_append.mpr ⟨c3, a1⟩, by simp [totalBits] at a2 ⊢; omega, ?_⟩
      rw [points, ← c2, List.take_left, List.drop_left, a3, c4, decIdx_encIdx]

/-- C05: the decoded points are exactly the combinations of grid points of the genes. -/
theorem C05_decode_exactly {at_ : Attrs} {gray : Bool} {gens : List BinGene} (hp : Prepared at_ gray gens) (he : at_.arith = .exact) {xs : List Val} :
    (∃ geno, IsBits geno ∧ geno.length = at_.idxBits.getLastD 0 ∧ decodeIndivid at_ geno = .ok xs) ↔
      List.Forall₂ OnGrid gens xs := by
  rw [hp.total]
  constructor
  · rintro ⟨geno, h1, h2, h3⟩
    rw [hp.decode he h1 h2.ge] at h3
    injection h3 with h3
    rw [← h3]
    exact points_onGrid (hp.forall he) geno
  · intro h
    obtain ⟨geno, h1, h2, h3⟩ := onGrid_points (gray := gray) (hp.forall he) xs h
    exact ⟨geno, h1, h2, by rw [hp.decode he h1 h2.ge, h3]⟩

/-- A point of the grid of `exGens`, with different indices for its genes. -/
example : List.Forall₂ OnGrid exGens [.num 2, .num (-1 + 5 * (2 / 7))] := by
  have h := (exPrepared true).forall rfl
  cases h with
  | cons h1 h2 =>
    cases h2 with
    | cons h2 h3 =>
      refine .cons ((onGrid_iff h1).mpr ⟨2, by decide, by norm_num⟩) (.cons ((onGrid_iff h2).mpr ⟨5, by decide, by norm_num⟩) .nil)

/-! ## C06 -/

/-- C06: encoding the decoded phenotype gives back the genotype, for both codings. -/
theorem C06_decode_encode_identity {at_ : Attrs} {gray : Bool} {gens : List BinGene}
    (hp : Prepared at_ gray gens) (he : at_.arith = .exact) (hg : Proper gens) {geno : List Val} (hb : IsBits geno)
    (hl : geno.length = at_.idxBits.getLastD 0) {xs : List Val} (hd : decodeIndivid at_ geno = .ok xs) :
    adopt at_ xs = .ok geno := by
  rw [hp.total] at hl
  rw [hp.decode he hb hl.ge] at hd
  injection hd with hd
  subst hd
  rw [adopt_exact hp.spec he]
  unfold encodeIndivid
  rw [if_neg (by rw [points_length (hp.forall he).length_eq]; simp), encodeGenes_points (hp.forall he) hg geno hb hl]

/-- C06: hence different genotypes have different phenotypes. -/
theorem C06_decode_injective {at_ : Attrs} {gray : Bool} {gens : List BinGene}
    (hp : Prepared at_ gray gens) (he : at_.arith = .exact) (hg : Proper gens) {a b : List Val} (ha : IsBits a) (hb : IsBits b)
    (hla : a.length = at_.idxBits.getLastD 0) (hlb : b.length = at_.idxBits.getLastD 0)
    (h : decodeIndivid at_ a = decodeIndivid at_ b) : a = b := by
  obtain ⟨xs, hx, _⟩ := C05_decode_in_range hp he hg ha hla
  have h1 := C06_decode_encode_identity hp he hg ha hla hx
  have h2 := C06_decode_encode_identity hp he hg hb hlb (h ▸ hx)
  rw [h1] at h2
  injection h2

/-! ## C07 -/

/-- C07: an input individual with one in-range number per gene is encoded to a bit string of the population
length whose decoded value is, gene by gene, within half a real step of the input. -/
theorem C07_encode_nearest {at_ : Attrs} {gray : Bool} {gens : List BinGene}
    (hp : Prepared at_ gray gens) (he : at_.arith = .exact) (hg : Proper gens) {xs : List Val} (hx : List.Forall₂ InGene gens xs) :
    ∃ geno ys, adopt at_ xs = .ok geno ∧ IsBits geno ∧
      geno.length = at_.idxBits.getLastD 0 ∧ decodeIndivid at_ geno = .ok ys ∧
      ∀ (k : Nat) (g : BinGene) (p : GeneParams) (q : ℚ), gens[k]? = some g → at_.params[k]? = some p →
        xs[k]? = some (.num q) → ∃ q' : ℚ, ys[k]? = some (.num q') ∧
          |q' - q| ≤ (|g.hi - g.lo| / (2 ^ p.numBits - 1)) / 2 := by
  obtain ⟨geno, h1, h2, h3, h4⟩ := encodeGenes_near (gray := gray) (hp.forall he) hg xs hx
  refine ⟨geno, _, ?_, h2, by rw [hp.total, h3], hp.decode he h2 h3.ge, ?_⟩
  · rw [adopt_exact hp.spec he]
    unfold encodeIndivid
    rw [if_neg (by rw [hx.length_eq]; simp), h1]
  · intro k g p q hk1 hk2 hk3
    obtain ⟨q', e1, e2⟩ := h4 k g p q hk1 hk2 hk3
    refine ⟨q', e1, ?_⟩
    have hgp : geneParams g = .ok p := by
      obtain ⟨i1, j1⟩ := List.getElem?_eq_some_iff.mp hk1
      obtain ⟨i2, j2⟩ := List.getElem?_eq_some_iff.mp hk2
      have := (List.forall₂_iff_get.mp (hp.forall he)).2 k i1 i2
      simpa [j1, j2] using this
    rw [← (geneParams_ok hgp).2.2.1]
    exact e2

/-- C07: an individual of the wrong length is rejected, in every arithmetic. -/
theorem C07_reject_length {at_ : Attrs} {gray : Bool} {gens : List BinGene} (hs : at_.spec = .binary gray gens) {xs : List Val}
    (h : xs.length ≠ gens.length) : adopt at_ xs = .error .exception := by
  unfold adopt
  rw [hs]
  exact if_pos h

/-- C07: an individual with an out-of-range number is rejected, in every arithmetic. -/
theorem C07_reject_range {at_ : Attrs} {gray : Bool} {gens : List BinGene}
    (hp : Prepared at_ gray gens) {xs : List Val} (hl : xs.length = gens.length)
    (hn : ∀ x ∈ xs, ∃ q, x = .num q) {k : Nat} {g : BinGene} {q : ℚ} (hk : gens[k]? = some g)
    (hx : xs[k]? = some (.num q)) (hq : q < g.lo ∨ g.hi < q) :
    adopt at_ xs = .error .exception := by
  unfold adopt
  rw [hp.spec]
  simp only
  unfold encodeIndividR
  rw [if_neg (by simpa using hl)]
  refine encodeGenesR_reject hp.forallR.length_eq xs hl hn ?_
  intro hc
  obtain ⟨i1, j1⟩ := List.getElem?_eq_some_iff.mp hk
  obtain ⟨i2, j2⟩ := List.getElem?_eq_some_iff.mp hx
  have := (List.forall₂_iff_get.mp hc).2 k i1 i2
  simp only [List.get_eq_getElem, j1, j2] at this
  obtain ⟨q', e, h1, h2⟩ := this
  injection e with e
  subst e
  rcases hq with hq | hq <;> linarith

example : List.Forall₂ InGene exGens [.num (5 / 4), .num (1 / 3)] := by
  refine .cons ⟨5 / 4, rfl, by norm_num, by norm_num⟩ (.cons ⟨1 / 3, rfl, by norm_num, by norm_num⟩ .nil)
example : exGens[1]? = some ⟨-1, 1, 1 / 2⟩ ∧ (3 / 2 : ℚ) > 1 := ⟨rfl, by norm_num⟩

/-! ## C08 -/

/-- C08 (full statement, refuted): for `(0, 3/2, 1)` the grid has two points and step `3/2 > 1`. -/
theorem C08_grid_fineness_refuted :
    ¬ ∀ (g : BinGene) (p : GeneParams), g.lo < g.hi → 0 < g.step → g.step ≤ g.hi - g.lo →
      geneParams g = .ok p → p.realStep ≤ g.step := by
  intro h
  have h1 : pyInt (|(3 / 2 : ℚ) - 0| / 1) = 1 := by decide +kernel
  have h2 : realNumberOfPoints 1 = (1, 1) := by decide
  have hp : geneParams ⟨0, 3 / 2, 1⟩ = .ok ⟨1, 1, 3 / 2⟩ := by
    unfold geneParams
    simp only
    rw [if_neg (by norm_num), h1, h2]
    norm_num
  have := h ⟨0, 3 / 2, 1⟩ _ (by norm_num) (by norm_num) (by norm_num) hp
  norm_num at this

/-- C08, provable part: the grid is at least as fine as requested when the step divides the range.
Missing from the full statement: steps that do not divide the range (refuted above). -/
theorem C08_grid_fineness_partial {g : BinGene} {p : GeneParams} (hlt : g.lo < g.hi) (hs : 0 < g.step) {m : Nat}
    (hd : g.hi - g.lo = m * g.step) (hp : geneParams g = .ok p) : p.realStep ≤ g.step := by
  obtain ⟨_, _, h3, h4, h5, _⟩ := geneParams_ok hp
  have hr : |g.hi - g.lo| / g.step = (m : ℚ) := by
    rw [abs_of_pos (by linarith), hd]; field_simp
  have hk : pyInt (|g.hi - g.lo| / g.step) = m := by
    rw [hr]; unfold pyInt; rw [if_pos (by positivity)]; simp
  have hspec := (realNumberOfPoints_spec (pyInt (|g.hi - g.lo| / g.step))).1
  rw [← h5, hk] at hspec
  have hq : (m : ℚ) ≤ 2 ^ p.numBits - 1 := by exact_mod_cast hspec
  rw [h3, div_le_iff₀ h4, abs_of_pos (by linarith), hd, mul_comm g.step]
  exact mul_le_mul_of_nonneg_right hq hs.le

/-- C08, unconditional bound: the real step is below twice the requested step. -/
theorem C08_grid_step_below_double {g : BinGene} {p : GeneParams} (hlt : g.lo < g.hi) (hs : 0 < g.step)
    (hp : geneParams g = .ok p) : p.realStep < 2 * g.step := by
  obtain ⟨_, _, h3, h4, h5, _⟩ := geneParams_ok hp
  have hpos : 0 < g.hi - g.lo := by linarith
  have hq0 : 0 ≤ (g.hi - g.lo) / g.step := (div_pos hpos hs).le
  have hspec := (realNumberOfPoints_spec (pyInt (|g.hi - g.lo| / g.step))).1
  rw [← h5, abs_of_pos hpos] at hspec
  unfold pyInt at hspec
  rw [if_pos hq0] at hspec
  have hf := Int.lt_floor_add_one ((g.hi - g.lo) / g.step)
  have hc : ((⌊(g.hi - g.lo) / g.step⌋ : Int) : ℚ) ≤ 2 ^ p.numBits - 1 := by exact_mod_cast hspec
  have h1 : (1 : ℚ) ≤ 2 ^ p.numBits - 1 := by
    have : (2 : ℚ) ^ 1 ≤ 2 ^ p.numBits := pow_le_pow_right₀ (by norm_num) (geneParams_ok hp).1
    linarith
  rw [h3, abs_of_pos hpos, div_lt_iff₀ h4]
  have : (g.hi - g.lo) / g.step < (2 ^ p.numBits - 1) + 1 := by linarith
  rw [div_lt_iff₀ hs] at this
  nlinarith

example : (3 : ℚ) - 0 = (3 : Nat) * 1 ∧ ∃ p, geneParams ⟨0, 3, 1⟩ = .ok p := by
  refine ⟨by norm_num, geneParams_accepts ?_⟩
  unfold Degenerate
  push Not
  constructor
  · norm_num
  · rw [abs_of_pos] <;> norm_num

/-! ## C09 -/

/-- C09: a degenerate gene anywhere in the list makes `fill` raise `ZeroDivisionError` with the state unchanged
(no individual is created and no random number drawn). -/
theorem C09_degenerate_rejected {σ : Type} {s : St σ} {gray : Bool} {gens : List BinGene}
    (hs : s.ga.attrs.spec = .binary gray gens) (he : s.ga.attrs.arith = .exact) (hd : ∃ g ∈ gens, Degenerate g)
    (input : Option (List (List Val))) : fill input s = (.error .zeroDivision, s) := by
  unfold fill
  apply bind_of_err
  unfold prepare
  rw [bind_of_ok (getGa_run s), hs]
  simp only
  apply bind_of_err
  rw [he, Arith.exact_rnd, gensParamsR_id, gensParams_degenerate hd]
  rfl

/-- C09, converse: without degenerate genes the gene list is accepted. -/
theorem C09_nondegenerate_accepted {gens : List BinGene} (h : ∀ g ∈ gens, ¬ Degenerate g) :
    ∃ ps offs, gensParamsR Arith.exact.rnd gens 0 = .ok (ps, offs) := by
  obtain ⟨r, hr⟩ := gensParams_accepts (off := 0) h
  exact ⟨r.1, r.2, by rw [Arith.exact_rnd, gensParamsR_id]; exact hr⟩

example : ∃ g ∈ ([⟨0, 3, 1⟩, ⟨2, 2, 1⟩] : List BinGene), Degenerate g :=
  ⟨⟨2, 2, 1⟩, by simp, Or.inr (by norm_num)⟩
example : ∀ g ∈ exGens, ¬ Degenerate g := by
  intro g hg
  simp only [exGens, List.mem_cons, List.not_mem_nil, or_false] at hg
  unfold Degenerate
  push Not
  rcases hg with rfl | rfl
  · exact ⟨by norm_num, by rw [abs_of_pos] <;> norm_num⟩
  · exact ⟨by norm_num, by rw [abs_of_pos] <;> norm_num⟩

end BaumEva
