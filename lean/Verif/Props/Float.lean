import Verif.Proofs.FloatWheel
import Verif.Props.Selection
import Verif.Model.Fitness
/-!
# Properties C91-C96: the numeric kernels in machine arithmetic

The theorems named `_partial` hold for every rounding in the sense of `Spec.Rounding`, in particular for binary64 (`fl`);
the refutations are computed in binary64.
-/
namespace BaumEva
open Spec

/-- Binary64 is a rounding in the sense of the specification: the theorems below apply to Python's floats. -/
theorem C91_binary64_is_rounding : Rounding fl := fl_rounding

example : fl (1 / 10) = 3602879701896397 / 36028797018963968 := by decide +kernel
example : fl (31 / 10) = 6980579422424269 / 2251799813685248 := by decide +kernel

/-! ## C91: range of decoded values -/

/-- C91, full claim: in binary64 every bit string of the total length decodes to numbers inside the ranges of the genes. -/
def FloatDecodeInRange : Prop :=
  ∀ (gray : Bool) (gens : List BinGene) (ps : List GeneParams) (offs : List Nat) (geno : List Val),
    Proper gens → (∀ g ∈ gens, Machine fl g.lo ∧ Machine fl g.hi ∧ Machine fl g.step) →
    gensParamsR fl gens 0 = .ok (ps, offs) → IsBits geno → geno.length = totalBits ps →
    ∃ xs, decodeGenesR fl gray geno gens ps (0 :: offs) = .ok xs ∧ List.Forall₂ InGene gens xs

/-- The gene `(0, 3.1, 1)` as Python reads it. -/
def exFloatGene : BinGene := ⟨0, fl (31 / 10), 1⟩

/-- Its parameters: 2 bits, step `3.1 / 3`. -/
def exFloatParams : GeneParams := ⟨2, 3, fl (fl (31 / 10) / 3)⟩

theorem exFloat_params : gensParamsR fl [exFloatGene] 0 = .ok ([exFloatParams], [2]) := by decide +kernel

/-- `'11'` decodes to `3.1000000000000005`. -/
theorem exFloat_decode : decodeGenesR fl false [.str "1", .str "1"] [exFloatGene] [exFloatParams] [0, 2]
    = .ok [.num (6980579422424270 / 2251799813685248)] := by decide +kernel

/-- C91 is false: `3 * (3.1 / 3) > 3.1` in binary64, so the largest individual of the gene `(0, 3.1, 1)` decodes to a value
above the upper end; the objective function is called outside the search range. -/
theorem C91_float_decode_refuted : ¬ FloatDecodeInRange := by
  intro h
  obtain ⟨xs, h1, h2⟩ := h false [exFloatGene] [exFloatParams] [2] [.str "1", .str "1"]
    (by intro g hg; simp only [List.mem_singleton] at hg; subst hg; decide +kernel)
    (by intro g hg; simp only [List.mem_singleton] at hg; subst hg; unfold Machine; decide +kernel)
    exFloat_params (by decide) (by decide)
  rw [exFloat_decode] at h1
  injection h1 with h1
  subst h1
  cases h2 with
  | cons h3 _ =>
    obtain ⟨q, hq, _, h5⟩ := h3
    injection hq with hq
    subst hq
    exact absurd h5 (by decide +kernel)

theorem pointsR_near {rnd : ℚ → ℚ} (R : Rounding rnd) {gray : Bool} : ∀ {gens : List BinGene} {ps : List GeneParams},
    List.Forall₂ (fun g p => geneParamsR rnd g = .ok p) gens ps → Proper gens → (∀ g ∈ gens, Machine rnd g.lo) →
    ∀ rest : List Val, ∀ (k : Nat) (g : BinGene) (p : GeneParams) (x : Val), gens[k]? = some g → ps[k]? = some p →
    (pointsR rnd gray rest gens ps)[k]? = some x → ∃ (q : ℚ) (i : Nat), x = .num q ∧ i < 2 ^ p.numBits ∧
      |q - (g.lo + (i : ℚ) * ((g.hi - g.lo) / (2 ^ p.numBits - 1)))| ≤ 16 * ulp * max |g.lo| |g.hi| ∧ g.lo ≤ q ∧
      (Coarse 16 g p.numBits → i + 1 < 2 ^ p.numBits → q ≤ g.hi) := by
  intro gens ps h
  induction h with
  | nil => intro _ _ rest k g p x hk; simp at hk
  | cons hp _ ih =>
    intro hg hm rest k g' p' x hk1 hk2 hk3
    rename_i g p gs ps _
    rw [pointsR] at hk3
    cases k with
    | zero =>
      simp only [List.getElem?_cons_zero, Option.some.injEq] at hk1 hk2 hk3
      subst hk1 hk2 hk3
      have hlt := hg g List.mem_cons_self
      have hi := decIdx_lt (gray := gray) (take_bits_lt (rest := rest) (n := p.numBits))
      exact ⟨_, _, rfl, hi, pointR_near R hp hlt hi, pointR_lo R hp hlt (hm g List.mem_cons_self) _,
        fun hc h1 => pointR_hi R hp hlt h1 hc⟩
    | succ k =>
      simp only [List.getElem?_cons_succ] at hk1 hk2 hk3
      exact ih (fun x hx => hg x (List.mem_cons_of_mem _ hx)) (fun x hx => hm x (List.mem_cons_of_mem _ hx)) _ k g' p' x
        hk1 hk2 hk3

/-- C91 as far as it holds, for every rounding: decoding succeeds with one value per gene; the value is a point of the
equidistant grid up to 16 unit roundoffs of the larger end; it is never below the lower end; on grids with a step of at least
16 unit roundoffs only the last grid point can lie above the upper end.  Missing: the last grid point may do so. -/
theorem C91_float_decode_partial {rnd : ℚ → ℚ} (R : Rounding rnd) {gray : Bool} {gens : List BinGene}
    {ps : List GeneParams} {offs : List Nat} {geno : List Val} (hg : Proper gens) (hm : ∀ g ∈ gens, Machine rnd g.lo)
    (hp : gensParamsR rnd gens 0 = .ok (ps, offs)) (hb : IsBits geno) (hl : geno.length = totalBits ps) :
    ∃ xs, decodeGenesR rnd gray geno gens ps (0 :: offs) = .ok xs ∧ xs.length = gens.length ∧
      ∀ (k : Nat) (g : BinGene) (p : GeneParams) (x : Val), gens[k]? = some g → ps[k]? = some p → xs[k]? = some x →
        ∃ (q : ℚ) (i : Nat), x = .num q ∧ i < 2 ^ p.numBits ∧
          |q - (g.lo + (i : ℚ) * ((g.hi - g.lo) / (2 ^ p.numBits - 1)))| ≤ 16 * ulp * max |g.lo| |g.hi| ∧ g.lo ≤ q ∧
          (Coarse 16 g p.numBits → i + 1 < 2 ^ p.numBits → q ≤ g.hi) := by
  have hf := gensParamsR_forall hp
  refine ⟨_, decodeGenesR_eq hb hp (by omega), pointsR_length hf.length_eq, ?_⟩
  rw [List.drop_zero]
  exact pointsR_near R hf hg hm geno

/-- C91: the order of the grid is kept, and the lower end is met exactly. -/
theorem C91_float_points_ordered {rnd : ℚ → ℚ} (R : Rounding rnd) {g : BinGene} {p : GeneParams}
    (h : geneParamsR rnd g = .ok p) (hg : g.lo < g.hi) (hm : Machine rnd g.lo) :
    pointR rnd g p 0 = g.lo ∧ ∀ i j : Nat, i ≤ j → pointR rnd g p i ≤ pointR rnd g p j :=
  ⟨by rw [pointR_zero R]; exact hm, fun _ _ hij => pointR_mono R h hg hij⟩

/-- C91: grids whose lower end and step are integer multiples `a`, `s` of one power of two, with all points of at most 53
significant bits, are decoded exactly (for example integer variables). -/
theorem C91_float_exact_grids {rnd : ℚ → ℚ} (R : Rounding rnd) {g : BinGene} {p : GeneParams}
    (h : geneParamsR rnd g = .ok p) {a s e : Int} (hs : 0 < s) (hlo : g.lo = a * 2 ^ e)
    (hhi : g.hi = ((a + (2 ^ p.numBits - 1) * s : Int) : ℚ) * 2 ^ e)
    (h1 : |a| ≤ 2 ^ 53) (h2 : |a + (2 ^ p.numBits - 1) * s| ≤ 2 ^ 53) (h3 : (2 ^ p.numBits - 1) * s ≤ 2 ^ 53) {i : Nat}
    (hi : i < 2 ^ p.numBits) :
    pointR rnd g p i = ((a + i * s : Int) : ℚ) * 2 ^ e ∧ pointR rnd g p i ≤ g.hi := by
  have h4 := (geneParamsR_ok h).2.2.2.1
  have hw : g.hi - g.lo = ((2 ^ p.numBits - 1) * s : Int) * 2 ^ e := by rw [hlo, hhi]; push_cast; ring
  have hd : (g.hi - g.lo) / ((2 : ℚ) ^ p.numBits - 1) = s * 2 ^ e := by
    rw [hw, div_eq_iff h4.ne']; push_cast; ring
  have hp := pointR_exact R h hs hlo hw h1 h2 h3 hi
  have e1 : pointR rnd g p i = ((a + i * s : Int) : ℚ) * 2 ^ e := by
    rw [hp, hd, hlo]; push_cast; ring
  refine ⟨e1, ?_⟩
  rw [e1, hhi]
  apply mul_le_mul_of_nonneg_right _ (zpow_pos (by norm_num) _).le
  have hiN : (i : Int) ≤ 2 ^ p.numBits - 1 := by
    have : ((i : Nat) : Int) < ((2 ^ p.numBits : Nat) : Int) := by exact_mod_cast hi
    push_cast at this; omega
  have : a + i * s ≤ a + (2 ^ p.numBits - 1) * s := by
    have := mul_le_mul_of_nonneg_right hiN hs.le
    omega
  exact_mod_cast this

/-- The hypotheses of `C91_float_decode_partial` are met by the gene of the counterexample, whose grid is coarse. -/
example : Proper [exFloatGene] ∧ Machine fl exFloatGene.lo ∧ Coarse 64 exFloatGene 2 := by
  refine ⟨by intro g hg; simp only [List.mem_singleton] at hg; subst hg; decide +kernel, ?_, ?_⟩
  · unfold Machine; decide +kernel
  · unfold Coarse; decide +kernel

/-- The hypotheses of `C91_float_exact_grids` are met by an integer variable from -8 to 7. -/
example : geneParamsR fl ⟨-8, 7, 1⟩ = .ok ⟨4, 15, 1⟩ ∧ ((-8 : ℚ) = ((-8 : Int) : ℚ) * 2 ^ (0 : Int)) ∧
    (7 : ℚ) = ((-8 + (2 ^ 4 - 1) * 1 : Int) : ℚ) * 2 ^ (0 : Int) := by
  refine ⟨by decide +kernel, by norm_num, by norm_num⟩

/-! ## C92: feeding a solution back -/

/-- C92, full claim: in binary64 the values decoded from a bit string are accepted as input individual and encoded back to
this bit string. -/
def FloatRoundTrip : Prop :=
  ∀ (gray : Bool) (gens : List BinGene) (ps : List GeneParams) (offs : List Nat) (geno xs : List Val),
    Proper gens → (∀ g ∈ gens, Machine fl g.lo ∧ Machine fl g.hi ∧ Machine fl g.step) →
    gensParamsR fl gens 0 = .ok (ps, offs) → List.Forall₂ (fun g p => Coarse 64 g p.numBits) gens ps →
    IsBits geno → geno.length = totalBits ps → decodeGenesR fl gray geno gens ps (0 :: offs) = .ok xs →
    encodeIndividR fl gray gens ps xs = .ok geno

/-- C92 is false: the solution `3.1000000000000005` of the gene `(0, 3.1, 1)` is rejected as out of range when it is given as
input individual of the next run. -/
theorem C92_float_roundtrip_refuted : ¬ FloatRoundTrip := by
  intro h
  have := h false [exFloatGene] [exFloatParams] [2] [.str "1", .str "1"] _
    (by intro g hg; simp only [List.mem_singleton] at hg; subst hg; decide +kernel)
    (by intro g hg; simp only [List.mem_singleton] at hg; subst hg; unfold Machine; decide +kernel)
    exFloat_params (.cons (by unfold Coarse; decide +kernel) .nil) (by decide) (by decide) exFloat_decode
  have h2 : encodeIndividR fl false [exFloatGene] [exFloatParams] [.num (6980579422424270 / 2251799813685248)]
      = .error .exception := by decide +kernel
  rw [h2] at this
  cases this

/-- C92 as far as it holds, for every rounding: on grids with a step of at least 64 unit roundoffs of the larger end, decoded
values that lie in the ranges are encoded back to the bit string they came from.  Missing: values above the upper end, which
are rejected. -/
theorem C92_float_roundtrip_partial {rnd : ℚ → ℚ} (R : Rounding rnd) {gray : Bool} {gens : List BinGene}
    {ps : List GeneParams} {offs : List Nat} {geno xs : List Val} (hg : Proper gens)
    (hp : gensParamsR rnd gens 0 = .ok (ps, offs)) (hc : List.Forall₂ (fun g p => Coarse 64 g p.numBits) gens ps)
    (hb : IsBits geno) (hl : geno.length = totalBits ps) (hd : decodeGenesR rnd gray geno gens ps (0 :: offs) = .ok xs)
    (hin : List.Forall₂ InGene gens xs) : encodeIndividR rnd gray gens ps xs = .ok geno := by
  have hf := gensParamsR_forall hp
  rw [decodeGenesR_eq hb hp (by omega), List.drop_zero] at hd
  injection hd with hd
  subst hd
  unfold encodeIndividR
  rw [if_neg (by rw [pointsR_length hf.length_eq]; simp)]
  exact encodeGenesR_pointsR R hf hg hc geno hb hl hin

/-- C92: on such grids different indices have different values (no two bit strings of a gene are confused), in order. -/
theorem C92_float_points_distinct {rnd : ℚ → ℚ} (R : Rounding rnd) {g : BinGene} {p : GeneParams}
    (h : geneParamsR rnd g = .ok p) (hg : g.lo < g.hi) (hc : Coarse 64 g p.numBits) {i j : Nat} (hij : i < j)
    (hj : j < 2 ^ p.numBits) : pointR rnd g p i < pointR rnd g p j := by
  refine lt_of_le_of_ne (pointR_mono R h hg hij.le) ?_
  intro he
  have h1 := stepIdxR_pointR R h hg (i := i) (by omega) hc
  have h2 := stepIdxR_pointR R h hg hj hc
  rw [he, h2] at h1
  omega

/-- On finer grids neighbouring bit strings do get confused: near 1 the grid `(1, 1 + 2^-50, 2^-53)` has points without a
machine number of their own. -/
theorem C92_float_fine_grid_refuted : ∃ (g : BinGene) (p : GeneParams) (i j : Nat), Machine fl g.lo ∧ Machine fl g.hi ∧
    Machine fl g.step ∧ g.lo < g.hi ∧ geneParamsR fl g = .ok p ∧ i < j ∧ j < 2 ^ p.numBits ∧
    pointR fl g p i = pointR fl g p j := by
  refine ⟨⟨1, 1 + 1 / 2 ^ 50, 1 / 2 ^ 53⟩, ⟨4, 15, fl (1 / 2 ^ 50 / 15)⟩, 0, 1, ?_⟩
  unfold Machine
  decide +kernel

example : decodeGenesR fl false [.str "1", .str "0"] [exFloatGene] [exFloatParams] [0, 2]
      = .ok [.num (fl (2 * exFloatParams.realStep))] ∧
    encodeIndividR fl false [exFloatGene] [exFloatParams] [.num (fl (2 * exFloatParams.realStep))]
      = .ok [.str "1", .str "0"] := by decide +kernel

/-! ## C93: the wheel always answers a position of the population -/

/-- C93, full claim: in binary64 the wheel for positive scores answers a position of the population for every random number. -/
def FloatIndexInRange : Prop :=
  ∀ (ws sel : List ℚ) (k : Nat), (∀ w ∈ ws, 0 < w ∧ Machine fl w) → ws ≠ [] →
    selectionScoresR fl (sumR fl ws 0) ws = .ok sel → k < 2 ^ 53 →
    ∃ i : Nat, rouletteIndexR fl sel ((k : ℚ) / 2 ^ 53) = i ∧ i < ws.length

/-- The last entry of the wheel of seven equal scores is `0.9999999999999998`. -/
theorem exSeven_wheel : selectionScoresR fl (sumR fl [1, 1, 1, 1, 1, 1, 1] 0) [1, 1, 1, 1, 1, 1, 1] = .ok
    [0, 2573485501354569 / 18014398509481984, 2573485501354569 / 9007199254740992, 7720456504063707 / 18014398509481984,
     2573485501354569 / 4503599627370496, 3216856876693211 / 4503599627370496, 3860228252031853 / 4503599627370496,
     4503599627370495 / 4503599627370496] := by decide +kernel

/-- C93 is false: with seven equal scores the two largest random numbers lie at or above the last entry of the wheel, and the
answer is position 7 of a population of 7. -/
theorem C93_float_index_refuted : ¬ FloatIndexInRange := by
  intro h
  obtain ⟨i, h1, h2⟩ := h [1, 1, 1, 1, 1, 1, 1] _ (2 ^ 53 - 1)
    (by intro w hw; simp at hw; subst hw; unfold Machine; decide +kernel) (by simp) exSeven_wheel (by norm_num)
  have h3 : rouletteIndexR fl [0, 2573485501354569 / 18014398509481984, 2573485501354569 / 9007199254740992,
      7720456504063707 / 18014398509481984, 2573485501354569 / 4503599627370496, 3216856876693211 / 4503599627370496,
      3860228252031853 / 4503599627370496, 4503599627370495 / 4503599627370496] (((2 ^ 53 - 1 : Nat) : ℚ) / 2 ^ 53) = 7 := by
    decide +kernel
  rw [h3] at h1
  simp at h2
  omega

/-- The same state, with binary64 as the arithmetic of the run. -/
def inBinary64 (s : St ℚ) : St ℚ := { s with ga := { s.ga with attrs := { s.ga.attrs with arith := .binary64 } } }

/-- C93: the selection then raises `IndexError`. -/
theorem C93_float_selection_raises_refuted :
    (balancedExec (inBinary64 (scored [1, 1, 1, 1, 1, 1, 1] [0, 2 ^ 53 - 1]))).1 = .error .indexError := by
  decide +kernel

/-- C93 as far as it holds, for every rounding: the answer is a position of the population whenever the random number is below
the last entry of the wheel; and that entry is at least `1 - 8 n 2^-53`, so at most the `8 n` largest of the `2^53` random
numbers fail.  Missing: those random numbers.  (The total may be computed by any summation with an error of `2 n` unit
roundoffs, see `C93_float_total`.) -/
theorem C93_float_index_partial {rnd : ℚ → ℚ} (R : Rounding rnd) {ws sel : List ℚ} {T : ℚ} (hne : ws ≠ [])
    (hw : ∀ w ∈ ws, 0 < w) (hn : (ws.length : ℚ) * (16 * ulp) ≤ 1) (hT : |T - ws.sum| ≤ ws.length * (2 * ulp) * ws.sum)
    (hs : selectionScoresR rnd T ws = .ok sel) :
    ∃ top, sel[ws.length]? = some top ∧ 1 - ws.length * (8 * ulp) ≤ top ∧
      (∀ r, 0 ≤ r → r < top → ∃ i : Nat, rouletteIndexR rnd sel r = i ∧ i < ws.length) ∧
      ∀ k : Nat, k + 8 * ws.length < 2 ^ 53 → ∃ i : Nat, rouletteIndexR rnd sel ((k : ℚ) / 2 ^ 53) = i ∧ i < ws.length := by
  obtain ⟨h1, h2, h3, _, _⟩ := wheelR R hne hw hn hT hs
  obtain ⟨top, ht, hb⟩ := h3 ws.length le_rfl
  have hS : 0 < ws.sum := List.sum_pos _ hw hne
  rw [share_full hS.ne', abs_le] at hb
  have hv : ∀ r, 0 ≤ r → r < top → ∃ i : Nat, rouletteIndexR rnd sel r = i ∧ i < ws.length :=
    fun r hr0 hr => rouletteIndexR_valid h1 h2 hr0 ht hr
  refine ⟨top, ht, by linarith, hv, ?_⟩
  intro k hk
  apply hv _ (by positivity)
  have hk' : (k : ℚ) + 8 * ws.length < 2 ^ 53 := by exact_mod_cast hk
  refine lt_of_lt_of_le ?_ (show 1 - ws.length * (8 * ulp) ≤ top by linarith)
  unfold ulp
  rw [div_lt_iff₀ (by norm_num)]
  linarith

/-- C93: left-to-right summation, as in the library, meets the hypothesis on the total. -/
theorem C93_float_total {rnd : ℚ → ℚ} (R : Rounding rnd) {ws : List ℚ} (hw : ∀ w ∈ ws, 0 ≤ w)
    (hn : (ws.length : ℚ) * (16 * ulp) ≤ 1) : |sumR rnd ws 0 - ws.sum| ≤ ws.length * (2 * ulp) * ws.sum :=
  sumR_err R hw (by linarith)

example : (([1, 1, 1, 1, 1, 1, 1] : List ℚ).length : ℚ) * (16 * ulp) ≤ 1 := by unfold ulp; norm_num

/-! ## C94: selection chances -/

/-- C94, full claim: in binary64 the wheel for positive scores answers `i` only for random numbers between entry `i` and
entry `i + 1`. -/
def FloatProportional : Prop :=
  ∀ (ws sel : List ℚ) (k i : Nat) (a b : ℚ), (∀ w ∈ ws, 0 < w ∧ Machine fl w) →
    selectionScoresR fl (sumR fl ws 0) ws = .ok sel → k < 2 ^ 53 → sel[i]? = some a → sel[i + 1]? = some b →
    rouletteIndexR fl sel ((k : ℚ) / 2 ^ 53) = i → a ≤ (k : ℚ) / 2 ^ 53 ∧ (k : ℚ) / 2 ^ 53 < b

/-- The wheel of an individual with the score `2^-100` and one with the score 1. -/
theorem exTiny_wheel : selectionScoresR fl (sumR fl [1 / 2 ^ 100, 1] 0) [1 / 2 ^ 100, 1]
    = .ok [0, 1 / 2 ^ 100, 1] := by decide +kernel

/-- A tiny amount below a random number in `[2^-10, 1)` is lost. -/
theorem fl_sub_tiny {k : Nat} (h1 : 2 ^ 43 ≤ k) (h2 : k < 2 ^ 53) :
    fl ((k : ℚ) / 2 ^ 53 - 1 / 2 ^ 100) = (k : ℚ) / 2 ^ 53 := by
  have hk1 : (2 : ℚ) ^ 43 ≤ k := by exact_mod_cast h1
  have hk2 : (k : ℚ) < 2 ^ 53 := by exact_mod_cast h2
  set q : ℚ := (k : ℚ) / 2 ^ 53 - 1 / 2 ^ 100 with hq
  have hlow : (1 : ℚ) / 2 ^ 11 ≤ q := by
    rw [hq]
    have : (2 : ℚ) ^ 43 / 2 ^ 53 ≤ (k : ℚ) / 2 ^ 53 := div_le_div_of_nonneg_right hk1 (by norm_num)
    have h3 : (1 : ℚ) / 2 ^ 11 ≤ 2 ^ 43 / 2 ^ 53 - 1 / 2 ^ 100 := by norm_num
    linarith
  have hhigh : q < 1 := by
    rw [hq]
    have : (k : ℚ) / 2 ^ 53 < 1 := by rw [div_lt_one (by norm_num)]; exact hk2
    have : (0 : ℚ) < 1 / 2 ^ 100 := by norm_num
    linarith
  have hpos : 0 < q := by
    have : (0 : ℚ) < 1 / 2 ^ 11 := by norm_num
    linarith
  -- exponent between -11 and -1
  have hl1 : -11 ≤ Int.log 2 |q| := by
    rw [abs_of_pos hpos]
    rw [← Int.zpow_le_iff_le_log (by norm_num) hpos]
    push_cast
    have : (2 : ℚ) ^ (-11 : Int) = 1 / 2 ^ 11 := by norm_num
    rw [this]; exact hlow
  have hl2 : Int.log 2 |q| ≤ -1 := by
    rw [abs_of_pos hpos]
    have : Int.log 2 q < 0 := by
      rw [← Int.lt_zpow_iff_log_lt (by norm_num) hpos]
      simpa using hhigh
    omega
  obtain ⟨d, hd1, hd2⟩ : ∃ d : Nat, Int.log 2 |q| = -1 - d ∧ d ≤ 10 :=
    ⟨(-1 - Int.log 2 |q|).toNat, by omega, by omega⟩
  have hlb : lastBit q = 1 / 2 ^ (53 + d) := by
    unfold lastBit
    rw [hd1, show (-1 - (d : Int) - 52) = -((53 + d : Nat) : Int) by push_cast; ring, zpow_neg, zpow_natCast]
    simp
  rw [fl_def hpos.ne', hlb]
  have hr : pyRound (q / (1 / 2 ^ (53 + d))) = (k * 2 ^ d : Nat) := by
    apply pyRound_unique
    have e : q / (1 / 2 ^ (53 + d)) - (((k * 2 ^ d : Nat) : Int) : ℚ) = -(2 ^ (53 + d) / 2 ^ 100) := by
      rw [hq]; push_cast; rw [pow_add]; field_simp; ring
    rw [e, abs_neg, abs_of_pos (by positivity), div_lt_iff₀ (by norm_num)]
    have : (2 : ℚ) ^ (53 + d) ≤ 2 ^ 63 := pow_le_pow_right₀ (by norm_num) (by omega)
    have h3 : (2 : ℚ) ^ 63 < 1 / 2 * 2 ^ 100 := by norm_num
    linarith
  rw [hr]
  push_cast
  rw [pow_add]
  field_simp

theorem fl_of_draw {k : Int} (h : |k| ≤ 2 ^ 53) : fl ((k : ℚ) / 2 ^ 53) = (k : ℚ) / 2 ^ 53 := by
  have := fl_exact (m := k) (e := -53) h
  rw [zpow_neg] at this
  have h53 : (2 : ℚ) ^ (53 : Int) = 2 ^ 53 := by norm_cast
  rw [h53] at this
  rw [div_eq_mul_inv]; exact this

/-- C94: all random numbers from `2^-10` to `1/2`, almost half of all, select the individual whose share is `2^-100`: its
boundary cannot be told from 0 after subtracting the random number, and the first of equally near entries wins. -/
theorem C94_float_tiny_share_refuted {k : Nat} (h1 : 2 ^ 43 ≤ k) (h2 : k < 2 ^ 52) :
    rouletteIndexR fl [0, 1 / 2 ^ 100, 1] ((k : ℚ) / 2 ^ 53) = 0 := by
  have hk : (k : ℚ) < 2 ^ 52 := by exact_mod_cast h2
  have hk0 : (0 : ℚ) ≤ (k : ℚ) / 2 ^ 53 := by positivity
  have e0 : |fl (0 - (k : ℚ) / 2 ^ 53)| = (k : ℚ) / 2 ^ 53 := by
    rw [zero_sub, fl_neg, abs_neg]
    have := fl_of_draw (k := (k : Int)) (by rw [abs_of_nonneg (by positivity)]; exact_mod_cast (by omega : k ≤ 2 ^ 53))
    push_cast at this
    rw [this, abs_of_nonneg hk0]
  have e1 : |fl (1 / 2 ^ 100 - (k : ℚ) / 2 ^ 53)| = (k : ℚ) / 2 ^ 53 := by
    rw [← neg_sub, fl_neg, abs_neg, fl_sub_tiny h1 (by omega), abs_of_nonneg hk0]
  have e2 : |fl (1 - (k : ℚ) / 2 ^ 53)| = 1 - (k : ℚ) / 2 ^ 53 := by
    have := fl_of_draw (k := 2 ^ 53 - (k : Int)) (by rw [abs_le]; constructor <;> omega)
    have e : ((2 ^ 53 - (k : Int) : Int) : ℚ) / 2 ^ 53 = 1 - (k : ℚ) / 2 ^ 53 := by
      push_cast; rw [sub_div]; norm_num
    rw [e] at this
    rw [this, abs_of_nonneg]
    rw [sub_nonneg, div_le_one (by norm_num)]
    have : (2 : ℚ) ^ 52 ≤ 2 ^ 53 := by norm_num
    linarith
  have hhalf : (k : ℚ) / 2 ^ 53 < 1 / 2 := by
    rw [div_lt_iff₀ (by norm_num)]
    have : (2 : ℚ) ^ 52 = 1 / 2 * 2 ^ 53 := by norm_num
    linarith
  unfold rouletteIndexR argminDistR
  simp only [argminLoopR, e0, e1, e2, lt_irrefl, if_false]
  have hc : ¬ 1 - (k : ℚ) / 2 ^ 53 < (k : ℚ) / 2 ^ 53 := by linarith
  simp only [if_neg hc]
  simp [hk0]

/-- C94 is false. -/
theorem C94_float_proportional_refuted : ¬ FloatProportional := by
  intro h
  have := h [1 / 2 ^ 100, 1] _ (2 ^ 51) 0 0 (1 / 2 ^ 100)
    (by intro w hw; simp at hw; unfold Machine; rcases hw with rfl | rfl <;> decide +kernel) exTiny_wheel (by norm_num)
    (by simp) (by simp) (C94_float_tiny_share_refuted (by norm_num) (by norm_num))
  norm_num at this

/-- C94 as far as it holds, for every rounding: if every share is at least `16 * 2^-53`, the wheel answers `i` exactly for the
random numbers from entry `i` up to entry `i + 1`, and these entries are the exact cumulative shares up to `8 n * 2^-53`.
Missing: smaller shares, and random numbers from the last entry on (C93). -/
theorem C94_float_proportional_partial {rnd : ℚ → ℚ} (R : Rounding rnd) {ws sel : List ℚ} {T : ℚ} (hne : ws ≠ [])
    (hw : ∀ w ∈ ws, 0 < w) (hn : (ws.length : ℚ) * (16 * ulp) ≤ 1) (hT : |T - ws.sum| ≤ ws.length * (2 * ulp) * ws.sum)
    (hs : selectionScoresR rnd T ws = .ok sel) (hbig : ∀ w ∈ ws, 16 * ulp ≤ w / ws.sum) {i : Nat} (hi : i < ws.length) :
    ∃ a b, sel[i]? = some a ∧ sel[i + 1]? = some b ∧ |a - share ws i| ≤ ws.length * (8 * ulp) ∧
      |b - share ws (i + 1)| ≤ ws.length * (8 * ulp) ∧
      ∀ r, 0 ≤ r → r < 1 → (rouletteIndexR rnd sel r = i ↔ a ≤ r ∧ r < b) := by
  obtain ⟨h1, h2, h3, h4, h5⟩ := wheelR R hne hw hn hT hs
  have hgap := h4 hbig
  have htop : ∀ x ∈ sel, x ≤ 2 := fun x hx => le_trans (h5 x hx) (by norm_num)
  obtain ⟨a, ha, ea⟩ := h3 i (by omega)
  obtain ⟨b, hb, eb⟩ := h3 (i + 1) (by omega)
  refine ⟨a, b, ha, hb, ea, eb, ?_⟩
  intro r hr0 hr1
  have hu := ulp_pos
  constructor
  · intro hidx
    -- the position whose window contains `r`
    have hex : ∃ j : Nat, (∃ x, sel[j]? = some x ∧ x ≤ r) ∧ ∀ y, sel[j + 1]? = some y → r < y := by
      by_contra hc
      push Not at hc
      have : ∀ j : Nat, ∃ x, sel[j]? = some x ∧ x ≤ r := by
        intro j
        induction j with
        | zero => exact ⟨0, h2, hr0⟩
        | succ j ih => exact hc j ih
      obtain ⟨x, hx, _⟩ := this (ws.length + 1)
      have := (List.getElem?_eq_some_iff.mp hx).1
      omega
    obtain ⟨j, ⟨x, hx, hxr⟩, hy⟩ := hex
    have := rouletteIndexR_window R h1 h2 htop hgap hr0 hr1 hx hxr hy
    rw [hidx] at this
    have hij : i = j := by exact_mod_cast this
    subst hij
    rw [ha] at hx; injection hx with hx; subst hx
    exact ⟨hxr, hy b hb⟩
  · rintro ⟨har, hrb⟩
    refine rouletteIndexR_window R h1 h2 htop hgap hr0 hr1 ha har ?_
    intro b' hb'
    rw [hb] at hb'; injection hb' with hb'; rw [← hb']; exact hrb

/-- C94 for weights of a bounded spread, for example ranks (from 1 to `n`) or scores `1 / (1 + dominators)`: no share is too
small if no weight exceeds `m` times another and `n * m ≤ 2^49`. -/
theorem C94_float_spread_suffices {ws : List ℚ} {m : ℚ} (hw : ∀ w ∈ ws, 0 < w) (hm : ∀ v ∈ ws, ∀ w ∈ ws, v ≤ m * w)
    (hb : (ws.length : ℚ) * m ≤ 2 ^ 49) : ∀ w ∈ ws, 16 * ulp ≤ w / ws.sum := by
  intro w hmem
  have hne : ws ≠ [] := List.ne_nil_of_mem hmem
  have hS : 0 < ws.sum := List.sum_pos _ hw hne
  have hsum : ws.sum ≤ ws.length * (m * w) := by
    have := List.sum_le_card_nsmul ws (m * w) (fun v hv => hm v hv w hmem)
    simpa [nsmul_eq_mul] using this
  rw [le_div_iff₀ hS]
  have hw0 := hw w hmem
  have h1 : ws.length * m * w ≤ 2 ^ 49 * w := mul_le_mul_of_nonneg_right hb hw0.le
  have h2 : 16 * ulp * ws.sum ≤ 16 * ulp * (2 ^ 49 * w) :=
    mul_le_mul_of_nonneg_left (by linarith) (by unfold ulp; norm_num)
  have h3 : 16 * ulp * (2 ^ 49 * w) = w := by unfold ulp; ring
  linarith

example : ∀ w ∈ ([1, 2, 3, 4, 5] : List ℚ), 16 * ulp ≤ w / ([1, 2, 3, 4, 5] : List ℚ).sum := by
  unfold ulp; intro w hw; simp at hw; rcases hw with rfl | rfl | rfl | rfl | rfl <;> norm_num

/-! ## C95: scores -/

/-- C95, full claim: in binary64 a smaller distance from the target or a smaller penalty means a strictly higher score. -/
def FloatScoreStrict : Prop :=
  ∀ (t o o' pen pen' s s' : ℚ), Machine fl t → Machine fl o → Machine fl o' → Machine fl pen → Machine fl pen' → 0 ≤ pen →
    |t - o| + pen < |t - o'| + pen' → pen ≤ pen' →
    hyperbolaR fl (some t) o pen = .ok s → hyperbolaR fl (some t) o' pen' = .ok s' → s' < s

/-- C95 is false: within `2^-53` of the target all scores are 1. -/
theorem C95_float_score_refuted : ¬ FloatScoreStrict := by
  intro h
  have h1 : hyperbolaR fl (some 0) 0 0 = .ok 1 := by decide +kernel
  have h2 : hyperbolaR fl (some 0) (1 / 2 ^ 60) 0 = .ok 1 := by decide +kernel
  have := h 0 0 (1 / 2 ^ 60) 0 0 1 1 (by unfold Machine; decide +kernel) (by unfold Machine; decide +kernel)
    (by unfold Machine; decide +kernel) (by unfold Machine; decide +kernel) (by unfold Machine; decide +kernel) le_rfl
    (by norm_num) le_rfl h1 h2
  norm_num at this

/-- C95: large objective values swallow penalties: without a target an individual that violates the constraints scores the
same as a feasible one. -/
theorem C95_float_penalty_swallowed_refuted : ∃ o pen s : ℚ, Machine fl o ∧ Machine fl pen ∧ 0 < pen ∧
    hyperbolaR fl none o 0 = .ok s ∧ hyperbolaR fl none o pen = .ok s := by
  refine ⟨2 ^ 60, 1, -2 ^ 60, ?_⟩
  unfold Machine
  decide +kernel

/-- The denominator of the score. -/
theorem denR_bounds {rnd : ℚ → ℚ} (R : Rounding rnd) {d pen : ℚ} (hd : 0 ≤ d) (hp : 0 ≤ pen) :
    1 ≤ rnd (rnd (1 + rnd d) + pen) ∧ (1 - 3 * ulp) * (1 + d + pen) ≤ rnd (rnd (1 + rnd d) + pen) ∧
      rnd (rnd (1 + rnd d) + pen) ≤ (1 + 4 * ulp) * (1 + d + pen) := by
  have hu := ulp_pos
  have hd0 := R.nonneg hd
  have h1 : 1 ≤ rnd (1 + rnd d) := by
    have := R.mono (show (1 : ℚ) ≤ 1 + rnd d by linarith)
    rwa [R.one] at this
  have h2 : 1 ≤ rnd (rnd (1 + rnd d) + pen) := by
    have := R.mono (show (1 : ℚ) ≤ rnd (1 + rnd d) + pen by linarith)
    rwa [R.one] at this
  have a1 := R.upper hd
  have a2 := R.lower hd
  have b1 := R.upper (q := 1 + rnd d) (by linarith)
  have b2 := R.lower (q := 1 + rnd d) (by linarith)
  have c1 := R.upper (q := rnd (1 + rnd d) + pen) (by linarith)
  have c2 := R.lower (q := rnd (1 + rnd d) + pen) (by linarith)
  have hs : 0 ≤ 1 + d + pen := by linarith
  refine ⟨h2, ?_, ?_⟩
  · have m1 : (1 - ulp) * (1 - ulp) * (1 + d) ≤ rnd (1 + rnd d) := by
      refine le_trans ?_ b2
      rw [mul_assoc]
      apply mul_le_mul_of_nonneg_left _ (by unfold ulp; norm_num)
      linarith
    have m2 : (1 - ulp) * (1 - ulp) * (1 + d + pen) ≤ rnd (1 + rnd d) + pen := by
      have h3 : (1 - ulp) * (1 - ulp) * pen ≤ 1 * pen :=
        mul_le_mul_of_nonneg_right (by unfold ulp; norm_num) hp
      linarith
    refine le_trans ?_ c2
    have m3 : (1 - ulp) * ((1 - ulp) * (1 - ulp) * (1 + d + pen)) ≤ (1 - ulp) * (rnd (1 + rnd d) + pen) :=
      mul_le_mul_of_nonneg_left m2 (by unfold ulp; norm_num)
    have m4 : (1 - 3 * ulp) * (1 + d + pen) ≤ (1 - ulp) * ((1 - ulp) * (1 - ulp)) * (1 + d + pen) :=
      mul_le_mul_of_nonneg_right (by unfold ulp; norm_num) hs
    linarith
  · have m1 : rnd (1 + rnd d) ≤ (1 + ulp) * (1 + ulp) * (1 + d) := by
      refine le_trans b1 ?_
      rw [mul_assoc]
      apply mul_le_mul_of_nonneg_left _ (by unfold ulp; norm_num)
      linarith
    have m2 : rnd (1 + rnd d) + pen ≤ (1 + ulp) * (1 + ulp) * (1 + d + pen) := by
      have h3 : 1 * pen ≤ (1 + ulp) * (1 + ulp) * pen :=
        mul_le_mul_of_nonneg_right (by unfold ulp; norm_num) hp
      linarith
    refine le_trans c1 ?_
    have m3 : (1 + ulp) * (rnd (1 + rnd d) + pen) ≤ (1 + ulp) * ((1 + ulp) * (1 + ulp) * (1 + d + pen)) :=
      mul_le_mul_of_nonneg_left m2 (by unfold ulp; norm_num)
    have m4 : (1 + ulp) * ((1 + ulp) * (1 + ulp)) * (1 + d + pen) ≤ (1 + 4 * ulp) * (1 + d + pen) :=
      mul_le_mul_of_nonneg_right (by unfold ulp; norm_num) hs
    linarith

theorem hyperbolaR_target {rnd : ℚ → ℚ} (R : Rounding rnd) {t o pen : ℚ} (hp : 0 ≤ pen) :
    hyperbolaR rnd (some t) o pen = .ok (rnd (1 / rnd (rnd (1 + rnd |t - o|) + pen))) := by
  have h1 := (denR_bounds R (abs_nonneg (t - o)) hp).1
  unfold hyperbolaR
  simp only [R.abs]
  rw [if_neg (by linarith)]

/-- C95 as far as it holds, for every rounding: with a target and penalties that are not negative the score exists, lies in
`(0, 1]`, is 1 on the target without penalty, never increases with distance and penalty, and strictly decreases when
`1 + distance + penalty` grows by a factor of `1 + 16 * 2^-53`.  Missing: smaller differences. -/
theorem C95_float_score_partial {rnd : ℚ → ℚ} (R : Rounding rnd) {t o o' pen pen' : ℚ} (hp : 0 ≤ pen) (hp' : 0 ≤ pen') :
    ∃ s s', hyperbolaR rnd (some t) o pen = .ok s ∧ hyperbolaR rnd (some t) o' pen' = .ok s' ∧ 0 < s ∧ s ≤ 1 ∧
      (o = t → pen = 0 → s = 1) ∧ (|t - o| ≤ |t - o'| → pen ≤ pen' → s' ≤ s) ∧
      ((1 + 16 * ulp) * (1 + |t - o| + pen) ≤ 1 + |t - o'| + pen' → s' < s) := by
  obtain ⟨d1, d2, d3⟩ := denR_bounds R (abs_nonneg (t - o)) hp
  obtain ⟨d1', d2', d3'⟩ := denR_bounds R (abs_nonneg (t - o')) hp'
  have hu := ulp_pos
  refine ⟨_, _, hyperbolaR_target R hp, hyperbolaR_target R hp', R.pos (by positivity), ?_, ?_, ?_, ?_⟩
  · have h : 1 / rnd (rnd (1 + rnd |t - o|) + pen) ≤ 1 := by rw [div_le_one (by linarith)]; exact d1
    have := R.mono h
    rwa [R.one] at this
  · intro h1 h2
    subst h1 h2
    simp [R.zero, R.one]
  · intro h1 h2
    apply R.mono
    apply one_div_le_one_div_of_le (by linarith)
    apply R.mono
    have := R.mono (show 1 + rnd |t - o| ≤ 1 + rnd |t - o'| by have := R.mono h1; linarith)
    linarith
  · intro h
    have hA : 0 < 1 + |t - o| + pen := by have := abs_nonneg (t - o); linarith
    generalize 1 + |t - o| + pen = A at *
    generalize 1 + |t - o'| + pen' = B at *
    generalize rnd (rnd (1 + rnd |t - o|) + pen) = D at *
    generalize rnd (rnd (1 + rnd |t - o'|) + pen') = D' at *
    have hD : 0 < D := by linarith
    have hD' : 0 < D' := by linarith
    have l := R.lower (q := 1 / D) (by positivity)
    have u := R.upper (q := 1 / D') (by positivity)
    refine lt_of_le_of_lt u (lt_of_lt_of_le ?_ l)
    rw [mul_one_div, mul_one_div, div_lt_div_iff₀ hD' hD]
    have s1 : (1 + ulp) * D ≤ (1 + ulp) * ((1 + 4 * ulp) * A) :=
      mul_le_mul_of_nonneg_left d3 (by linarith)
    have s2 : (1 - ulp) * ((1 - 3 * ulp) * ((1 + 16 * ulp) * A)) ≤ (1 - ulp) * D' := by
      apply mul_le_mul_of_nonneg_left _ (by unfold ulp; norm_num)
      refine le_trans ?_ d2'
      exact mul_le_mul_of_nonneg_left h (by unfold ulp; norm_num)
    have s3 : (1 + ulp) * (1 + 4 * ulp) * A < (1 - ulp) * ((1 - 3 * ulp) * (1 + 16 * ulp)) * A :=
      mul_lt_mul_of_pos_right (by unfold ulp; norm_num) hA
    linarith

/-- C95: without a target and without penalty the score is exactly the negated objective value: minimisation compares exactly,
whatever the rounding.  With a penalty the order is kept weakly. -/
theorem C95_float_minimise_exact {rnd : ℚ → ℚ} (R : Rounding rnd) :
    (∀ o, Machine rnd o → hyperbolaR rnd none o 0 = .ok (-o)) ∧
    ∀ o o' pen pen' : ℚ, o ≤ o' → pen ≤ pen' → ∃ s s', hyperbolaR rnd none o pen = .ok s ∧
      hyperbolaR rnd none o' pen' = .ok s' ∧ s' ≤ s := by
  constructor
  · intro o ho
    unfold hyperbolaR
    simp only [add_zero]
    rw [ho]
  · intro o o' pen pen' h1 h2
    refine ⟨_, _, rfl, rfl, ?_⟩
    have := R.mono (show o + pen ≤ o' + pen' by linarith)
    linarith

example : (1 + 16 * ulp) * (1 + |(0 : ℚ) - 1| + 0) ≤ 1 + |(0 : ℚ) - 2| + 0 := by unfold ulp; norm_num

/-! ## C96: number of parents -/

theorem share_one {ar : Arith} (R : Rounding ar.rnd) (pct : ℚ) (n : Nat) : ar.share pct n 1 = ⌊ar.rnd (pct * n)⌋.toNat := by
  unfold Arith.share
  rw [Nat.cast_one, div_one, R.idem]

/-- C96: for every rounding, a share `0 ≤ pct ≤ 1` of a population of at most `2^53` yields at most the population size, and the
count differs from the exact one by at most one. -/
theorem C96_float_count {σ : Type} {ga : GaData σ} (R : Rounding ga.attrs.arith.rnd) (h0 : 0 ≤ ga.childrenPercent)
    (h1 : ga.childrenPercent ≤ 1) (hn : ga.attrs.numIndivid ≤ 2 ^ 53) :
    numPairs ga 1 ≤ ga.attrs.numIndivid ∧ numPairs ga 1 ≤ ⌊ga.childrenPercent * ga.attrs.numIndivid⌋.toNat + 1 ∧
      ⌊ga.childrenPercent * ga.attrs.numIndivid⌋.toNat ≤ numPairs ga 1 := by
  rw [numPairs_share, share_one R]
  generalize ga.attrs.arith.rnd = rnd at R ⊢
  generalize ga.childrenPercent = pct at *
  generalize ga.attrs.numIndivid = n at *
  have hx : 0 ≤ pct * n := mul_nonneg h0 (by positivity)
  have hxn : pct * n ≤ n := by
    have := mul_le_mul_of_nonneg_right h1 (show (0 : ℚ) ≤ n by positivity)
    linarith
  have hr := R.nonneg hx
  have hint : ∀ m : Nat, m ≤ 2 ^ 53 → rnd (m : ℚ) = m := by
    intro m hm
    have := R.int (n := (m : Int)) (by rw [abs_of_nonneg (by positivity)]; exact_mod_cast hm)
    push_cast at this; exact this
  have hrn : rnd (pct * n) ≤ n := by
    have := R.mono hxn
    rwa [hint n hn] at this
  have hf0 : 0 ≤ ⌊pct * n⌋ := Int.floor_nonneg.mpr hx
  have hfl : ⌊pct * n⌋ ≤ n := by
    have : ⌊pct * n⌋ ≤ ⌊((n : Int) : ℚ)⌋ := Int.floor_le_floor (by push_cast; exact hxn)
    rwa [Int.floor_intCast] at this
  have hlow : ⌊pct * n⌋ ≤ ⌊rnd (pct * n)⌋ := by
    rw [Int.le_floor]
    have h3 : ((⌊pct * n⌋.toNat : Nat) : ℚ) = ⌊pct * n⌋ := by
      have : ((⌊pct * n⌋.toNat : Nat) : Int) = ⌊pct * n⌋ := Int.toNat_of_nonneg hf0
      exact_mod_cast this
    have := R.mono (show ((⌊pct * n⌋.toNat : Nat) : ℚ) ≤ pct * n by rw [h3]; exact Int.floor_le _)
    rw [hint _ (by omega), h3] at this
    exact this
  refine ⟨?_, ?_, ?_⟩
  · have : ⌊rnd (pct * n)⌋ ≤ ⌊((n : Int) : ℚ)⌋ := Int.floor_le_floor (by push_cast; exact hrn)
    rw [Int.floor_intCast] at this
    omega
  · by_cases hc : ⌊pct * n⌋ + 1 ≤ n
    · have h4 : ((⌊pct * n⌋.toNat + 1 : Nat) : ℚ) = ⌊pct * n⌋ + 1 := by
        have : ((⌊pct * n⌋.toNat : Nat) : Int) = ⌊pct * n⌋ := Int.toNat_of_nonneg hf0
        have h5 : ((⌊pct * n⌋.toNat : Nat) : ℚ) = ⌊pct * n⌋ := by exact_mod_cast this
        push_cast; rw [h5]
      have := R.mono (show pct * n ≤ ((⌊pct * n⌋.toNat + 1 : Nat) : ℚ) by
        rw [h4]; exact (Int.lt_floor_add_one _).le)
      rw [hint _ (by omega)] at this
      have h6 : ⌊rnd (pct * n)⌋ ≤ ⌊(((⌊pct * n⌋.toNat + 1 : Nat) : Int) : ℚ)⌋ := Int.floor_le_floor (by push_cast; exact_mod_cast this)
      rw [Int.floor_intCast] at h6
      omega
    · have : ⌊rnd (pct * n)⌋ ≤ ⌊((n : Int) : ℚ)⌋ := Int.floor_le_floor (by push_cast; exact hrn)
      rw [Int.floor_intCast] at this
      omega
  · omega

/-- C96: the count is monotone in the percentage: a larger `children_percent` never yields fewer pairs. -/
theorem C96_float_count_mono {σ : Type} {ga ga' : GaData σ} (R : Rounding ga.attrs.arith.rnd)
    (h : ga.childrenPercent ≤ ga'.childrenPercent) (ha : ga'.attrs = ga.attrs) : numPairs ga 1 ≤ numPairs ga' 1 := by
  rw [numPairs_share, numPairs_share, ha, share_one R, share_one R]
  generalize ga.attrs.arith.rnd = rnd at R ⊢
  generalize ga.childrenPercent = pct at *
  generalize ga'.childrenPercent = pct' at *
  generalize ga.attrs.numIndivid = n at *
  have hn : (0 : ℚ) ≤ n := by positivity
  have h2 := R.mono (mul_le_mul_of_nonneg_right h hn)
  have := Int.floor_le_floor h2
  omega

/-- Both cases occur: `0.7 * 10` is rounded up to 7 (the exact product is below 7), `0.29 * 100` stays at 28. -/
example : Arith.binary64.share (fl (7 / 10)) 10 1 = 7 ∧ ⌊fl (7 / 10) * 10⌋ = 6 ∧ Arith.binary64.share (fl (29 / 100)) 100 1 = 28 := by
  decide +kernel

end BaumEva
