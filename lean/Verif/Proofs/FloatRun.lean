import Verif.Props.Float
import Verif.Proofs.Fill
/-!
# What a run needs of the numeric kernels, for every rounding
-/
namespace BaumEva
open Spec

/-- The gene can be handled by the arithmetic: lower end and step are machine numbers, and the grid has at most `2^49` steps. -/
structure MachineGene (rnd : ℚ → ℚ) (g : BinGene) : Prop where
  lo : Machine rnd g.lo
  step : Machine rnd g.step
  grid : |g.hi - g.lo| ≤ 2 ^ 49 * g.step

section
variable {rnd : ℚ → ℚ} (R : Rounding rnd) {g : BinGene} {p : GeneParams}
include R

theorem pointsCount_ge {k : Nat} (hst : 0 < g.step) (hm : Machine rnd (2 ^ k * g.step)) (h : 2 ^ k * g.step ≤ |g.hi - g.lo|) (hk : k ≤ 53) :
    (2 : Int) ^ k ≤ pyInt (rnd (|rnd (g.hi - g.lo)| / g.step)) := by
  have h1 := R.mono h
  rw [hm, ← R.abs] at h1
  have h2 : ((2 : ℚ)) ^ k ≤ |rnd (g.hi - g.lo)| / g.step := by rw [le_div_iff₀ hst]; exact h1
  have h3 := R.mono h2
  have h4 : rnd ((2 : ℚ) ^ k) = 2 ^ k := by
    have := R.int (n := (2 : Int) ^ k) (by rw [abs_of_pos (by positivity)]; exact pow_le_pow_right₀ (by norm_num) hk)
    push_cast at this
    exact this
  rw [h4] at h3
  unfold pyInt
  have : (0 : ℚ) < 2 ^ k := by positivity
  rw [if_pos (by linarith)]
  exact Int.le_floor.mpr (by exact_mod_cast h3)

theorem geneParamsR_accepts (hd : ¬ Degenerate g) (hm : Machine rnd g.step) : ∃ p, geneParamsR rnd g = .ok p := by
  unfold Degenerate at hd
  push Not at hd
  have h1 := pointsCount_ge R (k := 0) hd.1 (by simpa using hm) (by simpa using hd.2) (by norm_num)
  unfold geneParamsR
  simp only
  rw [if_neg hd.1.ne', if_neg]
  · exact ⟨_, rfl⟩
  · intro h0
    have h2 := (realNumberOfPoints_spec (pyInt (rnd (|rnd (g.hi - g.lo)| / g.step)))).1
    have h3 : ((2 : Int) ^ (realNumberOfPoints (pyInt (rnd (|rnd (g.hi - g.lo)| / g.step)))).1 - 1 : Int) = 0 := by
      exact_mod_cast h0
    rw [h3] at h2
    norm_num at h1
    omega

theorem gensParamsR_accepts : ∀ {gens : List BinGene} {off : Nat}, (∀ g ∈ gens, ¬ Degenerate g) → (∀ g ∈ gens, Machine rnd g.step) →
    ∃ r, gensParamsR rnd gens off = .ok r := by
  intro gens
  induction gens with
  | nil => intro off _ _; exact ⟨_, rfl⟩
  | cons g gs ih =>
    intro off h hm
    obtain ⟨p, hp⟩ := geneParamsR_accepts R (h g List.mem_cons_self) (hm g List.mem_cons_self)
    obtain ⟨r, hr⟩ := ih (off := off + p.numBits) (fun x hx => h x (List.mem_cons_of_mem _ hx)) (fun x hx => hm x (List.mem_cons_of_mem _ hx))
    refine ⟨(p :: r.1, (off + p.numBits) :: r.2), ?_⟩
    simp only [gensParamsR, hp, hr, bind, Except.bind, pure, Except.pure]

/-- A gene with at least three grid points has at least two bits. -/
theorem numBits_two (h : geneParamsR rnd g = .ok p) (hst : 0 < g.step) (hm : Machine rnd g.step) (hw : 2 * g.step ≤ |g.hi - g.lo|) :
    2 ≤ p.numBits := by
  obtain ⟨_, _, _, _, e, _⟩ := geneParamsR_ok h
  have hk := pointsCount_ge R (k := 1) hst (by unfold Machine; rw [pow_one, R.two, hm]) (by rwa [pow_one]) (by norm_num)
  rw [e]
  by_contra hc
  have h1 := (realNumberOfPoints_spec (pyInt (rnd (|rnd (g.hi - g.lo)| / g.step)))).1
  have : (2 : Int) ^ (realNumberOfPoints (pyInt (rnd (|rnd (g.hi - g.lo)| / g.step)))).1 ≤ 2 ^ 1 :=
    pow_le_pow_right₀ (by norm_num) (by omega)
  omega

theorem numBits_le (h : geneParamsR rnd g = .ok p) (hst : 0 < g.step) (hm : Machine rnd g.step) (hw : |g.hi - g.lo| ≤ 2 ^ 49 * g.step) :
    p.numBits ≤ 50 := by
  obtain ⟨_, _, _, _, e, _⟩ := geneParamsR_ok h
  have h1 := R.mono hw
  have h2 : rnd (2 ^ 49 * g.step) = 2 ^ 49 * g.step := by
    have := R.scale 49 g.step
    rw [hm] at this
    exact_mod_cast this
  rw [h2, ← R.abs] at h1
  have h3 : |rnd (g.hi - g.lo)| / g.step ≤ 2 ^ 49 := by rw [div_le_iff₀ hst]; exact h1
  have h4 := R.mono h3
  have h5 : rnd ((2 : ℚ) ^ 49) = 2 ^ 49 := by
    have := R.int (n := (2 : Int) ^ 49) (by norm_num)
    push_cast at this
    exact this
  rw [h5] at h4
  have h6 : pyInt (rnd (|rnd (g.hi - g.lo)| / g.step)) ≤ 2 ^ 49 := by
    unfold pyInt
    rw [if_pos (R.nonneg (div_nonneg (abs_nonneg _) hst.le))]
    have : ((⌊rnd (|rnd (g.hi - g.lo)| / g.step)⌋ : Int) : ℚ) ≤ ((2 ^ 49 : Int) : ℚ) :=
      (Int.floor_le _).trans (by exact_mod_cast h4)
    exact_mod_cast this
  rw [e]
  by_contra hc
  have := (realNumberOfPoints_spec (pyInt (rnd (|rnd (g.hi - g.lo)| / g.step)))).2 50 (by omega)
  have h7 : (2 : Int) ^ 50 - 1 < 2 ^ 49 := lt_of_lt_of_le this h6
  norm_num at h7

/-- The index of a value in range is an index of the grid. -/
theorem stepIdxR_range (h : geneParamsR rnd g = .ok p) (hg : g.lo < g.hi) (hb : p.numBits ≤ 50) {q : ℚ} (h0 : g.lo ≤ q) (h1 : q ≤ g.hi) :
    0 ≤ stepIdxR rnd g p q ∧ (stepIdxR rnd g p q).toNat < 2 ^ p.numBits := by
  obtain ⟨_, _, h3, h4, _, _⟩ := geneParamsR_ok h
  have hu : ulp = 1 / 2 ^ 53 := rfl
  have hW : 0 < rnd (g.hi - g.lo) := R.pos (by linarith)
  have ha0 := R.nonneg (show 0 ≤ q - g.lo by linarith)
  have ha1 := R.mono (show q - g.lo ≤ g.hi - g.lo by linarith)
  have hNr : rnd ((2 : ℚ) ^ p.numBits - 1) = 2 ^ p.numBits - 1 := by
    have hb2 : (2 : Int) ^ p.numBits ≤ 2 ^ 50 := pow_le_pow_right₀ (by norm_num) hb
    have hb3 : (1 : Int) ≤ 2 ^ p.numBits := one_le_pow₀ (by norm_num)
    have := R.int (n := (2 : Int) ^ p.numBits - 1) (by rw [abs_le]; constructor <;> omega)
    push_cast at this
    exact this
  rw [hNr, abs_of_pos hW] at h3
  have hN50 : (2 : ℚ) ^ p.numBits ≤ 2 ^ 50 := pow_le_pow_right₀ (by norm_num) hb
  set N : ℚ := 2 ^ p.numBits - 1 with hN
  set W := rnd (g.hi - g.lo)
  have hlow := R.lower (q := W / N) (by positivity)
  rw [← h3] at hlow
  have hrs : 0 < p.realStep := by
    have : 0 < (1 - ulp) * (W / N) := mul_pos (by rw [hu]; norm_num) (by positivity)
    linarith
  have hx0 : 0 ≤ rnd (q - g.lo) / p.realStep := div_nonneg ha0 hrs.le
  have hx1 : (1 - ulp) * (rnd (q - g.lo) / p.realStep) ≤ N := by
    have e : W = (W / N) * N := by field_simp
    have : (1 - ulp) * (rnd (q - g.lo)) ≤ N * p.realStep := by
      calc (1 - ulp) * rnd (q - g.lo) ≤ (1 - ulp) * W := mul_le_mul_of_nonneg_left ha1 (by rw [hu]; norm_num)
        _ = N * ((1 - ulp) * (W / N)) := by rw [e]; field_simp
        _ ≤ N * p.realStep := mul_le_mul_of_nonneg_left hlow h4.le
    rw [← mul_div_assoc, div_le_iff₀ hrs]
    exact this
  have hup := R.upper hx0
  have hnn := R.nonneg hx0
  unfold stepIdxR
  generalize rnd (q - g.lo) / p.realStep = x at *
  have hlt : rnd x < N + 1 / 2 := by
    have hx2 : x ≤ (1 + 2 * ulp) * N := by
      rw [hu] at hx1 ⊢
      norm_num at hx1 ⊢
      linarith
    rw [hu] at hup hx2
    norm_num at hup hx2 hN50
    linarith
  generalize rnd x = y at *
  have hNi : N = ((2 ^ p.numBits - 1 : Int) : ℚ) := by rw [hN]; push_cast; ring
  have hfl : (⌊y⌋ : ℚ) ≤ y := Int.floor_le y
  have hge : 0 ≤ ⌊y⌋ := Int.floor_nonneg.mpr hnn
  have hle : pyRound y ≤ 2 ^ p.numBits - 1 := by
    have h5 : ⌊y⌋ ≤ 2 ^ p.numBits - 1 := by
      have : ((⌊y⌋ : Int) : ℚ) < ((2 ^ p.numBits - 1 : Int) : ℚ) + 1 := by rw [← hNi]; linarith
      have : ⌊y⌋ < (2 ^ p.numBits - 1) + 1 := by exact_mod_cast this
      omega
    rcases lt_or_eq_of_le h5 with h6 | h6
    · unfold pyRound
      split
      · omega
      · split
        · omega
        · split <;> omega
    · have h7 : y - ⌊y⌋ < 1 / 2 := by rw [h6, ← hNi]; linarith
      unfold pyRound
      rw [if_pos h7]
      omega
  have hge2 : 0 ≤ pyRound y := by
    unfold pyRound
    split
    · omega
    · split
      · omega
      · split <;> omega
  refine ⟨hge2, ?_⟩
  have hpow : ((2 ^ p.numBits : Nat) : Int) = 2 ^ p.numBits := by push_cast; rfl
  omega

theorem encodeGenesR_accepts {gray : Bool} : ∀ {gens : List BinGene} {ps : List GeneParams},
    List.Forall₂ (fun g p => geneParamsR rnd g = .ok p) gens ps → Proper gens → (∀ p ∈ ps, p.numBits ≤ 50) → ∀ {xs : List Val},
    List.Forall₂ InGene gens xs → ∃ geno, encodeGenesR rnd gray gens ps xs = .ok geno := by
  intro gens ps h
  induction h with
  | nil => intro _ _ xs hx; cases hx; exact ⟨_, rfl⟩
  | @cons g p gs ps h1 _ ih =>
    intro hg hb xs hx
    cases hx with
    | @cons _ x _ xs hx hxs =>
      obtain ⟨q, rfl, a, b⟩ := hx
      obtain ⟨rest, hr⟩ := ih (fun x hx => hg x (List.mem_cons_of_mem _ hx)) (fun x hx => hb x (List.mem_cons_of_mem _ hx)) hxs
      obtain ⟨_, hi⟩ := stepIdxR_range R h1 (hg g List.mem_cons_self) (hb p List.mem_cons_self) a b
      obtain ⟨l, hl, _⟩ := encodeIndex_eq (gray := gray) (geneParamsR_ok h1).1 hi
      refine ⟨l ++ rest, ?_⟩
      simp only [encodeGenesR]
      rw [if_neg (by push Not; exact ⟨a, b⟩), hl, hr]
      rfl

end

/-- Points near the range of a gene: above the upper end by at most 16 unit roundoffs of the larger end, and not at all if the
arithmetic is exact. -/
def NearGene (ar : Arith) (g : BinGene) (v : Val) : Prop :=
  ∃ q, v = .num q ∧ g.lo ≤ q ∧ q ≤ g.hi + 16 * ulp * max |g.lo| |g.hi| ∧ (ar = .exact → q ≤ g.hi)

theorem nearGene_exact {g : BinGene} {v : Val} : NearGene .exact g v ↔ InGene g v := by
  constructor
  · rintro ⟨q, rfl, h1, _, h3⟩
    exact ⟨q, rfl, h1, h3 rfl⟩
  · rintro ⟨q, rfl, h1, h2⟩
    refine ⟨q, rfl, h1, ?_, fun _ => h2⟩
    have : 0 ≤ 16 * ulp * max |g.lo| |g.hi| := by
      have := ulp_pos
      have := abs_nonneg g.lo
      have := le_max_left |g.lo| |g.hi|
      exact mul_nonneg (by linarith) (by linarith)
    linarith

theorem pointsR_nearGene {ar : Arith} (R : Rounding ar.rnd) {gray : Bool} : ∀ {gens : List BinGene} {ps : List GeneParams},
    List.Forall₂ (fun g p => geneParamsR ar.rnd g = .ok p) gens ps → Proper gens → (∀ g ∈ gens, Machine ar.rnd g.lo) →
    ∀ rest : List Val, (ar = .exact → List.Forall₂ InGene gens (pointsR ar.rnd gray rest gens ps)) →
      List.Forall₂ (NearGene ar) gens (pointsR ar.rnd gray rest gens ps) := by
  intro gens ps hf hg hm rest hex
  rw [List.forall₂_iff_get]
  have hl := pointsR_length (rnd := ar.rnd) (gray := gray) (rest := rest) hf.length_eq
  refine ⟨hl.symm, ?_⟩
  intro i h1 h2
  have hp : i < ps.length := by rw [← hf.length_eq]; exact h1
  obtain ⟨q, k, hx, hk, hq, hlo, _⟩ := pointsR_near R hf hg hm rest i gens[i] ps[i] _ (List.getElem?_eq_getElem h1)
    (List.getElem?_eq_getElem hp) (List.getElem?_eq_getElem h2)
  have hgp : geneParamsR ar.rnd gens[i] = .ok ps[i] := (List.forall₂_iff_get.mp hf).2 i h1 hp
  have hgr := grid_le hgp (hg _ (List.getElem_mem h1)) hk
  refine ⟨q, by simpa using hx, by simpa using hlo, ?_, ?_⟩
  · rw [abs_le] at hq
    simp only [List.get_eq_getElem]
    linarith [hq.2]
  · intro he
    obtain ⟨q', e1, _, e3⟩ := (List.forall₂_iff_get.mp (hex he)).2 i h1 h2
    simp only [List.get_eq_getElem] at e1 e3 ⊢
    rw [hx] at e1
    injection e1 with e1
    rw [e1]; exact e3

end BaumEva
