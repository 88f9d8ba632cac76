import Verif.Props.Resume
import Verif.Props.NoCrash
/-!
# Components of a genetic algorithm which fit together
-/
namespace BaumEva
open Spec

/-- At least three bits in total: three genes, or a gene with at least five grid points. -/
def ThreeBits (gens : List BinGene) : Prop := 3 ≤ gens.length ∨ ∃ g ∈ gens, 4 * g.step ≤ |g.hi - g.lo|

/-- Crossover and mutation work on the kind of population, and the genotypes are long enough for them. -/
def Matching : SingleFacade → CrossOp → MutOp → Prop
  | .binary _ gens, op, mop => Positional op ∧ (mop = .binString ∨ Rearranging mop) ∧ (op = .twoPoint ∨ mop = .shift → ThreeBits gens)
  | .combinatory _ _ _, op, mop => op = .order ∧ Rearranging mop
  | .categorical gens, op, mop => Positional op ∧ mop = .categorical ∧ (op = .onePoint → 2 ≤ gens.length) ∧
      (op = .twoPoint → 3 ≤ gens.length)

/-- The mutation accepts the level. -/
def LevelFor (mop : MutOp) (lvl : MutLvl) : Prop :=
  (∃ q, lvl = .float q ∧ 0 ≤ q ∧ q ≤ 1) ∨ (mop ≠ .categorical ∧ (lvl = .str "weak" ∨ lvl = .str "normal" ∨ lvl = .str "strong"))

/-! ## genotypes -/

theorem totalBits_three {rnd : ℚ → ℚ} (R : Rounding rnd) {gens : List BinGene} {ps : List GeneParams}
    (h : List.Forall₂ (fun g p => geneParamsR rnd g = .ok p) gens ps) (hm : ∀ g ∈ gens, Machine rnd g.step)
    (hd : ∀ g ∈ gens, ¬ Degenerate g) (he : ThreeBits gens) : 3 ≤ totalBits ps := by
  have hone : ∀ {gens : List BinGene} {ps : List GeneParams}, List.Forall₂ (fun g p => geneParamsR rnd g = .ok p) gens ps →
      gens.length ≤ totalBits ps := by
    intro gens ps h
    induction h with
    | nil => simp
    | cons h1 _ ih =>
      have := (geneParamsR_ok h1).1
      simp only [totalBits, List.map_cons, List.sum_cons, List.length_cons] at ih ⊢
      omega
  rcases he with he | ⟨g, hg, hw⟩
  · exact he.trans (hone h)
  · obtain ⟨p, hp, hgp⟩ : ∃ p ∈ ps, geneParamsR rnd g = .ok p := by
      clear hd hm
      induction h with
      | nil => simp at hg
      | cons h1 _ ih =>
        rcases List.mem_cons.mp hg with rfl | hg
        · exact ⟨_, List.mem_cons_self, h1⟩
        · obtain ⟨p, hp, e⟩ := ih hg
          exact ⟨p, List.mem_cons_of_mem _ hp, e⟩
    have hst : 0 < g.step := by
      have := hd g hg
      unfold Degenerate at this
      push Not at this
      exact this.1
    have hb : 3 ≤ p.numBits := by
      obtain ⟨_, _, _, _, e, _⟩ := geneParamsR_ok hgp
      have h4 : (2 : ℚ) ^ 2 * g.step = 2 * (2 * g.step) := by ring
      have hk := pointsCount_ge R (g := g) (k := 2) hst (by unfold Machine; rw [h4, R.two, R.two, hm g hg]) (by rw [h4]; linarith)
        (by norm_num)
      rw [e]
      by_contra hc
      have h1 := (realNumberOfPoints_spec (pyInt (rnd (|rnd (g.hi - g.lo)| / g.step)))).1
      have : (2 : Int) ^ (realNumberOfPoints (pyInt (rnd (|rnd (g.hi - g.lo)| / g.step)))).1 ≤ 2 ^ 2 :=
        pow_le_pow_right₀ (by norm_num) (by omega)
      omega
    have hle : p.numBits ≤ totalBits ps := by
      unfold totalBits
      exact List.single_le_sum (fun _ _ => Nat.zero_le _) _ (List.mem_map_of_mem hp)
    omega

theorem geno_closed_all {f : SingleFacade} {op : CrossOp} {mop : MutOp} (h : Matching f op mop) (at_ : Attrs) :
    ClosedGeno op mop f.spec (f.Geno at_) := by
  cases f with
  | binary gray gens => exact bits_closed_all h.1 mop gray gens _
  | combinatory a b k =>
    obtain ⟨rfl, h2⟩ := h
    exact track_closed_all h2 _ a b k
  | categorical gens =>
    obtain ⟨h1, rfl, _⟩ := h
    exact tuple_closed_all h1 gens

theorem level_check_all {mop : MutOp} {lvl : MutLvl} (h : LevelFor mop lvl) : ∃ l, checkMutation mop lvl = .ok l := by
  rcases h with ⟨q, rfl, h0, h1⟩ | ⟨hn, h⟩
  · unfold checkMutation
    simp only
    rw [if_neg (by push Not; exact ⟨h0, h1⟩)]
    exact ⟨_, rfl⟩
  · cases mop with
    | categorical => exact absurd rfl hn
    | _ => rcases h with rfl | rfl | rfl <;> exact ⟨_, rfl⟩

theorem level_shape {mop : MutOp} {lvl l : MutLvl} (hl : checkMutation mop lvl = .ok l) :
    (∃ q, l = .float q) ∨ (mop = .binString ∧ ∃ x, l = .str x) := by
  unfold checkMutation at hl
  cases lvl with
  | float q =>
    simp only at hl
    split at hl
    · cases hl
    · injection hl with hl; exact .inl ⟨q, hl.symm⟩
  | other => cases hl
  | str x =>
    cases mop with
    | binString =>
      simp only at hl
      split at hl
      · injection hl with hl; exact .inr ⟨rfl, x, hl.symm⟩
      · cases hl
    | categorical => cases hl
    | _ =>
      simp only at hl
      left
      split at hl
      · injection hl with hl; exact ⟨_, hl.symm⟩
      · split at hl
        · injection hl with hl; exact ⟨_, hl.symm⟩
        · split at hl
          · injection hl with hl; exact ⟨_, hl.symm⟩
          · cases hl

section
variable {f : SingleFacade} {op : CrossOp} {mop : MutOp} {at_ : Attrs}

theorem Matching.two_bits (hu : f.Usable) (hex : f.Computes at_.arith) (hsp : at_.spec = f.spec)
    (hprep : ∀ gray gens, at_.spec = .binary gray gens → Prepared at_ gray gens) :
    ∀ gray gens, f = .binary gray gens → 2 ≤ at_.idxBits.getLastD 0 := by
  rintro gray gens rfl
  have hP := hprep gray gens hsp
  rw [hP.total]
  exact totalBits_two hex.rounding hP.forallR hex.step hu.2.1 hu.2.2

theorem Matching.three_bits (hu : f.Usable) (hex : f.Computes at_.arith) (hsp : at_.spec = f.spec)
    (hprep : ∀ gray gens, at_.spec = .binary gray gens → Prepared at_ gray gens) :
    ∀ gray gens, f = .binary gray gens → ThreeBits gens → 3 ≤ at_.idxBits.getLastD 0 := by
  rintro gray gens rfl h3
  have hP := hprep gray gens hsp
  rw [hP.total]
  exact totalBits_three hex.rounding hP.forallR hex.step hu.2.1 h3

/-- The crossover can be applied to genotypes of the population. -/
theorem Matching.cross (hM : Matching f op mop) (hu : f.Usable) (hex : f.Computes at_.arith) (hsp : at_.spec = f.spec)
    (hprep : ∀ gray gens, at_.spec = .binary gray gens → Prepared at_ gray gens) {g0 p1 p2 : List Val}
    (k0 : f.Geno at_ g0) (k1 : f.Geno at_ p1) (k2 : f.Geno at_ p2) : CrossFits op g0.length p1 p2 := by
  cases f with
  | binary gray gens =>
    have e0 := k0.2
    have e1 := k1.2
    have e2 := k2.2
    rcases hM.1 with rfl | rfl | rfl
    · have := Matching.two_bits hu hex hsp hprep gray gens rfl
      show 2 ≤ g0.length
      omega
    · have := Matching.three_bits hu hex hsp hprep gray gens rfl (hM.2.2 (.inl rfl))
      show 3 ≤ g0.length
      omega
    · exact ⟨by omega, by omega⟩
  | combinatory a b k =>
    obtain ⟨rfl, _⟩ := hM
    show 3 ≤ g0.length
    have := k0.1
    have := hu.1
    omega
  | categorical gens =>
    have e0 := k0.length_eq
    have e1 := k1.length_eq
    have e2 := k2.length_eq
    rcases hM.1 with rfl | rfl | rfl
    · show 2 ≤ g0.length
      have := hM.2.2.1 rfl
      omega
    · show 3 ≤ g0.length
      have := hM.2.2.2 rfl
      omega
    · exact ⟨by omega, by omega⟩

/-- The mutation can be applied to genotypes of the population. -/
theorem Matching.mutable (hM : Matching f op mop) (hu : f.Usable) (hex : f.Computes at_.arith) (hsp : at_.spec = f.spec)
    (hprep : ∀ gray gens, at_.spec = .binary gray gens → Prepared at_ gray gens) {g1 : List Val}
    (hg1 : f.Geno at_ g1) : MutFits mop at_.spec g1 := by
  cases f with
  | binary gray gens =>
    have e1 := hg1.2
    have b2 := Matching.two_bits hu hex hsp hprep gray gens rfl
    have b3 := Matching.three_bits hu hex hsp hprep gray gens rfl
    rcases hM.2.1 with rfl | rfl | rfl | rfl | rfl
    · trivial
    · show 2 ≤ g1.length
      omega
    · show 2 ≤ g1.length
      omega
    · show 3 ≤ g1.length
      have := b3 (hM.2.2 (.inr rfl))
      omega
    · show 2 ≤ g1.length
      omega
  | combinatory a b k =>
    have e1 := hg1.1
    have e2 := hu.1
    rcases hM.2 with rfl | rfl | rfl | rfl
    · show 2 ≤ g1.length
      omega
    · show 2 ≤ g1.length
      omega
    · show 3 ≤ g1.length
      omega
    · show 2 ≤ g1.length
      omega
  | categorical gens =>
    obtain ⟨_, rfl, _⟩ := hM
    refine ⟨gens, hsp, hg1.length_eq.ge, ?_⟩
    intro p hp
    exact mutablePool (hu p hp)

/-- The mutation object is ready for the population. -/
theorem Matching.ready (hM : Matching f op mop) (hu : f.Usable) (hex : f.Computes at_.arith) (hsp : at_.spec = f.spec)
    (hprep : ∀ gray gens, at_.spec = .binary gray gens → Prepared at_ gray gens) {lvl l : MutLvl}
    (hl : checkMutation mop lvl = .ok l) : MutReady mop at_ l := by
  refine ⟨level_shape hl, ?_⟩
  rintro rfl
  cases f with
  | binary gray gens =>
    have := Matching.two_bits hu hex hsp hprep gray gens rfl
    exact ⟨⟨gray, gens, hsp⟩, by omega⟩
  | combinatory a b k => rcases hM.2 with h | h | h | h <;> cases h
  | categorical gens => cases hM.2.1

end
end BaumEva
