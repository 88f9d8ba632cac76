import Verif.Proofs.Individ
import Verif.Proofs.Monad
import Verif.Spec.Population
import Mathlib.Tactic.NormNum
/-!
# Lemmas about `fill` and the generators
-/
namespace BaumEva
open Spec
variable {σ α β : Type}

/-! ## Encoded individuals are bit strings (without any assumption on the genes) -/

theorem indexToBinary_shape {v n : Nat} {l : List Val} (h : indexToBinary v n = .ok l) :
    l.length = n ∧ IsBits l := by
  unfold indexToBinary at h
  split at h
  · cases h
  · split at h
    · injection h with h
      subst h
      exact ⟨by simp; omega, isBits_append.mpr ⟨isBits_replicate _, isBits_binStr _⟩⟩
    · injection h with h
      subst h
      exact ⟨by omega, isBits_binStr _⟩

theorem encodeIndex_shape {gray : Bool} {v n : Nat} {l : List Val} (h : encodeIndex gray v n = .ok l) :
    l.length = n ∧ IsBits l := indexToBinary_shape h

theorem encodeGenesR_shape {rnd : ℚ → ℚ} {gray : Bool} : ∀ {gens : List BinGene} {ps : List GeneParams} {xs l : List Val},
    gens.length = ps.length → xs.length = gens.length → encodeGenesR rnd gray gens ps xs = .ok l →
    l.length = totalBits ps ∧ IsBits l := by
  intro gens
  induction gens with
  | nil =>
    intro ps xs l h1 h2 h
    have : ps = [] := List.length_eq_zero_iff.mp (by simpa using h1.symm)
    subst this
    rw [encodeGenesR] at h
    · injection h with h; subst h; exact ⟨rfl, fun x hx => by simp at hx⟩
    · intros; simp_all
  | cons g gs ih =>
    intro ps xs l h1 h2 h
    cases ps with
    | nil => simp at h1
    | cons p ps =>
      cases xs with
      | nil => simp at h2
      | cons x xs =>
        cases x with
        | str _ => simp [encodeGenesR] at h
        | num q =>
          rw [encodeGenesR] at h
          split at h
          · cases h
          · cases he : encodeIndex gray (stepIdxR rnd g p q).toNat p.numBits with
            | error e => rw [he] at h; simp [bind, Except.bind] at h
            | ok b =>
              rw [he] at h
              cases hr : encodeGenesR rnd gray gs ps xs with
              | error e => rw [hr] at h; simp [bind, Except.bind] at h
              | ok r =>
                rw [hr] at h
                simp only [bind, Except.bind, pure, Except.pure, Except.ok.injEq] at h
                subst h
                obtain ⟨i1, i2⟩ := ih (by simpa using h1) (by simpa using h2) hr
                obtain ⟨e1, e2⟩ := encodeIndex_shape he
                exact ⟨by simp [totalBits, e1, i1], isBits_append.mpr ⟨e2, i2⟩⟩

/-! ## mapEach -/

/-- Results of a `map` whose steps only draw. -/
theorem mapEach_drew {f : α → M σ β} {P : α → β → Prop}
    (hf : ∀ x s s' y, f x s = (.ok y, s') → Drew s s' ∧ P x y) :
    ∀ {l : List α} {s s' : St σ} {ys : List β}, mapEach l f s = (.ok ys, s') →
      Drew s s' ∧ List.Forall₂ P l ys := by
  intro l
  induction l with
  | nil => intro s s' ys h; obtain ⟨rfl, rfl⟩ := mapEach_nil_ok.mp h; exact ⟨Drew.refl _, .nil⟩
  | cons x xs ih =>
    intro s s' ys h
    obtain ⟨y, ys', s1, h1, h2, rfl⟩ := mapEach_cons_ok.mp h
    obtain ⟨d1, p1⟩ := hf _ _ _ _ h1
    obtain ⟨d2, p2⟩ := ih h2
    exact ⟨d1.trans d2, .cons p1 p2⟩

/-! ## Generators -/

theorem rangeLen_pos_spec {a b st i : Int} (hst : st ≠ 0) :
    i < rangeLen a b st ↔ (0 < st ∧ a + st * i < b) ∨ (st < 0 ∧ b < a + st * i) := by
  unfold rangeLen
  rcases lt_or_gt_of_ne hst with hneg | hpos
  · rw [if_neg (by omega), ← Int.neg_fdiv_neg, Int.fdiv_eq_ediv_of_nonneg _ (by omega)]
    rw [← Int.add_one_le_iff, Int.le_ediv_iff_mul_le (by omega)]
    constructor
    · intro h; right; exact ⟨hneg, by nlinarith⟩
    · rintro (⟨h1, _⟩ | ⟨_, h2⟩)
      · omega
      · nlinarith
  · rw [if_pos hpos, Int.fdiv_eq_ediv_of_nonneg _ (by omega)]
    rw [← Int.add_one_le_iff, Int.le_ediv_iff_mul_le hpos]
    constructor
    · intro h; left; exact ⟨hpos, by nlinarith⟩
    · rintro (⟨_, h2⟩ | ⟨h1, _⟩)
      · nlinarith
      · omega

theorem genCatGene_ok {g : CatGene} {s s' : St σ} {v : Val} (h : genCatGene g s = (.ok v, s')) :
    Drew s s' ∧ InPool g v := by
  cases g with
  | range lo hi step =>
    rw [genCatGene] at h
    obtain ⟨w, s1, h1, h2⟩ := bind_ok.mp h
    obtain ⟨rfl, rfl⟩ := pure_ok.mp h2
    obtain ⟨h0, ⟨i, i0, i1, rfl⟩, hd⟩ := randrange_ok h1
    refine ⟨hd, i.toNat, ?_, ?_⟩
    · rw [Int.toNat_of_nonneg i0]
    · rw [Int.toNat_of_nonneg i0]
      rcases (rangeLen_pos_spec h0).mp i1 with ⟨a, b⟩ | ⟨a, b⟩
      · left; exact ⟨a, by omega⟩
      · right; exact ⟨a, by omega⟩
  | values l =>
    rw [genCatGene] at h
    obtain ⟨h1, h2⟩ := choice_ok h
    exact ⟨h2, h1⟩
  | other => rw [genCatGene, throwE_ok] at h; exact h.elim

theorem mem_pyRange_one {a b x : Int} : x ∈ pyRange a (b + 1) 1 ↔ a ≤ x ∧ x ≤ b := by
  unfold pyRange
  rw [List.mem_map]
  have hl : rangeLen a (b + 1) 1 = b + 1 - a := by
    unfold rangeLen; rw [if_pos (by norm_num)]; simp
  rw [hl]
  constructor
  · rintro ⟨i, hi, rfl⟩
    have := List.mem_range.mp hi
    omega
  · rintro ⟨h1, h2⟩
    exact ⟨(x - a).toNat, List.mem_range.mpr (by omega), by omega⟩

theorem nodup_pyRange_one {a b : Int} : (pyRange a (b + 1) 1).Nodup := by
  unfold pyRange
  refine List.Nodup.map ?_ List.nodup_range
  intro i j h
  simp only at h
  omega

theorem length_pyRange_one {a b : Int} : (pyRange a (b + 1) 1).length = (b + 1 - a).toNat := by
  unfold pyRange rangeLen
  rw [if_pos (by norm_num)]
  simp

theorem num_inj : Function.Injective (fun i : Int => Val.num (i : ℚ)) := by
  intro i j h
  simp only at h
  injection h with h
  exact_mod_cast h

theorem genBinGene_ok {gray : Bool} {p : GeneParams} {s s' : St σ} {l : List Val}
    (h : genBinGene gray p s = (.ok l, s')) : Drew s s' ∧ (l.length = p.numBits ∧ IsBits l) := by
  unfold genBinGene at h
  obtain ⟨v, s1, h1, h2⟩ := bind_ok.mp h
  obtain ⟨h3, rfl⟩ := liftE_ok.mp h2
  exact ⟨(randint_ok h1).2.2, encodeIndex_shape h3⟩

theorem flatten_bits : ∀ {ps : List GeneParams} {parts : List (List Val)},
    List.Forall₂ (fun p l => l.length = p.numBits ∧ IsBits l) ps parts →
    parts.flatten.length = totalBits ps ∧ IsBits parts.flatten := by
  intro ps parts h
  induction h with
  | nil => exact ⟨rfl, fun x hx => by simp at hx⟩
  | cons h _ ih =>
    rw [List.flatten_cons]
    exact ⟨by simp [totalBits, h.1, ih.1], isBits_append.mpr ⟨h.2, ih.2⟩⟩

/-- What a generated genotype looks like. -/
def GenShape (at_ : Attrs) (g : List Val) : Prop :=
  match at_.spec with
  | .cat gens => IsTuple gens g
  | .orderCat a b k => IsTrack a b k g
  | .binary _ _ => IsBits g ∧ g.length = totalBits at_.params

theorem generate_ok {at_ : Attrs} {s s' : St σ} {g : List Val} (h : generate at_ s = (.ok g, s')) :
    Drew s s' ∧ GenShape at_ g := by
  unfold generate at h
  unfold GenShape
  cases hs : at_.spec with
  | cat gens =>
    rw [hs] at h
    simp only at h
    exact mapEach_drew (f := genCatGene) (P := InPool) (fun x s s' y h => genCatGene_ok h) h
  | orderCat a b k =>
    rw [hs] at h
    simp only at h
    obtain ⟨l, s1, h1, h2⟩ := bind_ok.mp h
    obtain ⟨rfl, rfl⟩ := pure_ok.mp h2
    have hm := sample_mem h1
    have hn := sample_nodup h1 nodup_pyRange_one
    obtain ⟨_, _, _, hl, hd⟩ := sample_ok h1
    refine ⟨hd, by simpa using hl, List.Nodup.map num_inj hn, ?_⟩
    intro x hx
    obtain ⟨i, hi, rfl⟩ := List.mem_map.mp hx
    exact ⟨i, rfl, mem_pyRange_one.mp (hm i hi)⟩
  | binary gray gens =>
    rw [hs] at h
    simp only at h
    obtain ⟨parts, s1, h1, h2⟩ := bind_ok.mp h
    obtain ⟨rfl, rfl⟩ := pure_ok.mp h2
    obtain ⟨hd, hf⟩ := mapEach_drew (f := genBinGene gray)
      (P := fun p l => l.length = p.numBits ∧ IsBits l) (fun x s s' y h => genBinGene_ok h) h1
    obtain ⟨a, b⟩ := flatten_bits hf
    exact ⟨hd, b, a⟩

theorem adopt_shape {at_ : Attrs} {gray : Bool} {gens : List BinGene} (hp : Prepared at_ gray gens)
    {x g : List Val} (h : adopt at_ x = .ok g) : IsBits g ∧ g.length = totalBits at_.params := by
  unfold adopt at h
  rw [hp.spec] at h
  simp only at h
  unfold encodeIndividR at h
  split at h
  · cases h
  · rename_i hl
    push Not at hl
    obtain ⟨a, b⟩ := encodeGenesR_shape hp.forallR.length_eq hl h
    exact ⟨b, a⟩

/-! ## Appending fresh individuals -/

/-- `s'` is `s` after appending fresh individuals with the genotypes `gs` to the population
(and drawing random numbers). -/
structure Appended (s s' : St σ) (gs : List (List Val)) : Prop where
  pop : s'.ga = { s.ga with population := s.ga.population ++ List.range' s.next gs.length }
  next : s'.next = s.next + gs.length
  new : ∀ i g, gs[i]? = some g → s'.heap (s.next + i) = { genotype := some g }
  old : ∀ r, r < s.next → s'.heap r = s.heap r
  seed : s'.seed = s.seed
  mutLvl : s'.mutLvl = s.mutLvl
  conds : s'.conds = s.conds
  calls : s'.calls = s.calls
  snaps : s'.snaps = s.snaps

theorem Appended.nil_of_drew {s s' : St σ} (h : Drew s s') : Appended s s' [] := by
  obtain ⟨t, rfl⟩ := h
  exact ⟨by simp, by simp, by intro i g h; simp at h, fun _ _ => rfl, rfl, rfl, rfl, rfl, rfl⟩

theorem addDict_appended {s s' : St σ} {g : List Val} {u : Unit} (h : addDict g s = (.ok u, s')) :
    Appended s s' [g] := by
  unfold addDict at h
  obtain ⟨r, s1, h1, h2⟩ := bind_ok.mp h
  obtain ⟨rfl, rfl⟩ := alloc_ok.mp h1
  rw [modGa_ok] at h2
  subst h2
  refine ⟨by simp, by simp, ?_, ?_, rfl, rfl, rfl, rfl, rfl⟩
  · intro i g' hg
    cases i with
    | zero => simp at hg; subst hg; simp [upd]
    | succ i => simp at hg
  · intro r hr
    exact upd_ne (by omega)

theorem Appended.trans {a b c : St σ} {g1 g2 : List (List Val)} (h1 : Appended a b g1)
    (h2 : Appended b c g2) : Appended a c (g1 ++ g2) := by
  refine ⟨?_, ?_, ?_, ?_, h2.seed.trans h1.seed, h2.mutLvl.trans h1.mutLvl, h2.conds.trans h1.conds,
    h2.calls.trans h1.calls, h2.snaps.trans h1.snaps⟩
  · rw [h2.pop, h1.pop, h1.next]
    simp only [List.append_assoc, List.length_append]
    rw [List.range'_append_1]
  · rw [h2.next, h1.next]; simp; omega
  · intro i g hg
    by_cases hi : i < g1.length
    · rw [List.getElem?_append_left hi] at hg
      rw [h2.old _ (by rw [h1.next]; omega)]
      exact h1.new i g hg
    · rw [List.getElem?_append_right (by omega)] at hg
      have := h2.new _ g hg
      rw [h1.next] at this
      rw [← this]
      congr 1
      omega
  · intro r hr
    rw [h2.old r (by rw [h1.next]; omega), h1.old r hr]

theorem appendLoop {m : α → M σ (List Val)} {P : α → List Val → Prop}
    (hm : ∀ x s s' g, m x s = (.ok g, s') → Drew s s' ∧ P x g) :
    ∀ {l : List α} {s s' : St σ} {u : Unit}, forEach l (fun x => do let g ← m x; addDict g) s = (.ok u, s') →
      ∃ gs, Appended s s' gs ∧ List.Forall₂ P l gs := by
  intro l
  induction l with
  | nil =>
    intro s s' u h
    rw [forEach_nil] at h
    simp at h
    subst h
    exact ⟨[], Appended.nil_of_drew (Drew.refl _), .nil⟩
  | cons x xs ih =>
    intro s s' u h
    obtain ⟨s1, h1, h2⟩ := forEach_cons_ok.mp h
    obtain ⟨g, s2, h3, h4⟩ := bind_ok.mp h1
    obtain ⟨hd, hP⟩ := hm _ _ _ _ h3
    obtain ⟨gs, ha, hf⟩ := ih h2
    exact ⟨g :: gs, ((Appended.nil_of_drew hd).trans (addDict_appended h4)).trans ha, .cons hP hf⟩

/-! ## `reset_idx_individ` and `get_phenotype` -/

/-- Everything except the heap is equal. -/
def SameBut (s s' : St σ) : Prop := ∃ h, s' = { s with heap := h }

theorem SameBut.refl (s : St σ) : SameBut s s := ⟨s.heap, rfl⟩

theorem SameBut.trans {a b c : St σ} (h1 : SameBut a b) (h2 : SameBut b c) : SameBut a c := by
  obtain ⟨x, rfl⟩ := h1; obtain ⟨y, rfl⟩ := h2; exact ⟨y, rfl⟩

theorem SameBut.ga {a b : St σ} (h : SameBut a b) : b.ga = a.ga := by obtain ⟨x, rfl⟩ := h; rfl
theorem SameBut.next {a b : St σ} (h : SameBut a b) : b.next = a.next := by obtain ⟨x, rfl⟩ := h; rfl
theorem SameBut.seed {a b : St σ} (h : SameBut a b) : b.seed = a.seed := by obtain ⟨x, rfl⟩ := h; rfl
theorem SameBut.tape {a b : St σ} (h : SameBut a b) : b.tape = a.tape := by obtain ⟨x, rfl⟩ := h; rfl
theorem SameBut.snaps {a b : St σ} (h : SameBut a b) : b.snaps = a.snaps := by obtain ⟨x, rfl⟩ := h; rfl
theorem SameBut.calls {a b : St σ} (h : SameBut a b) : b.calls = a.calls := by obtain ⟨x, rfl⟩ := h; rfl
theorem SameBut.mutLvl {a b : St σ} (h : SameBut a b) : b.mutLvl = a.mutLvl := by obtain ⟨x, rfl⟩ := h; rfl
theorem SameBut.conds {a b : St σ} (h : SameBut a b) : b.conds = a.conds := by obtain ⟨x, rfl⟩ := h; rfl

/-- `reset_idx_individ` never fails; it changes only `idx` of listed individuals. -/
theorem resetIdxFrom_run : ∀ (rs : List Nat) (i : Nat) (s : St σ), ∃ s', resetIdxFrom i rs s = (.ok (), s') ∧
    SameBut s s' ∧ (∀ r, r ∉ rs → s'.heap r = s.heap r) ∧
    (∀ r, ∃ k, s'.heap r = { s.heap r with idx := k }) ∧
    (rs.Nodup → ∀ j r, rs[j]? = some r → s'.heap r = { s.heap r with idx := some (i + j) }) := by
  intro rs
  induction rs with
  | nil =>
    intro i s
    exact ⟨s, rfl, SameBut.refl s, fun _ _ => rfl, fun r => ⟨(s.heap r).idx, rfl⟩, by intro _ j r h; simp at h⟩
  | cons r rs ih =>
    intro i s
    obtain ⟨s', h1, h2, h3, h4, h5⟩ := ih (i + 1)
      { s with heap := upd s.heap r { s.heap r with idx := some i } }
    refine ⟨s', ?_, ?_, ?_, ?_, ?_⟩
    · rw [resetIdxFrom, bind_of_ok (modInd_run _ _ _)]; exact h1
    · exact SameBut.trans ⟨_, rfl⟩ h2
    · intro x hx
      rw [List.mem_cons, not_or] at hx
      rw [h3 x hx.2]
      exact upd_ne hx.1
    · intro x
      obtain ⟨k, hk⟩ := h4 x
      by_cases hx : x = r
      · subst hx
        refine ⟨k, ?_⟩
        rw [hk]
        simp only [upd_same]
      · refine ⟨k, ?_⟩
        rw [hk]
        simp only [upd_ne hx]
    · intro hn j x hj
      rw [List.nodup_cons] at hn
      cases j with
      | zero =>
        simp at hj
        subst hj
        rw [h3 _ hn.1]
        simp only [upd_same, Nat.add_zero]
      | succ j =>
        simp at hj
        have hx : x ∈ rs := List.mem_of_getElem? hj
        have hne : x ≠ r := by rintro rfl; exact hn.1 hx
        rw [h5 hn.2 j x hj]
        simp only [upd_ne hne]
        congr 2
        omega

theorem resetIdx_run (s : St σ) : ∃ s', resetIdx s = (.ok (), s') ∧
    SameBut s s' ∧ (∀ r, r ∉ s.ga.population → s'.heap r = s.heap r) ∧
    (∀ r, ∃ k, s'.heap r = { s.heap r with idx := k }) ∧
    (s.ga.population.Nodup → ∀ j r, s.ga.population[j]? = some r →
      s'.heap r = { s.heap r with idx := some j }) := by
  obtain ⟨s', h1, h2, h3, h4, h5⟩ := resetIdxFrom_run s.ga.population 0 s
  refine ⟨s', ?_, h2, h3, h4, ?_⟩
  · unfold resetIdx; rw [bind_of_ok (getGa_run s)]; exact h1
  · intro hn j r hj; have := h5 hn j r hj; simpa using this

/-- Effect of `get_phenotype` on one individual. -/
def Phenotyped (at_ : Attrs) (a b : Ind σ) : Prop :=
  (a.phenotype.isSome ∧ b = a) ∨
  (a.phenotype = none ∧ ∃ g p, a.genotype = some g ∧ decodeIndivid at_ g = .ok p ∧ b = { a with phenotype := some p })

theorem phenoLoop {at_ : Attrs} : ∀ {rs : List Nat} {s s' : St σ} {u : Unit},
    forEach rs (fun r => do
      let ind ← getInd r
      match ind.phenotype with
      | some _ => pure ()
      | none => do
        let g ← genoOf r
        let p ← liftE (decodeIndivid at_ g)
        modInd r fun ind => { ind with phenotype := some p }) s = (.ok u, s') →
    SameBut s s' ∧ (∀ r ∈ rs, Phenotyped at_ (s.heap r) (s'.heap r)) ∧ (∀ r, r ∉ rs → s'.heap r = s.heap r) := by
  intro rs
  induction rs with
  | nil =>
    intro s s' u h
    rw [forEach_nil] at h; simp at h; subst h
    exact ⟨SameBut.refl _, by simp, fun _ _ => rfl⟩
  | cons r rs ih =>
    intro s s' u h
    obtain ⟨s1, h1, h2⟩ := forEach_cons_ok.mp h
    rw [bind_of_ok (getInd_run r s)] at h1
    obtain ⟨a1, a2, a3⟩ := ih h2
    have step : SameBut s s1 ∧ Phenotyped at_ (s.heap r) (s1.heap r) ∧ (∀ x, x ≠ r → s1.heap x = s.heap x) ∧
        (s1.heap r).phenotype.isSome := by
      cases hp : (s.heap r).phenotype with
      | some p =>
        rw [hp] at h1
        simp only [pure_ok, true_and] at h1
        subst h1
        exact ⟨SameBut.refl _, Or.inl ⟨by simp [hp], rfl⟩, fun _ _ => rfl, by simp [hp]⟩
      | none =>
        rw [hp] at h1
        simp only at h1
        obtain ⟨g, s2, h3, h4⟩ := bind_ok.mp h1
        obtain ⟨hg, rfl⟩ := genoOf_ok.mp h3
        obtain ⟨p, s3, h5, h6⟩ := bind_ok.mp h4
        obtain ⟨hd, rfl⟩ := liftE_ok.mp h5
        rw [modInd_ok] at h6
        subst h6
        refine ⟨⟨_, rfl⟩, Or.inr ⟨hp, g, p, hg, hd, by simp [upd_same]⟩, fun x hx => upd_ne hx, by simp [upd_same]⟩
    obtain ⟨b1, b2, b3, b4⟩ := step
    refine ⟨b1.trans a1, ?_, ?_⟩
    · intro x hx
      by_cases hxr : x = r
      · subst hxr
        by_cases hm : x ∈ rs
        · rcases a2 x hm with ⟨_, e⟩ | ⟨e, _⟩
          · rw [e]; exact b2
          · rw [e] at b4; simp at b4
        · rw [a3 x hm]; exact b2
      · have hm : x ∈ rs := by simpa [hxr] using hx
        have := a2 x hm
        rwa [b3 x hxr] at this
    · intro x hx
      rw [List.mem_cons, not_or] at hx
      rw [a3 x hx.2, b3 x hx.1]

theorem getPhenotype_ok {s s' : St σ} {u : Unit} (h : getPhenotype s = (.ok u, s')) :
    SameBut s s' ∧ (∀ r ∈ s.ga.population, Phenotyped s.ga.attrs (s.heap r) (s'.heap r)) ∧
    (∀ r, r ∉ s.ga.population → s'.heap r = s.heap r) := by
  unfold getPhenotype at h
  rw [bind_of_ok (getGa_run s)] at h
  exact phenoLoop h

/-! ## `fill` -/

/-- Attributes after `set_params` and `get_gens_params`. -/
structure Declared (at_ : Attrs) (spec : PopSpec) (n : Nat) : Prop where
  spec_eq : at_.spec = spec
  num : at_.numIndivid = n
  phen : at_.isPhenotype = true ↔ ∃ gray gens, spec = PopSpec.binary gray gens
  sorted : at_.isSorted = false
  prep : ∀ gray gens, spec = PopSpec.binary gray gens → Prepared at_ gray gens

theorem prepare_ok {s s' : St σ} {u : Unit} (h : prepare s = (.ok u, s')) :
    ∃ at_ : Attrs, s' = { s with ga := { s.ga with attrs := at_ } } ∧ at_.spec = s.ga.attrs.spec ∧
      at_.numIndivid = s.ga.attrs.numIndivid ∧ at_.isPhenotype = s.ga.attrs.isPhenotype ∧
      at_.isSorted = s.ga.attrs.isSorted ∧
      ∀ gray gens, at_.spec = .binary gray gens → Prepared at_ gray gens := by
  unfold prepare at h
  rw [bind_of_ok (getGa_run s)] at h
  cases hs : s.ga.attrs.spec with
  | cat gens =>
    rw [hs] at h; simp only [pure_ok, true_and] at h; subst h
    exact ⟨_, rfl, hs, rfl, rfl, rfl, by rw [hs]; simp⟩
  | orderCat a b k =>
    rw [hs] at h; simp only [pure_ok, true_and] at h; subst h
    exact ⟨_, rfl, hs, rfl, rfl, rfl, by rw [hs]; simp⟩
  | binary gray gens =>
    rw [hs] at h
    simp only at h
    obtain ⟨r, s1, h1, h2⟩ := bind_ok.mp h
    obtain ⟨hg, rfl⟩ := liftE_ok.mp h1
    rw [modGa_ok] at h2
    subst h2
    refine ⟨{ s1.ga.attrs with params := r.1, idxBits := 0 :: r.2 }, rfl, hs, rfl, rfl, rfl, ?_⟩
    intro gray' gens' he
    simp only [hs, PopSpec.binary.injEq] at he
    obtain ⟨rfl, rfl⟩ := he
    exact ⟨hs, r.2, hg, rfl⟩

/-- Complete description of a successful `fill` of a fresh population. -/
theorem fill_ok {input : Option (List (List Val))} {s s' : St σ} {u : Unit} (hemp : s.ga.population = [])
    (hlen : (input.getD []).length ≤ s.ga.attrs.numIndivid)
    (h : fill input s = (.ok u, s')) :
    s'.ga.attrs.spec = s.ga.attrs.spec ∧ s'.ga.attrs.numIndivid = s.ga.attrs.numIndivid ∧
    s'.ga.attrs.isPhenotype = s.ga.attrs.isPhenotype ∧ s'.ga.attrs.isSorted = s.ga.attrs.isSorted ∧
    (∀ gray gens, s'.ga.attrs.spec = .binary gray gens → Prepared s'.ga.attrs gray gens) ∧
    s'.ga.population = List.range' s.next s.ga.attrs.numIndivid ∧ s'.next = s.next + s.ga.attrs.numIndivid ∧
    (s'.ga = { s.ga with population := s'.ga.population, attrs := s'.ga.attrs }) ∧
    (∀ r, r < s.next → s'.heap r = s.heap r) ∧
    s'.seed = s.seed ∧ s'.mutLvl = s.mutLvl ∧ s'.conds = s.conds ∧ s'.calls = s.calls ∧ s'.snaps = s.snaps ∧
    ∃ gs : List (List Val), gs.length = s.ga.attrs.numIndivid ∧
      List.Forall₂ (fun x g => adopt s'.ga.attrs x = .ok g) (input.getD []) (gs.take (input.getD []).length) ∧
      (∀ g ∈ gs.drop (input.getD []).length, GenShape s'.ga.attrs g) ∧
      ∀ i g, gs[i]? = some g → ∃ p, s'.heap (s.next + i) = { genotype := some g, phenotype := p, idx := some i } ∧
        (if s'.ga.attrs.isPhenotype then ∃ q, p = some q ∧ decodeIndivid s'.ga.attrs g = .ok q else p = none) := by
  unfold fill at h
  obtain ⟨_, s2, h3, h4⟩ := bind_ok.mp h
  obtain ⟨at_, rfl, a1, a2, a3, a5, a4⟩ := prepare_ok h3
  rw [bind_of_ok (getGa_run _)] at h4
  obtain ⟨_, s3, h5, h6⟩ := bind_ok.mp h4
  obtain ⟨_, s4, h7, h8⟩ := bind_ok.mp h6
  have h8' : ∃ s5, (if at_.isPhenotype then getPhenotype s4 else (.ok (), s4)) = (.ok (), s5) ∧
      resetIdx s5 = (.ok u, s') := by
    simp only at h8
    rw [ite_run] at h8
    split at h8
    · rename_i hph
      obtain ⟨_, s5, e1, e2⟩ := bind_ok.mp h8
      exact ⟨s5, by rw [if_pos hph]; exact e1, e2⟩
    · rename_i hph
      exact ⟨s4, by rw [if_neg hph], h8⟩
  obtain ⟨s5, h9, h10⟩ := h8'
  clear h h3 h4 h6 h8
  generalize hn : s.ga.attrs.numIndivid = n at *
  simp only at h5 h7
  obtain ⟨g1, ap1, f1⟩ := appendLoop (P := fun x g => adopt at_ x = .ok g)
    (m := fun x => liftE (adopt at_ x))
    (fun x s s' g h => by obtain ⟨e, rfl⟩ := liftE_ok.mp h; exact ⟨Drew.refl _, e⟩) h5
  obtain ⟨g2, ap2, f2⟩ := appendLoop (P := fun _ g => GenShape at_ g)
    (m := fun _ => generate at_) (fun x s s' g h => generate_ok h) h7
  have ap := ap1.trans ap2
  have hl1 : g1.length = (input.getD []).length := f1.length_eq.symm
  have hl2 : g2.length = n - (input.getD []).length := by
    rw [← f2.length_eq, List.length_range, a2]
  have hl : (g1 ++ g2).length = n := by rw [List.length_append, hl1, hl2]; omega
  have hpop : s4.ga.population = List.range' s.next n := by
    rw [ap.pop, hl]; simp [hemp]
  have hatt : s4.ga.attrs = at_ := by rw [ap.pop]
  -- phenotypes
  have hph : SameBut s4 s5 ∧ (∀ r, r < s.next → s5.heap r = s4.heap r) ∧
      ∀ i g, (g1 ++ g2)[i]? = some g → ∃ p, s5.heap (s.next + i) = { genotype := some g, phenotype := p } ∧
        (if at_.isPhenotype then ∃ q, p = some q ∧ decodeIndivid at_ g = .ok q else p = none) := by
    split at h9
    · rename_i hph
      obtain ⟨b1, b2, b3⟩ := getPhenotype_ok h9
      refine ⟨b1, ?_, ?_⟩
      · intro r hr
        refine b3 r ?_
        rw [hpop]
        intro hc
        have := List.mem_range'_1.mp hc
        omega
      · intro i g hg
        have hi : i < n := by rw [← hl]; exact (List.getElem?_eq_some_iff.mp hg).1
        have hmem : s.next + i ∈ s4.ga.population := by
          rw [hpop]; exact List.mem_range'_1.mpr ⟨by omega, by omega⟩
        have hnew := ap.new i g hg
        simp only at hnew
        have := b2 _ hmem
        rw [hnew, hatt] at this
        rcases this with ⟨c, _⟩ | ⟨_, g', p, e1, e2, e3⟩
        · simp at c
        · simp only [Option.some.injEq] at e1
          subst e1
          exact ⟨some p, e3, by rw [if_pos hph]; exact ⟨p, rfl, e2⟩⟩
    · rename_i hph
      simp only [Prod.mk.injEq, true_and] at h9
      subst h9
      refine ⟨SameBut.refl _, fun _ _ => rfl, ?_⟩
      intro i g hg
      exact ⟨none, ap.new i g hg, by rw [if_neg hph]⟩
  obtain ⟨sb5, old5, new5⟩ := hph
  obtain ⟨s6, r1, r2, r3, r4, r5⟩ := resetIdx_run s5
  rw [r1] at h10
  simp only [Prod.mk.injEq, true_and] at h10
  subst h10
  have sb : SameBut s4 s6 := sb5.trans r2
  have hga : s6.ga = s4.ga := sb.ga
  have hpop5 : s5.ga.population = List.range' s.next n := by rw [sb5.ga, hpop]
  refine ⟨by rw [hga, hatt, a1], by rw [hga, hatt, a2], by rw [hga, hatt, a3], by rw [hga, hatt, a5],
    by rw [hga, hatt]; exact a4, by rw [hga, hpop], by rw [sb.next, ap.next, hl], ?_, ?_, by rw [sb.seed, ap.seed],
    by rw [sb.mutLvl, ap.mutLvl], by rw [sb.conds, ap.conds], by rw [sb.calls, ap.calls],
    by rw [sb.snaps, ap.snaps], g1 ++ g2, hl, ?_, ?_, ?_⟩
  · rw [hga, ap.pop]
  · intro r hr
    rw [r3 r (by rw [hpop5]; intro hc; have := List.mem_range'_1.mp hc; omega), old5 r hr, ap.old r hr]
  · rw [hga, hatt, ← hl1, List.take_left]; exact f1
  · rw [hga, hatt, ← hl1, List.drop_left]
    intro g hg
    obtain ⟨i, hi, rfl⟩ := List.getElem_of_mem hg
    exact (List.forall₂_iff_get.mp f2).2 i (by rw [f2.length_eq]; exact hi) hi
  · intro i g hg
    have hi : i < n := by rw [← hl]; exact (List.getElem?_eq_some_iff.mp hg).1
    obtain ⟨p, e1, e2⟩ := new5 i g hg
    refine ⟨p, ?_, by rw [hga, hatt]; exact e2⟩
    have hget : s5.ga.population[i]? = some (s.next + i) := by
      rw [hpop5, List.getElem?_range' hi]; simp
    rw [r5 (by rw [hpop5]; exact List.nodup_range') i _ hget, e1]

theorem prepare_arith {s s' : St σ} {u : Unit} (h : prepare s = (.ok u, s')) : s'.ga.attrs.arith = s.ga.attrs.arith := by
  unfold prepare at h
  rw [bind_of_ok (getGa_run s)] at h
  cases hs : s.ga.attrs.spec with
  | cat gens => rw [hs] at h; simp only [pure_ok, true_and] at h; subst h; rfl
  | orderCat a b k => rw [hs] at h; simp only [pure_ok, true_and] at h; subst h; rfl
  | binary gray gens =>
    rw [hs] at h
    simp only at h
    obtain ⟨_, _, h1, h2⟩ := bind_ok.mp h
    obtain ⟨_, rfl⟩ := liftE_ok.mp h1
    rw [modGa_ok] at h2
    rw [h2]

/-- Filling a population keeps its arithmetic. -/
theorem fill_arith {input : Option (List (List Val))} {s s' : St σ} {u : Unit} (h : fill input s = (.ok u, s')) :
    s'.ga.attrs.arith = s.ga.attrs.arith := by
  unfold fill at h
  obtain ⟨_, s2, h3, h4⟩ := bind_ok.mp h
  have e2 := prepare_arith h3
  rw [bind_of_ok (getGa_run _)] at h4
  obtain ⟨_, s3, h5, h6⟩ := bind_ok.mp h4
  obtain ⟨_, s4, h7, h8⟩ := bind_ok.mp h6
  obtain ⟨g1, ap1, f1⟩ := appendLoop (P := fun x g => adopt s2.ga.attrs x = .ok g)
    (m := fun x => liftE (adopt s2.ga.attrs x))
    (fun x s s' g h => by obtain ⟨e, rfl⟩ := liftE_ok.mp h; exact ⟨Drew.refl _, e⟩) h5
  obtain ⟨g2, ap2, f2⟩ := appendLoop (P := fun _ g => GenShape s2.ga.attrs g)
    (m := fun _ => generate s2.ga.attrs) (fun x s s' g h => generate_ok h) h7
  have e4 : s4.ga.attrs = s2.ga.attrs := by rw [(ap1.trans ap2).pop]
  have h8' : ∃ s5, (s5.ga = s4.ga) ∧ resetIdx s5 = (.ok u, s') := by
    rw [ite_run] at h8
    split at h8
    · obtain ⟨_, s5, e1, e3⟩ := bind_ok.mp h8
      exact ⟨s5, (getPhenotype_ok e1).1.ga, e3⟩
    · exact ⟨s4, rfl, h8⟩
  obtain ⟨s5, h9, h10⟩ := h8'
  obtain ⟨s6, r1, r2, _⟩ := resetIdx_run s5
  rw [r1] at h10
  simp only [Prod.mk.injEq, true_and] at h10
  subst h10
  rw [r2.ga, h9, e4, e2]

/-- Complete description of a successful creation of a population. -/
theorem createPopulation_ok {spec : PopSpec} {n : Nat} {input : Option (List (List Val))} {s s' : St σ} {u : Unit}
    (h : createPopulation spec n input s = (.ok u, s')) :
    (input.getD []).length ≤ n ∧ Declared s'.ga.attrs spec n ∧
    s'.ga.population = List.range' s.next n ∧ s'.next = s.next + n ∧
    (∀ r, r < s.next → s'.heap r = s.heap r) ∧
    ∃ gs : List (List Val), gs.length = n ∧
      List.Forall₂ (fun x g => adopt s'.ga.attrs x = .ok g) (input.getD []) (gs.take (input.getD []).length) ∧
      (∀ g ∈ gs.drop (input.getD []).length, GenShape s'.ga.attrs g) ∧
      ∀ i g, gs[i]? = some g → ∃ p, s'.heap (s.next + i) = { genotype := some g, phenotype := p, idx := some i } ∧
        (if s'.ga.attrs.isPhenotype then ∃ q, p = some q ∧ decodeIndivid s'.ga.attrs g = .ok q else p = none) := by
  unfold createPopulation at h
  obtain ⟨_, s1, h1, h2⟩ := bind_ok.mp h
  unfold setParams at h1
  split at h1
  · rw [throwE_ok] at h1; exact h1.elim
  rename_i hlen
  rw [modGa_ok] at h1
  subst h1
  obtain ⟨a1, a2, a3, a4, a5, a6, a7, a8, a9, _, _, _, _, _, gs, b⟩ := fill_ok rfl (by simpa using hlen) h2
  simp only at a1 a2 a3 a4 a6 a7 a9 b
  exact ⟨by omega, ⟨a1, a2, by rw [a3]; cases spec <;> simp [PopSpec.hasPhenotype], a4, fun gray gens hs => a5 gray gens (a1.trans hs)⟩,
    a6, a7, a9, gs, b⟩

end BaumEva
