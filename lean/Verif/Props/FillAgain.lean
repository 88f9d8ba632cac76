import Verif.Model.FillAgain
import Verif.Props.Words
import Verif.Props.Resume
import Verif.Props.Refill
/-!
# C124: `fill()` called more than once
-/
namespace BaumEva
open Spec
variable {σ : Type}

/-! ## The parameters of the genes -/

/-- `at_` is `at0` after `get_gens_params` was called `m` times more. -/
structure Grown (at0 at_ : Attrs) (m : Nat) : Prop where
  same : at_ = { at0 with params := at_.params, idxBits := at_.idxBits }
  plain : (∀ gray gens, at0.spec ≠ .binary gray gens) → at_ = at0
  params : at0.params <+: at_.params
  bits : at0.idxBits <+: at_.idxBits
  last : ∀ gray gens, at0.spec = .binary gray gens → at_.idxBits.getLastD 0 = (m + 1) * at0.idxBits.getLastD 0

theorem Grown.refl (at_ : Attrs) : Grown at_ at_ 0 :=
  ⟨rfl, fun _ => rfl, List.prefix_rfl, List.prefix_rfl, fun _ _ _ => by simp⟩

theorem gensParamsR_shift {rnd : ℚ → ℚ} {gens : List BinGene} : ∀ {off d : Nat} {ps : List GeneParams} {offs : List Nat},
    gensParamsR rnd gens off = .ok (ps, offs) → gensParamsR rnd gens (off + d) = .ok (ps, offs.map (· + d)) := by
  induction gens with
  | nil => intro off d ps offs h; simp [gensParamsR] at h; simp [gensParamsR, h]
  | cons g gs ih =>
    intro off d ps offs h
    obtain ⟨p, r, hp, hr, e⟩ := gensParamsR_cons.mp h
    refine gensParamsR_cons.mpr ⟨p, (r.1, r.2.map (· + d)), hp, ?_, ?_⟩
    · rw [show off + d + p.numBits = off + p.numBits + d by omega]
      exact ih hr
    · rw [Prod.mk.injEq] at e ⊢
      obtain ⟨rfl, rfl⟩ := e
      refine ⟨rfl, ?_⟩
      rw [List.map_cons]
      congr 1
      omega

theorem encodeGenesR_prefix {rnd : ℚ → ℚ} {gray : Bool} : ∀ {gens : List BinGene} {ps qs : List GeneParams} {xs : List Val},
    gens.length = ps.length → encodeGenesR rnd gray gens (ps ++ qs) xs = encodeGenesR rnd gray gens ps xs := by
  intro gens
  induction gens with
  | nil => intro ps qs xs h; cases ps <;> simp [encodeGenesR]
  | cons g gs ih =>
    intro ps qs xs h
    cases ps with
    | nil => simp at h
    | cons p ps =>
      cases xs with
      | nil => simp [encodeGenesR]
      | cons x xs =>
        cases x with
        | str _ => simp [encodeGenesR]
        | num q =>
          simp only [List.cons_append, encodeGenesR]
          rw [ih (by simpa using h)]

theorem decodeGenesR_prefix {rnd : ℚ → ℚ} {gray : Bool} {geno : List Val} : ∀ {gens : List BinGene} {ps qs : List GeneParams}
    {offs os : List Nat} {a : Nat}, gens.length = ps.length → gens.length = offs.length →
    decodeGenesR rnd gray geno gens (ps ++ qs) (a :: (offs ++ os)) = decodeGenesR rnd gray geno gens ps (a :: offs) := by
  intro gens
  induction gens with
  | nil => intro ps qs offs os a h1 h2; simp [decodeGenesR]
  | cons g gs ih =>
    intro ps qs offs os a h1 h2
    cases ps with
    | nil => simp at h1
    | cons p ps =>
      cases offs with
      | nil => simp at h2
      | cons b offs =>
        simp only [List.cons_append, decodeGenesR]
        rw [ih (by simpa using h1) (by simpa using h2)]

theorem gensParamsR_offs {rnd : ℚ → ℚ} {gens : List BinGene} : ∀ {off : Nat} {ps : List GeneParams} {offs : List Nat},
    gensParamsR rnd gens off = .ok (ps, offs) → gens.length = offs.length := by
  induction gens with
  | nil => intro off ps offs h; simp [gensParamsR] at h; simp [h]
  | cons g gs ih =>
    intro off ps offs h
    obtain ⟨p, r, hp, hr, e⟩ := gensParamsR_cons.mp h
    rw [Prod.mk.injEq] at e
    rw [e.2]
    simp [ih hr]

section
variable {at0 at_ : Attrs} {m : Nat}

/-- Input individuals are encoded as before. -/
theorem Grown.adopt (h : Grown at0 at_ m) (hp : ∀ gray gens, at0.spec = .binary gray gens → Prepared at0 gray gens) (x : List Val) :
    adopt at_ x = BaumEva.adopt at0 x := by
  cases hs : at0.spec with
  | cat gens => rw [h.plain (by rw [hs]; simp)]
  | orderCat a b k => rw [h.plain (by rw [hs]; simp)]
  | binary gray gens =>
    have hp := hp gray gens hs
    obtain ⟨q, hq⟩ := h.params
    unfold BaumEva.adopt
    rw [show at_.spec = at0.spec by rw [h.same], show at_.arith = at0.arith by rw [h.same], hs, ← hq]
    simp only [encodeIndividR]
    rw [encodeGenesR_prefix hp.forallR.length_eq]

/-- Genotypes are decoded as before. -/
theorem Grown.decode (h : Grown at0 at_ m) (hp : ∀ gray gens, at0.spec = .binary gray gens → Prepared at0 gray gens) (g : List Val) :
    decodeIndivid at_ g = decodeIndivid at0 g := by
  cases hs : at0.spec with
  | cat gens => rw [h.plain (by rw [hs]; simp)]
  | orderCat a b k => rw [h.plain (by rw [hs]; simp)]
  | binary gray gens =>
    have hp := hp gray gens hs
    obtain ⟨q, hq⟩ := h.params
    obtain ⟨o, ho⟩ := h.bits
    obtain ⟨offs, h1, h2⟩ := hp.ok
    unfold decodeIndivid
    rw [show at_.spec = at0.spec by rw [h.same], show at_.arith = at0.arith by rw [h.same], hs, ← hq, ← ho, h2]
    simp only [List.cons_append]
    exact decodeGenesR_prefix hp.forallR.length_eq (gensParamsR_offs h1)

/-- New genotypes have the same shape. -/
theorem Grown.shape (h : Grown at0 at_ m) (hp : ∀ gray gens, at0.spec = .binary gray gens → Prepared at0 gray gens) {g : List Val}
    (hg : GenShape (readable at_) g) : GenShape at0 g := by
  cases hs : at0.spec with
  | cat gens =>
    have := h.plain (by rw [hs]; simp)
    subst this
    unfold readable at hg
    rw [hs] at hg
    exact hg
  | orderCat a b k =>
    have := h.plain (by rw [hs]; simp)
    subst this
    unfold readable at hg
    rw [hs] at hg
    exact hg
  | binary gray gens =>
    have hp := hp gray gens hs
    have hs' : at_.spec = .binary gray gens := by rw [h.same]; exact hs
    obtain ⟨q, hq⟩ := h.params
    unfold GenShape readable at hg
    rw [hs'] at hg
    simp only at hg
    rw [← hq, hp.forallR.length_eq, List.take_left] at hg
    unfold GenShape
    rw [hs]
    exact hg

theorem Grown.step (h : Grown at0 at_ m) (hp : ∀ gray gens, at0.spec = .binary gray gens → Prepared at0 gray gens) {s s' : St σ} {u : Unit}
    (hs : s.ga.attrs = at_) (hr : prepareMore s = (.ok u, s')) :
    s' = { s with ga := { s.ga with attrs := s'.ga.attrs } } ∧ Grown at0 s'.ga.attrs (m + 1) := by
  unfold prepareMore at hr
  rw [bind_of_ok (getGa_run s)] at hr
  cases hsp : at0.spec with
  | cat gens =>
    rw [show s.ga.attrs.spec = .cat gens by rw [hs, h.same]; exact hsp] at hr
    simp only [pure_ok, true_and] at hr
    subst hr
    rw [hs]
    exact ⟨by rw [← hs], h.same, h.plain, h.params, h.bits, by rw [hsp]; simp⟩
  | orderCat a b k =>
    rw [show s.ga.attrs.spec = .orderCat a b k by rw [hs, h.same]; exact hsp] at hr
    simp only [pure_ok, true_and] at hr
    subst hr
    rw [hs]
    exact ⟨by rw [← hs], h.same, h.plain, h.params, h.bits, by rw [hsp]; simp⟩
  | binary gray gens =>
    rw [show s.ga.attrs.spec = .binary gray gens by rw [hs, h.same]; exact hsp] at hr
    simp only at hr
    obtain ⟨r, s1, h1, h2⟩ := bind_ok.mp hr
    obtain ⟨hg, rfl⟩ := liftE_ok.mp h1
    rw [modGa_ok] at h2
    subst h2
    refine ⟨rfl, ?_⟩
    rw [hs] at hg ⊢
    have hp := hp gray gens hsp
    obtain ⟨offs, k1, k2⟩ := hp.ok
    have e1 := gensParamsR_last hg
    have hf := gensParamsR_forall hg
    rw [show at_.arith = at0.arith by rw [h.same]] at hg
    have hsh := gensParamsR_shift (d := at_.idxBits.getLastD 0) k1
    rw [Nat.zero_add, hg] at hsh
    have hr1 : r = (at0.params, offs.map (· + at_.idxBits.getLastD 0)) := by injection hsh
    refine ⟨?_, ?_, ?_, ?_, ?_⟩
    · simp only
      conv_lhs => rw [h.same]
    · intro hc; exact absurd hsp (hc gray gens)
    · exact h.params.trans (List.prefix_append _ _)
    · exact h.bits.trans (List.prefix_append _ _)
    · intro _ _ _
      simp only
      have hne : at_.idxBits ≠ [] := by
        obtain ⟨o, ho⟩ := h.bits
        rw [← ho, k2]; simp
      have hlast : (at_.idxBits ++ r.2).getLastD 0 = (at_.idxBits.getLastD 0 :: r.2).getLastD 0 := by
        cases hr2 : r.2 with
        | nil => simp
        | cons x xs =>
          rw [List.getLastD_eq_getLast?, List.getLastD_eq_getLast?, List.getLast?_append_of_ne_nil _ (by simp),
            List.getLast?_cons_cons]
      rw [hlast, e1, hr1, h.last gray gens hsp, ← hp.total]
      ring

end

/-! ## `fill` -/

/-- On a population object on which only `set_params` was called, `fillAgain` is `fill`. -/
theorem fillAgain_first {input : Option (List (List Val))} {s : St σ} (hp : s.ga.attrs.params = []) (hi : s.ga.attrs.idxBits = [0]) :
    fillAgain input s = fill input s := by
  have hsame : prepareMore s = prepare s := by
    unfold prepareMore prepare
    rw [bind_of_ok (getGa_run s), bind_of_ok (getGa_run s)]
    cases hs : s.ga.attrs.spec with
    | cat gens => rfl
    | orderCat a b k => rfl
    | binary gray gens =>
      simp only [hi, List.getLastD_cons, List.getLastD_nil]
      cases hg : gensParamsR s.ga.attrs.arith.rnd gens 0 with
      | error e => rfl
      | ok r =>
        rw [bind_of_ok (liftE_ok.mpr ⟨rfl, rfl⟩), bind_of_ok (liftE_ok.mpr ⟨rfl, rfl⟩), modGa_run, modGa_run]
        simp only [hp, hi, List.nil_append, List.singleton_append]
  unfold fillAgain fill
  rcases he : prepare s with ⟨e | u, s1⟩
  · rw [bind_of_err he, bind_of_err (hsame.trans he)]
  · rw [bind_of_ok he, bind_of_ok (hsame.trans he), bind_of_ok (getGa_run s1), bind_of_ok (getGa_run s1)]
    obtain ⟨at_, rfl, _, _, _, _, hprep⟩ := prepare_ok he
    have : readable at_ = at_ := by
      unfold readable
      split
      · rename_i gray gens hs
        rw [(hprep gray gens hs).forallR.length_eq, List.take_length]
      · rfl
    simp only [this]

/-- What one more `fill` does. -/
theorem fillAgain_ok {at0 : Attrs} {m : Nat} {input : Option (List (List Val))} {s s' : St σ} {u : Unit}
    (hgr : Grown at0 s.ga.attrs m) (hp : ∀ gray gens, at0.spec = .binary gray gens → Prepared at0 gray gens)
    (hal : ∀ r ∈ s.ga.population, r < s.next)
    (hnd : s.ga.population.Nodup) (hph : ∀ r ∈ s.ga.population, at0.isPhenotype = true → (s.heap r).phenotype.isSome)
    (hlen : (input.getD []).length ≤ at0.numIndivid) (h : fillAgain input s = (.ok u, s')) :
    Grown at0 s'.ga.attrs (m + 1) ∧
    s'.ga = { s.ga with population := s.ga.population ++ List.range' s.next at0.numIndivid, attrs := s'.ga.attrs } ∧
    s'.next = s.next + at0.numIndivid ∧ s'.calls = s.calls ∧ s'.snaps = s.snaps ∧ s'.mutLvl = s.mutLvl ∧ s'.seed = s.seed ∧
    s'.conds = s.conds ∧
    (∀ j r, s.ga.population[j]? = some r → s'.heap r = { s.heap r with idx := some j }) ∧
    ∃ gs : List (List Val), gs.length = at0.numIndivid ∧
      List.Forall₂ (fun x g => adopt at0 x = .ok g) (input.getD []) (gs.take (input.getD []).length) ∧
      (∀ g ∈ gs.drop (input.getD []).length, GenShape at0 g) ∧
      ∀ i g, gs[i]? = some g → ∃ p,
        s'.heap (s.next + i) = { genotype := some g, phenotype := p, idx := some (s.ga.population.length + i) } ∧
        (if at0.isPhenotype then ∃ q, p = some q ∧ decodeIndivid at0 g = .ok q else p = none) := by
  unfold fillAgain at h
  obtain ⟨_, s2, h3, h4⟩ := bind_ok.mp h
  obtain ⟨e2, hg2⟩ := hgr.step hp rfl h3
  rw [bind_of_ok (getGa_run _)] at h4
  obtain ⟨_, s3, h5, h6⟩ := bind_ok.mp h4
  obtain ⟨_, s4, h7, h8⟩ := bind_ok.mp h6
  have hpop2 : s2.ga.population = s.ga.population := by rw [e2]
  have hnx2 : s2.next = s.next := by rw [e2]
  have hh2 : s2.heap = s.heap := by rw [e2]
  generalize hat : s2.ga.attrs = at_ at *
  have a2 : at_.numIndivid = at0.numIndivid := by rw [hg2.same]
  have a3 : at_.isPhenotype = at0.isPhenotype := by rw [hg2.same]
  have h8' : ∃ s5, (if at_.isPhenotype then getPhenotype s4 else (.ok (), s4)) = (.ok (), s5) ∧
      resetIdx s5 = (.ok u, s') := by
    rw [ite_run] at h8
    split at h8
    · rename_i hph
      obtain ⟨_, s5, e1, e2⟩ := bind_ok.mp h8
      exact ⟨s5, by rw [if_pos hph]; exact e1, e2⟩
    · rename_i hph
      exact ⟨s4, by rw [if_neg hph], h8⟩
  obtain ⟨s5, h9, h10⟩ := h8'
  clear h h3 h4 h6 h8
  generalize hn : at0.numIndivid = n at *
  obtain ⟨g1, ap1, f1⟩ := appendLoop (P := fun x g => adopt at_ x = .ok g)
    (m := fun x => liftE (adopt at_ x))
    (fun x s s' g h => by obtain ⟨e, rfl⟩ := liftE_ok.mp h; exact ⟨Drew.refl _, e⟩) h5
  obtain ⟨g2, ap2, f2⟩ := appendLoop (P := fun _ g => GenShape (readable at_) g)
    (m := fun _ => generate (readable at_)) (fun x s s' g h => generate_ok h) h7
  have ap := ap1.trans ap2
  have hl1 : g1.length = (input.getD []).length := f1.length_eq.symm
  have hl2 : g2.length = n - (input.getD []).length := by
    rw [← f2.length_eq, List.length_range, a2]
  have hl : (g1 ++ g2).length = n := by rw [List.length_append, hl1, hl2]; omega
  have hpop : s4.ga.population = s.ga.population ++ List.range' s.next n := by
    rw [ap.pop, hl, hpop2, hnx2]
  have hatt : s4.ga.attrs = at_ := by rw [ap.pop]; exact hat
  have hold4 : ∀ r, r < s.next → s4.heap r = s.heap r := fun r hr => by rw [ap.old r (by rw [hnx2]; exact hr), hh2]
  have hnew4 : ∀ i g, (g1 ++ g2)[i]? = some g → s4.heap (s.next + i) = { genotype := some g } := fun i g hg => by
    rw [← hnx2]; exact ap.new i g hg
  have hphen : SameBut s4 s5 ∧
      (∀ r ∈ s.ga.population, s5.heap r = s.heap r) ∧
      ∀ i g, (g1 ++ g2)[i]? = some g → ∃ p, s5.heap (s.next + i) = { genotype := some g, phenotype := p } ∧
        (if at0.isPhenotype then ∃ q, p = some q ∧ decodeIndivid at0 g = .ok q else p = none) := by
    rw [a3] at h9
    split at h9
    · rename_i hpt
      obtain ⟨b1, b2, b3⟩ := getPhenotype_ok h9
      refine ⟨b1, ?_, ?_⟩
      · intro r hr
        have hb := b2 r (by rw [hpop]; exact List.mem_append_left _ hr)
        rw [hold4 r (hal r hr)] at hb
        rcases hb with ⟨_, e⟩ | ⟨c, _⟩
        · exact e
        · have := hph r hr hpt
          rw [c] at this; simp at this
      · intro i g hg
        have hi : i < n := by rw [← hl]; exact (List.getElem?_eq_some_iff.mp hg).1
        have hmem : s.next + i ∈ s4.ga.population := by
          rw [hpop]; exact List.mem_append_right _ (List.mem_range'_1.mpr ⟨by omega, by omega⟩)
        have := b2 _ hmem
        rw [hnew4 i g hg, hatt] at this
        rcases this with ⟨c, _⟩ | ⟨_, g', p, e1, e2, e3⟩
        · simp at c
        · simp only [Option.some.injEq] at e1
          subst e1
          rw [hg2.decode hp] at e2
          exact ⟨some p, e3, by rw [if_pos hpt]; exact ⟨p, rfl, e2⟩⟩
    · rename_i hpt
      simp only [Prod.mk.injEq, true_and] at h9
      subst h9
      refine ⟨SameBut.refl _, ?_, ?_⟩
      · intro r hr
        exact hold4 r (hal r hr)
      · intro i g hg
        exact ⟨none, hnew4 i g hg, by rw [if_neg hpt]⟩
  obtain ⟨sb5, old5, new5⟩ := hphen
  obtain ⟨s6, r1, r2, r3, r4, r5⟩ := resetIdx_run s5
  rw [r1] at h10
  simp only [Prod.mk.injEq, true_and] at h10
  subst h10
  have sb : SameBut s4 s6 := sb5.trans r2
  have hga : s6.ga = s4.ga := sb.ga
  have hpop5 : s5.ga.population = s.ga.population ++ List.range' s.next n := by rw [sb5.ga, hpop]
  have hnd5 : s5.ga.population.Nodup := by
    rw [hpop5]
    refine List.Nodup.append hnd List.nodup_range' ?_
    intro r h1 h2
    have := hal r h1
    have := List.mem_range'_1.mp h2
    omega
  refine ⟨by rw [hga, hatt]; exact hg2, ?_, by rw [sb.next, ap.next, hl, hnx2], by rw [sb.calls, ap.calls, e2],
    by rw [sb.snaps, ap.snaps, e2], by rw [sb.mutLvl, ap.mutLvl, e2], by rw [sb.seed, ap.seed, e2], by rw [sb.conds, ap.conds, e2], ?_,
    g1 ++ g2, hl, ?_, ?_, ?_⟩
  · rw [hga, ap.pop, hl, hnx2, e2]
  · intro j r hj
    have hget : s5.ga.population[j]? = some r := by
      rw [hpop5, List.getElem?_append_left (List.getElem?_eq_some_iff.mp hj).1]; exact hj
    rw [r5 hnd5 j _ hget, old5 r (List.mem_of_getElem? hj)]
  · rw [← hl1, List.take_left]
    exact f1.imp fun x g hx => by rw [← hg2.adopt hp]; exact hx
  · rw [← hl1, List.drop_left]
    intro g hg
    obtain ⟨i, hi, rfl⟩ := List.getElem_of_mem hg
    exact hg2.shape hp ((List.forall₂_iff_get.mp f2).2 i (by rw [f2.length_eq]; exact hi) hi)
  · intro i g hg
    have hi : i < n := by rw [← hl]; exact (List.getElem?_eq_some_iff.mp hg).1
    obtain ⟨p, e1, e2⟩ := new5 i g hg
    refine ⟨p, ?_, e2⟩
    have hget : s5.ga.population[s.ga.population.length + i]? = some (s.next + i) := by
      rw [hpop5, List.getElem?_append_right (by omega), Nat.add_sub_cancel_left, List.getElem?_range' hi]; simp
    rw [r5 hnd5 _ _ hget, e1]

/-- What `fill` promises about an individual: genotype and phenotype fit each other and the gene values, nothing else is set. -/
def Newborn (at_ : Attrs) (input : List (List Val)) (place : Nat) (idx : Nat) (x : Ind σ) : Prop :=
  ∃ g p, x = { genotype := some g, phenotype := p, idx := some idx } ∧
    (if at_.isPhenotype then ∃ q, p = some q ∧ decodeIndivid at_ g = .ok q else p = none) ∧
    ((∃ y, input[place]? = some y ∧ adopt at_ y = .ok g) ∨ input.length ≤ place ∧ GenShape at_ g)

/-- `t` is `s` after `m` more calls of `fill`. -/
structure Refilled (s t : St σ) (input : List (List Val)) (m : Nat) : Prop where
  grown : Grown s.ga.attrs t.ga.attrs m
  ga : t.ga = { s.ga with population := s.ga.population ++ List.range' s.next (m * s.ga.attrs.numIndivid), attrs := t.ga.attrs }
  next : t.next = s.next + m * s.ga.attrs.numIndivid
  calls : t.calls = s.calls
  snaps : t.snaps = s.snaps
  mutLvl : t.mutLvl = s.mutLvl
  seed : t.seed = s.seed
  conds : t.conds = s.conds
  old : ∀ r ∈ s.ga.population, t.heap r = s.heap r
  new : ∀ i, i < m * s.ga.attrs.numIndivid →
    Newborn s.ga.attrs input (i % s.ga.attrs.numIndivid) (s.ga.population.length + i) (t.heap (s.next + i))

theorem forall₂_place {α β : Type} {R : α → β → Prop} {S : β → Prop} {l : List α} {gs : List β} (h1 : List.Forall₂ R l (gs.take l.length))
    (h2 : ∀ g ∈ gs.drop l.length, S g) {i : Nat} {g : β} (hg : gs[i]? = some g) :
    (∃ y, l[i]? = some y ∧ R y g) ∨ l.length ≤ i ∧ S g := by
  obtain ⟨hi, rfl⟩ := List.getElem?_eq_some_iff.mp hg
  by_cases hl : i < l.length
  · left
    refine ⟨l[i], List.getElem?_eq_getElem hl, ?_⟩
    have := (List.forall₂_iff_get.mp h1).2 i hl (by rw [List.length_take]; omega)
    simpa using this
  · right
    refine ⟨by omega, h2 _ ?_⟩
    rw [List.mem_drop_iff_getElem]
    exact ⟨i - l.length, by omega, by congr 1; omega⟩

theorem fillMore_ok {input : Option (List (List Val))} {s : St σ}
    (hp : ∀ gray gens, s.ga.attrs.spec = .binary gray gens → Prepared s.ga.attrs gray gens) (hal : ∀ r ∈ s.ga.population, r < s.next)
    (hnd : s.ga.population.Nodup) (hph : ∀ r ∈ s.ga.population, s.ga.attrs.isPhenotype = true → (s.heap r).phenotype.isSome)
    (hidx : ∀ j r, s.ga.population[j]? = some r → (s.heap r).idx = some j)
    (hlen : (input.getD []).length ≤ s.ga.attrs.numIndivid) : ∀ {m : Nat} {t : St σ} {u : Unit}, fillMore input m s = (.ok u, t) →
    Refilled s t (input.getD []) m := by
  intro m
  induction m with
  | zero =>
    intro t u h
    rw [fillMore] at h
    obtain ⟨_, rfl⟩ := pure_ok.mp h
    exact ⟨Grown.refl _, by simp, by simp, rfl, rfl, rfl, rfl, rfl, fun _ _ => rfl, fun i hi => by omega⟩
  | succ m ih =>
    intro t u h
    rw [fillMore] at h
    obtain ⟨_, t1, h1, h2⟩ := bind_ok.mp h
    have I := ih h1
    have hpop : t1.ga.population = s.ga.population ++ List.range' s.next (m * s.ga.attrs.numIndivid) := by rw [I.ga]
    have hmem : ∀ r ∈ t1.ga.population, r ∈ s.ga.population ∨ ∃ i, i < m * s.ga.attrs.numIndivid ∧ r = s.next + i := by
      intro r hr
      rw [hpop, List.mem_append] at hr
      rcases hr with hr | hr
      · exact .inl hr
      · have := List.mem_range'_1.mp hr
        exact .inr ⟨r - s.next, by omega, by omega⟩
    have hal1 : ∀ r ∈ t1.ga.population, r < t1.next := by
      intro r hr
      rw [I.next]
      rcases hmem r hr with hr | ⟨i, hi, rfl⟩
      · have := hal r hr; omega
      · omega
    have hnd1 : t1.ga.population.Nodup := by
      rw [hpop]
      refine List.Nodup.append hnd List.nodup_range' ?_
      intro r h1 h2
      have := hal r h1
      have := List.mem_range'_1.mp h2
      omega
    have hph1 : ∀ r ∈ t1.ga.population, s.ga.attrs.isPhenotype = true → (t1.heap r).phenotype.isSome := by
      intro r hr hb
      rcases hmem r hr with hr | ⟨i, hi, rfl⟩
      · rw [I.old r hr]; exact hph r hr hb
      · obtain ⟨g, p, e1, e2, _⟩ := I.new i hi
        rw [if_pos hb] at e2
        obtain ⟨q, rfl, _⟩ := e2
        rw [e1]; rfl
    have hidx1 : ∀ j r, t1.ga.population[j]? = some r → (t1.heap r).idx = some j := by
      intro j r hj
      rw [hpop] at hj
      by_cases hl : j < s.ga.population.length
      · rw [List.getElem?_append_left hl] at hj
        rw [I.old r (List.mem_of_getElem? hj)]
        exact hidx j r hj
      · rw [List.getElem?_append_right (by omega)] at hj
        obtain ⟨hi, e⟩ := List.getElem?_eq_some_iff.mp hj
        rw [List.length_range'] at hi
        rw [List.getElem_range'] at e
        obtain ⟨g, p, e1, _⟩ := I.new (j - s.ga.population.length) hi
        rw [← e, Nat.one_mul, e1]
        simp only
        congr 1
        omega
    obtain ⟨b1, b2, b3, b4, b5, b6, b7, b8, b9, gs, c1, c2, c3, c4⟩ := fillAgain_ok I.grown hp hal1 hnd1 hph1 hlen h2
    have hkeep : ∀ r ∈ t1.ga.population, t.heap r = t1.heap r := by
      intro r hr
      obtain ⟨j, hj⟩ := List.mem_iff_getElem?.mp hr
      rw [b9 j r hj, ← hidx1 j r hj]
    refine ⟨b1, ?_, by rw [b3, I.next]; ring, b4.trans I.calls, b5.trans I.snaps, b6.trans I.mutLvl, b7.trans I.seed, b8.trans I.conds, ?_, ?_⟩
    · rw [b2, I.ga, I.next]
      simp only [List.append_assoc]
      rw [List.range'_append_1, Nat.add_mul, Nat.one_mul]
    · intro r hr
      rw [hkeep r (by rw [hpop]; exact List.mem_append_left _ hr), I.old r hr]
    · intro i hi
      by_cases hm : i < m * s.ga.attrs.numIndivid
      · rw [hkeep _ (by rw [hpop]; exact List.mem_append_right _ (List.mem_range'_1.mpr ⟨by omega, by omega⟩))]
        exact I.new i hm
      · obtain ⟨k, rfl⟩ := Nat.exists_eq_add_of_le (Nat.le_of_not_lt hm)
        rw [Nat.add_mul, Nat.one_mul] at hi
        have hk : k < s.ga.attrs.numIndivid := by omega
        have hkg : gs[k]? = some gs[k] := List.getElem?_eq_getElem (by omega)
        obtain ⟨p, e1, e2⟩ := c4 k _ hkg
        rw [I.next] at e1
        refine ⟨gs[k], p, ?_, e2, ?_⟩
        · rw [← Nat.add_assoc, e1, hpop, List.length_append, List.length_range']
          congr 2
          omega
        · rw [Nat.add_comm (m * _) k, Nat.add_mul_mod_self_right, Nat.mod_eq_of_lt hk]
          exact forall₂_place c2 c3 hkg

/-- After `set_params` and `fill` the population is ready for another `fill`. -/
theorem createPopulation_more {spec : PopSpec} {n m : Nat} {input : Option (List (List Val))} {s s0 t : St σ} {u u' : Unit}
    (hc : createPopulation spec n input s = (.ok u, s0)) (h : fillMore input m s0 = (.ok u', t)) :
    Refilled s0 t (input.getD []) m ∧ s0.ga.population = List.range' s.next n ∧ s0.ga.attrs.numIndivid = n ∧ s0.ga.attrs.spec = spec ∧
      ∀ i, i < n → Newborn s0.ga.attrs (input.getD []) i i (s0.heap (s.next + i)) := by
  obtain ⟨hlen, hd, hpop, hnx, _, gs, c1, c2, c3, c4⟩ := createPopulation_ok hc
  have hnew : ∀ i, i < n → Newborn s0.ga.attrs (input.getD []) i i (s0.heap (s.next + i)) := by
    intro i hi
    have hg : gs[i]? = some gs[i] := List.getElem?_eq_getElem (by omega)
    obtain ⟨p, e1, e2⟩ := c4 i _ hg
    exact ⟨gs[i], p, e1, e2, forall₂_place c2 c3 hg⟩
  have hmem : ∀ r ∈ s0.ga.population, ∃ i, i < n ∧ r = s.next + i := by
    intro r hr
    rw [hpop] at hr
    have := List.mem_range'_1.mp hr
    exact ⟨r - s.next, by omega, by omega⟩
  refine ⟨fillMore_ok (fun gray gens hs => hd.prep gray gens (hd.spec_eq ▸ hs)) ?_ ?_ ?_ ?_ (by rw [hd.num]; exact hlen) h, hpop, hd.num, hd.spec_eq, hnew⟩
  · intro r hr
    obtain ⟨i, hi, rfl⟩ := hmem r hr
    omega
  · rw [hpop]; exact List.nodup_range'
  · intro r hr hb
    obtain ⟨i, hi, rfl⟩ := hmem r hr
    obtain ⟨g, p, e1, e2, _⟩ := hnew i hi
    rw [if_pos hb] at e2
    obtain ⟨q, rfl, _⟩ := e2
    rw [e1]; rfl
  · intro j r hj
    rw [hpop] at hj
    obtain ⟨hi, e⟩ := List.getElem?_eq_some_iff.mp hj
    rw [List.length_range'] at hi
    rw [List.getElem_range', Nat.one_mul] at e
    obtain ⟨g, p, e1, _⟩ := hnew j hi
    rw [← e, e1]

/-- C124: after `set_params` and `m + 1` calls of `fill` the population has `(m + 1) * num_individ` individuals, numbered in the order
of the list.  In each block of `num_individ` the input individuals come first and generated ones follow; all are encoded and
decoded as after one call.  The objective is not called. -/
theorem C124_appends {spec : PopSpec} {n m : Nat} {input : Option (List (List Val))} {s s0 t : St σ}
    (hc : createPopulation spec n input s = (.ok (), s0)) (h : fillMore input m s0 = (.ok (), t)) :
    t.ga.population = List.range' s.next ((m + 1) * n) ∧ t.calls = s0.calls ∧ (∀ g, decodeIndivid t.ga.attrs g = decodeIndivid s0.ga.attrs g) ∧
    ∀ i, i < (m + 1) * n → Newborn s0.ga.attrs (input.getD []) (i % n) i (t.heap (s.next + i)) := by
  obtain ⟨R, hpop, hn, hs, hnew⟩ := createPopulation_more hc h
  obtain ⟨_, hd, _, hnx, _⟩ := createPopulation_ok hc
  have hprep : ∀ gray gens, s0.ga.attrs.spec = .binary gray gens → Prepared s0.ga.attrs gray gens :=
    fun gray gens hs => hd.prep gray gens (hd.spec_eq ▸ hs)
  refine ⟨?_, R.calls, R.grown.decode hprep, ?_⟩
  · rw [R.ga]
    simp only
    rw [hpop, hn, hnx, List.range'_append_1]
    congr 1
    ring
  · intro i hi
    by_cases hlt : i < n
    · rw [R.old _ (by rw [hpop]; exact List.mem_range'_1.mpr ⟨by omega, by omega⟩), Nat.mod_eq_of_lt hlt]
      exact hnew i hlt
    · have hk := R.new (i - n) (by rw [hn]; rw [Nat.add_mul, Nat.one_mul] at hi; omega)
      rw [hpop, List.length_range', hn, hnx] at hk
      rw [show s.next + n + (i - n) = s.next + i by omega, show n + (i - n) = i by omega] at hk
      rwa [Nat.mod_eq_sub_mod (by omega)]

/-! ## Programs -/

section
variable {m : Nat} {c : Cfg} {sel : SelOp} {op : CrossOp} {mop : MutOp} {ov goal : Option ℚ} {s s' : St ℚ}

theorem Refilled.fresh {s0 t : St ℚ} {input : List (List Val)} (h : Refilled s0 t input m) (h0 : Fresh s0) : Fresh t := by
  have hpop : t.ga.population = s0.ga.population ++ List.range' s0.next (m * s0.ga.attrs.numIndivid) := by rw [h.ga]
  refine ⟨?_, ?_, ?_, ?_, ?_, ?_, ?_, ?_, ?_, ?_, ?_, h.snaps.trans h0.snaps⟩
  · intro r hr
    rw [hpop, List.mem_append] at hr
    rw [h.next]
    rcases hr with hr | hr
    · have := h0.alive r hr; omega
    · have := List.mem_range'_1.mp hr; omega
  · rw [hpop]
    refine List.Nodup.append h0.distinct List.nodup_range' ?_
    intro r h1 h2
    have := h0.alive r h1
    have := List.mem_range'_1.mp h2
    omega
  · intro r hr
    rw [hpop, List.mem_append] at hr
    rcases hr with hr | hr
    · rw [h.old r hr]; exact h0.unscored r hr
    · have := List.mem_range'_1.mp hr
      obtain ⟨g, p, e, _⟩ := h.new (r - s0.next) (by omega)
      rw [show s0.next + (r - s0.next) = r by omega] at e
      rw [e]
  · rw [h.grown.same]; exact h0.unsorted
  · rw [h.ga]; exact h0.best
  · rw [h.ga]; exact h0.noImprove
  · rw [h.ga]; exact h0.idx
  · rw [h.ga]; exact h0.histBest
  · rw [h.ga]; exact h0.histMed
  · rw [h.ga]; exact h0.histWorst
  · rw [h.ga]; exact h0.histFronts

/-- A program with `m + 1` calls of `fill` is a run from the state these leave. -/
theorem advancedFilled_run {spec : PopSpec} (h : advancedFilledGA m c spec sel op mop ov goal s = (.ok (), s')) :
    ∃ fit tr l s1 s0 t k, checkMutation mop c.mutationLvl = .ok l ∧ createPopulation spec c.numIndivid c.input s1 = (.ok (), s0) ∧
      s0.ga.attrs.arith = c.arith ∧ s0.ga.childrenPercent = c.childrenPercent ∧ t.mutLvl = l.stored c.arith ∧ fillMore c.input m s0 = (.ok (), t) ∧ Refilled s0 t (c.input.getD []) m ∧ Fresh t ∧
      After (singleOps fit sel op mop tr) t k s' ∧ (0 < c.numGenerations → 2 ≤ k) := by
  unfold advancedFilledGA advancedFilled at h
  obtain ⟨fit, sa, h1, h2⟩ := bind_ok.mp h
  obtain ⟨l, sb, h3, h4⟩ := bind_ok.mp h2
  obtain ⟨hl, rfl⟩ := liftE_ok.mp h3
  rw [bind_of_ok (modifyS_run _ _)] at h4
  obtain ⟨tr, sc, h5, h6⟩ := bind_ok.mp h4
  obtain ⟨_, rfl⟩ := liftE_ok.mp h5
  obtain ⟨_, s0, h7, h8⟩ := bind_ok.mp h6
  obtain ⟨_, t, h9, h10⟩ := bind_ok.mp h8
  obtain ⟨_, s4, h11, h12⟩ := bind_ok.mp h10
  obtain ⟨_, s5, h13, h14⟩ := bind_ok.mp h12
  rw [bind_of_ok (getGa_run s5)] at h14
  obtain ⟨_, s6, h15, h16⟩ := bind_ok.mp h14
  have hst := collectorSetPopulation_ok h7
  obtain ⟨s1, hc⟩ := hst.created
  obtain ⟨R, _⟩ := createPopulation_more hc h9
  have ha : After (singleOps fit sel op mop tr) t 1 s5 := .first h11 h13
  obtain ⟨k, k1, _, hk, k2, _⟩ := advancedLoop_after ha h15
  have hs6 : s6 = s' := by
    rw [ite_run] at h16
    split at h16
    · exact (printBest_state h16).symm
    · exact (pure_ok.mp h16).2.symm
  subst hs6
  have hg : s5.ga.numGenerations = c.numGenerations := by
    obtain ⟨⟨q, _⟩, _⟩ := ha.keeps sameSetup_frame (singleOps_frame sameSetup_frame fit sel op mop tr)
    rw [q, R.ga]
    exact hst.gens
  exact ⟨fit, tr, l, s1, s0, t, k, hl, hc, hst.arith, hst.percent, by rw [R.mutLvl, collectorSetPopulation_mutLvl h7], h9, R, R.fresh hst.fresh, hk,
    fun hp => k2 (by rw [hg]; exact hp)⟩

/-- The level of bit mutation from the second generation on. -/
theorem named_level {t : St ℚ} {fit : Fit ℚ} {tr : Transfer} {w : String} {at_ : Attrs} {P : List Val → Prop} (h0 : Fresh t)
    (hat : t.ga.attrs = at_) (hcl : ClosedGeno op .binString t.ga.attrs.spec P)
    (hfirst : ∀ r ∈ t.ga.population, WellFormed P t.ga.attrs (t.heap r)) (hw : w = "weak" ∨ w = "normal" ∨ w = "strong")
    (hl : t.mutLvl = .str w) (har : at_.arith = .exact) {k : Nat} {s : St ℚ}
    (h : After (singleOps fit sel op .binString tr) t k s) :
    (k = 1 → s.mutLvl = .str w) ∧ (2 ≤ k → 0 < at_.idxBits.getLastD 0 ∧ s.mutLvl = .float (wordBits w / (at_.idxBits.getLastD 0 : Nat))) := by
  have hops := singleOps_run fit sel op .binString tr
  induction h with
  | @first s1 s a b =>
    obtain ⟨_, _, _, _, _, hS, _⟩ := first_inv hops.fitness h0 a b
    refine ⟨fun _ => ?_, fun hc => by omega⟩
    rw [gaUpdate_mutLvl b, hS.shape]
    exact hl
  | @next k s s' a b ih =>
    have hinv := a.inv hops h0
    obtain ⟨s1, s2, s3, es, t, hB, _, _, e2, _, _, _, _, hF, hup, hng⟩ := generation_ok hops hinv.settled b
    have hl : s'.mutLvl = s1.mutLvl := by
      rw [gaUpdate_mutLvl hup, hF.shape, e2]
    have hk := a.pos
    refine ⟨fun hc => by omega, fun _ => ?_⟩
    obtain ⟨hat', _⟩ := genotypes_invariant h0 hcl hfirst a
    have hu := hB.lvl.2 rfl
    rw [hat', hat] at hu
    simp only [har] at hu
    by_cases h1 : k = 1
    · rw [ih.1 h1] at hu
      obtain ⟨q1, q2⟩ := updateMutLvl_word hw hu
      exact ⟨q1, by rw [hl, q2]⟩
    · obtain ⟨q1, q2⟩ := ih.2 (by omega)
      rw [q2] at hu
      exact ⟨q1, by rw [hl, updateMutLvl_number hu]⟩

/-- C124: in a program with `m + 1` calls of `fill`, bit mutation at a named level changes the `(m + 1)`-th part of the number of bits
the word stands for, in every generation: `idx_bits[-1]` is `m + 1` times the length `L` of the genotypes, which stays as it is. -/
theorem C124_level {gray : Bool} {gens : List BinGene} {w : String} (hw : w = "weak" ∨ w = "normal" ∨ w = "strong")
    (hop : Positional op) (hlvl : c.mutationLvl = .str w) (har : c.arith = .exact) (hgen : 0 < c.numGenerations)
    (h : advancedFilledGA m c (.binary gray gens) sel op .binString ov goal s = (.ok (), s')) :
    ∃ L : Nat, 0 < L ∧ s'.mutLvl = .float (wordBits w / ((m + 1) * L)) ∧
      (∀ r ∈ s'.ga.population, ∃ g, (s'.heap r).genotype = some g ∧ IsBits g ∧ g.length = L) ∧
      ∀ g : List Val, IsBits g → g.length = L → wordBits w ≤ (m + 1) * L →
        wordBits w / (m + 1) ≤ mean 1000 L (bitsChanged s'.mutLvl g) ∧
        mean 1000 L (bitsChanged s'.mutLvl g) ≤ wordBits w / (m + 1) + L / 1000 := by
  obtain ⟨fit, tr, l, s1, s0, t, k, hl, hc, hx, _, ht, hfm, R, hf, ha, hk⟩ := advancedFilled_run h
  have hl' : l = .str w := by
    rw [hlvl] at hl
    unfold checkMutation at hl
    simp only at hl
    rw [if_pos hw] at hl
    injection hl with hl
    exact hl.symm
  have hd := (createPopulation_ok hc).2.1
  have hprep := hd.prep gray gens rfl
  have hph : s0.ga.attrs.isPhenotype = true := hd.phen.mpr ⟨gray, gens, rfl⟩
  have hspec : t.ga.attrs.spec = .binary gray gens := by rw [R.grown.same]; exact hd.spec_eq
  have hdec := R.grown.decode fun gr ge hs => by
    obtain ⟨rfl, rfl⟩ := PopSpec.binary.inj (hd.spec_eq.symm.trans hs)
    exact hprep
  obtain ⟨q1, _, q3, q4⟩ := C124_appends hc hfm
  have hfirst : ∀ r ∈ t.ga.population, WellFormed (fun g => IsBits g ∧ g.length = s0.ga.attrs.idxBits.getLastD 0) t.ga.attrs (t.heap r) := by
    intro r hr
    rw [q1] at hr
    have := List.mem_range'_1.mp hr
    obtain ⟨g, p, e1, e2, e3⟩ := q4 (r - s1.next) (by omega)
    rw [show s1.next + (r - s1.next) = r by omega] at e1
    rw [if_pos hph] at e2
    obtain ⟨q, rfl, e4⟩ := e2
    rw [e1]
    refine ⟨g, rfl, ?_, fun _ => ⟨q, rfl, by rw [q3]; exact e4⟩⟩
    rw [hprep.total]
    rcases e3 with ⟨y, _, e⟩ | ⟨_, e⟩
    · exact adopt_shape hprep e
    · unfold GenShape at e
      rw [hd.spec_eq] at e
      exact e
  have hcl := bits_closed_all hop .binString gray gens (s0.ga.attrs.idxBits.getLastD 0)
  rw [← hspec] at hcl
  have hlast := R.grown.last gray gens hd.spec_eq
  obtain ⟨_, hlv⟩ := named_level hf rfl hcl hfirst hw (by rw [ht, hl']; rfl) (by rw [R.grown.same]; exact hx.trans har) ha
  obtain ⟨hpos, hlv⟩ := hlv (hk hgen)
  obtain ⟨_, hgood⟩ := genotypes_invariant hf hcl hfirst ha
  rw [hlast] at hpos hlv
  generalize s0.ga.attrs.idxBits.getLastD 0 = L at *
  have hL : 0 < L := Nat.pos_of_mul_pos_left hpos
  push_cast at hlv
  refine ⟨L, hL, hlv, ?_, ?_⟩
  · intro r hr
    obtain ⟨g, e, e1, _⟩ := hgood r hr
    exact ⟨g, e, e1⟩
  · intro g hg hgl hle
    have hLq : (0 : ℚ) < L := by exact_mod_cast hL
    have hm : (0 : ℚ) < (m + 1) * L := by positivity
    have hw0 : 0 ≤ wordBits w := by unfold wordBits; split <;> [norm_num; split <;> norm_num]
    have := C117_mean_bounds (q := wordBits w / ((m + 1) * L)) (by positivity) ((div_le_one hm).mpr hle) hg
    rw [hgl, show (L : ℚ) * (wordBits w / ((m + 1) * L)) = wordBits w / (m + 1) by field_simp] at this
    rw [hlv]
    exact this

/-- A run that starts with at least `num_individ` individuals has `num_individ + 1` from the second generation on. -/
theorem size_after {s0 : St ℚ} {fit : Fit ℚ} {tr : Transfer} (h0 : Fresh s0) {n N c k : Nat} (hn : s0.ga.attrs.numIndivid = n)
    (hpop : s0.ga.population.length = N) (hN : n ≤ N) (h1 : s0.ga.attrs.arith.share s0.ga.childrenPercent n 1 = c) (hc : 1 ≤ c) (hcn : c ≤ n)
    {s : St ℚ} (h : After (singleOps fit sel op mop tr) s0 k s) :
    s.ga.population.length = if k = 1 then N else n + 1 := by
  have hops := singleOps_run fit sel op mop tr
  have key : s.ga.population.length = (if k = 1 then N else n + 1) ∧
      s.ga.attrs.numIndivid = n ∧ s.ga.childrenPercent = s0.ga.childrenPercent ∧
      s.ga.attrs.arith = s0.ga.attrs.arith := by
    induction h with
    | @first s1 s a b =>
      obtain ⟨_, hperm, _, hat, _⟩ := first_inv hops.fitness h0 a b
      obtain ⟨⟨_, hcp, _⟩, _⟩ := (After.first a b).keeps sameSetup_frame (singleOps_keep fit sel op mop tr)
      refine ⟨by rw [if_pos rfl, hperm.length_eq, hpop], by rw [hat]; exact hn, hcp, by rw [hat]⟩
    | @next k s s' a b ih =>
      obtain ⟨i1, i2, i3, i4⟩ := ih
      obtain ⟨_, s1, s2, s3, es, t, hB, hlen, hel, e2, e3, e4, _, _, hF, hup, hperm, _, hat, _⟩ :=
        generation_inv hops (a.inv hops h0) b
      obtain ⟨⟨_, hcp, _⟩, _⟩ := (After.next a b).keeps sameSetup_frame (singleOps_keep fit sel op mop tr)
      have hk := a.pos
      have hnum1 : s1.ga.attrs.numIndivid = n := by rw [hB.ga]; exact i2
      rw [numPairs_share, i2, i3, i4, h1] at hlen
      rw [hnum1, hlen] at e3 e4
      rw [if_neg (by omega), hperm.length_eq, List.length_append, hlen]
      refine ⟨?_, by rw [hat]; exact i2, hcp, by rw [hat]; exact i4⟩
      have hpl : n - c < s.ga.population.length := by
        rw [i1]
        split <;> omega
      rw [e4 hpl]
      omega
  exact key.1

/-- C124: the surplus of individuals is gone after the first generation: with at least one and at most `num_individ` children per
generation, the recorded populations have `(m + 1) * num_individ`, then `num_individ + 1` members. -/
theorem C124_size {spec : PopSpec} (hc1 : 1 ≤ c.children) (hc2 : c.children ≤ c.numIndivid)
    (h : advancedFilledGA m c spec sel op mop ov goal s = (.ok (), s')) :
    ∀ i l, (generationsOf s')[i]? = some l → l.length = if i = 0 then (m + 1) * c.numIndivid else c.numIndivid + 1 := by
  obtain ⟨fit, tr, l, s1, s0, t, k, _, hc, hx, hcp, _, hfm, R, hf, ha, _⟩ := advancedFilled_run h
  have hops := singleOps_run fit sel op mop tr
  obtain ⟨q1, _⟩ := C124_appends hc hfm
  have hd := (createPopulation_ok hc).2.1
  have hat : t.ga.attrs.numIndivid = c.numIndivid ∧ t.ga.attrs.arith = c.arith := by
    rw [R.grown.same]; exact ⟨hd.num, hx⟩
  have hcp' : t.ga.childrenPercent = c.childrenPercent := by rw [R.ga]; exact hcp
  intro i l hi
  have hik : i < k := by
    rw [← (ha.inv hops hf).hist.snaps]
    exact (List.getElem?_eq_some_iff.mp hi).1
  obtain ⟨si, a1, a2⟩ := ha.earlier hops hf i hik
  have e : l = si.ga.population.map si.heap := Option.some.inj (hi.symm.trans a2)
  have := size_after hf hat.1 (N := (m + 1) * c.numIndivid) (by rw [q1, List.length_range']) (Nat.le_mul_of_pos_left _ (by omega))
    (by rw [hat.2, hcp']; rfl) hc1 hc2 a1
  rw [e, List.length_map, this]
  by_cases h0 : i = 0
  · rw [if_pos (by omega), if_pos h0]
  · rw [if_neg (by omega), if_neg h0]

/-- C124, the full claim one would like: with more calls of `fill` bit mutation keeps its word. -/
def FilledKeepsWord : Prop :=
  ∀ (m : Nat) (c : Cfg) (gray : Bool) (gens : List BinGene) (sel : SelOp) (op : CrossOp) (ov goal : Option ℚ) (s s' : St ℚ) (w : String),
    (w = "weak" ∨ w = "normal" ∨ w = "strong") → Positional op → c.mutationLvl = .str w → c.arith = .exact → 0 < c.numGenerations →
    advancedFilledGA m c (.binary gray gens) sel op .binString ov goal s = (.ok (), s') →
    ∀ r ∈ s'.ga.population, ∀ g, (s'.heap r).genotype = some g → wordBits w ≤ g.length → KeepsWord w s'.mutLvl g

/-- C124: with two or more calls of `fill` and genotypes of fewer than `500 c` bits, where `c` is the number of bits the word stands
for, bit mutation does not keep its word in any program. -/
theorem C124_word_broken {gray : Bool} {gens : List BinGene} {w : String} (hw : w = "weak" ∨ w = "normal" ∨ w = "strong")
    (hop : Positional op) (hlvl : c.mutationLvl = .str w) (har : c.arith = .exact) (hgen : 0 < c.numGenerations) (hm : 1 ≤ m)
    (h : advancedFilledGA m c (.binary gray gens) sel op .binString ov goal s = (.ok (), s')) :
    ∀ r ∈ s'.ga.population, ∃ g, (s'.heap r).genotype = some g ∧
      (wordBits w ≤ g.length → (g.length : ℚ) < 500 * wordBits w → ¬ KeepsWord w s'.mutLvl g) := by
  obtain ⟨L, hL, _, hgood, hmean⟩ := C124_level hw hop hlvl har hgen h
  intro r hr
  obtain ⟨g, e, hb, hl⟩ := hgood r hr
  refine ⟨g, e, fun h1 h2 hk => ?_⟩
  rw [hl] at h1 h2
  have hmq : (1 : ℚ) ≤ m := by exact_mod_cast hm
  have hLq : (0 : ℚ) < L := by exact_mod_cast hL
  have hw0 : 0 < wordBits w := by unfold wordBits; split <;> [norm_num; split <;> norm_num]
  obtain ⟨_, b⟩ := hmean g hb hl (h1.trans (by nlinarith))
  have a := hk.1
  rw [hl] at a
  have : wordBits w / (m + 1) ≤ wordBits w / 2 := div_le_div_of_nonneg_left hw0.le (by norm_num) (by linarith)
  linarith

end

/-! ## A program with two calls -/

def exFillCfg : Cfg := { exReadmeCfg with mutationLvl := .str "normal", numGenerations := 1, input := some [[.num 3, .num (-1)]] }

def exFillGens : List BinGene := [⟨0, 3, 1⟩, ⟨-1, 1, 1 / 2⟩]

def exFill : Except PyErr Unit × St ℚ :=
  advancedFilledGA 1 exFillCfg (.binary true exFillGens) (.tournament 2) .onePoint .binString (some 12) none exHand

set_option maxRecDepth 100000 in
/-- Four individuals asked for: eight, then five; genotypes of five bits, mutated at the level 1/10 instead of 1/5. -/
theorem exFill_values : exFill.1 = .ok () ∧ exFill.2.snaps.map List.length = [8, 5] ∧ exFill.2.mutLvl = .float (1 / 10) ∧
    exFill.2.ga.population.map (fun r => (exFill.2.heap r).genotype.map List.length) = [some 5, some 5, some 5, some 5, some 5] := by
  decide +kernel

theorem exFill_run : advancedFilledGA 1 exFillCfg (.binary true exFillGens) (.tournament 2) .onePoint .binString (some 12) none exHand =
    (.ok (), exFill.2) := of_ok exFill_values.1

theorem C124_word_refuted : ¬ FilledKeepsWord := by
  intro h
  have h1 := h 1 exFillCfg true exFillGens _ _ _ _ _ _ "normal" (by decide) (.inl rfl) rfl rfl (by decide) exFill_run
  have h2 := C124_word_broken (w := "normal") (by decide) (.inl rfl) (by rfl) (by rfl) (by decide) (by decide) exFill_run
  obtain ⟨r, hr⟩ : ∃ r, r ∈ exFill.2.ga.population := by
    have := exFill_values.2.2.2
    cases hp : exFill.2.ga.population with
    | nil => rw [hp] at this; simp at this
    | cons x xs => exact ⟨x, by simp⟩
  obtain ⟨g, e, hk⟩ := h2 r hr
  have hl : g.length = 5 := by
    have := exFill_values.2.2.2
    have hm := List.mem_map_of_mem (f := fun r => (exFill.2.heap r).genotype.map List.length) hr
    rw [this] at hm
    simp only [e, Option.map_some] at hm
    simpa using hm
  exact hk (by rw [wordBits_normal, hl]; norm_num) (by rw [wordBits_normal, hl]; norm_num) (h1 r hr g e (by rw [wordBits_normal, hl]; norm_num))

set_option maxRecDepth 100000 in
/-- Both calls adopt the input individual (3, -1). -/
example : 2 ≤ ((exFill.2.snaps.headD []).filter fun x => x.phenotype = some [.num 3, .num (-1)]).length := by decide +kernel

end BaumEva
