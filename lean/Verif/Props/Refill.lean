import Verif.Model.Refill
import Verif.Props.Population
import Verif.Props.Run
import Verif.Props.Advanced
/-!
# C115: population objects are for one use
-/
namespace BaumEva
open Spec
variable {σ : Type}

/-- What `fill` does to a population that has individuals already. -/
theorem fill_more {input : Option (List (List Val))} {s s' : St σ} {u : Unit} (hal : ∀ r ∈ s.ga.population, r < s.next)
    (hnd : s.ga.population.Nodup) (hlen : (input.getD []).length ≤ s.ga.attrs.numIndivid) (h : fill input s = (.ok u, s')) :
    (s'.ga.attrs.spec = s.ga.attrs.spec ∧ s'.ga.attrs.numIndivid = s.ga.attrs.numIndivid ∧
      s'.ga.attrs.isPhenotype = s.ga.attrs.isPhenotype ∧ s'.ga.attrs.isSorted = s.ga.attrs.isSorted ∧
      ∀ gray gens, s'.ga.attrs.spec = .binary gray gens → Prepared s'.ga.attrs gray gens) ∧
    s'.ga = { s.ga with population := s.ga.population ++ List.range' s.next s.ga.attrs.numIndivid, attrs := s'.ga.attrs } ∧
    s'.next = s.next + s.ga.attrs.numIndivid ∧ s'.calls = s.calls ∧
    (∀ j r, s.ga.population[j]? = some r → ∃ p, s'.heap r = { s.heap r with phenotype := p, idx := some j } ∧
      ((s.heap r).phenotype.isSome ∨ s.ga.attrs.isPhenotype = false → p = (s.heap r).phenotype)) ∧
    ∃ gs : List (List Val), gs.length = s.ga.attrs.numIndivid ∧
      List.Forall₂ (fun x g => adopt s'.ga.attrs x = .ok g) (input.getD []) (gs.take (input.getD []).length) ∧
      (∀ g ∈ gs.drop (input.getD []).length, GenShape s'.ga.attrs g) ∧
      ∀ i g, gs[i]? = some g → ∃ p,
        s'.heap (s.next + i) = { genotype := some g, phenotype := p, idx := some (s.ga.population.length + i) } ∧
        (if s'.ga.attrs.isPhenotype then ∃ q, p = some q ∧ decodeIndivid s'.ga.attrs g = .ok q else p = none) := by
  unfold fill at h
  obtain ⟨_, s2, h3, h4⟩ := bind_ok.mp h
  obtain ⟨at_, rfl, a1, a2, a3, a5, a4⟩ := prepare_ok h3
  rw [bind_of_ok (getGa_run _)] at h4
  obtain ⟨_, s3, h5, h6⟩ := bind_ok.mp h4
  obtain ⟨_, s4, h7, h8⟩ := bind_ok.mp h6
  have h8' : ∃ s5, (if at_.isPhenotype then getPhenotype s4 else (.ok (), s4)) = (.ok (), s5) ∧
      resetIdx s5 = (.ok u, s') := by
    simp only at h8
    rw [ite_run] at h8
    split at h8
    · rename_i hph
      obtain ⟨_, s5, e1, e2⟩ := bind_ok.mp h8
      exact ⟨s5, by rw [if_pos hph]; exact e1, e2⟩
    · rename_i hph
      exact ⟨s4, by rw [if_neg hph], h8⟩
  obtain ⟨s5, h9, h10⟩ := h8'
  clear h h3 h4 h6 h8
  generalize hn : s.ga.attrs.numIndivid = n at *
  simp only at h5 h7
  obtain ⟨g1, ap1, f1⟩ := appendLoop (P := fun x g => adopt at_ x = .ok g)
    (m := fun x => liftE (adopt at_ x))
    (fun x s s' g h => by obtain ⟨e, rfl⟩ := liftE_ok.mp h; exact ⟨Drew.refl _, e⟩) h5
  obtain ⟨g2, ap2, f2⟩ := appendLoop (P := fun _ g => GenShape at_ g)
    (m := fun _ => generate at_) (fun x s s' g h => generate_ok h) h7
  have ap := ap1.trans ap2
  have hl1 : g1.length = (input.getD []).length := f1.length_eq.symm
  have hl2 : g2.length = n - (input.getD []).length := by
    rw [← f2.length_eq, List.length_range, a2]
  have hl : (g1 ++ g2).length = n := by rw [List.length_append, hl1, hl2]; omega
  have hpop : s4.ga.population = s.ga.population ++ List.range' s.next n := by
    rw [ap.pop, hl]
  have hatt : s4.ga.attrs = at_ := by rw [ap.pop]
  have hph : SameBut s4 s5 ∧
      (∀ r ∈ s.ga.population, ∃ p, s5.heap r = { s.heap r with phenotype := p } ∧
        ((s.heap r).phenotype.isSome ∨ s.ga.attrs.isPhenotype = false → p = (s.heap r).phenotype)) ∧
      ∀ i g, (g1 ++ g2)[i]? = some g → ∃ p, s5.heap (s.next + i) = { genotype := some g, phenotype := p } ∧
        (if at_.isPhenotype then ∃ q, p = some q ∧ decodeIndivid at_ g = .ok q else p = none) := by
    split at h9
    · rename_i hph
      obtain ⟨b1, b2, b3⟩ := getPhenotype_ok h9
      refine ⟨b1, ?_, ?_⟩
      · intro r hr
        have hb := b2 r (by rw [hpop]; exact List.mem_append_left _ hr)
        have ho : s4.heap r = s.heap r := ap.old r (hal r hr)
        rw [ho] at hb
        rcases hb with ⟨_, e⟩ | ⟨c, g', p, e1, e2, e3⟩
        · exact ⟨(s.heap r).phenotype, e, fun _ => rfl⟩
        · refine ⟨some p, e3, fun hc => ?_⟩
          rcases hc with hc | hc
          · rw [c] at hc; simp at hc
          · rw [a3, hc] at hph; simp at hph
      · intro i g hg
        have hi : i < n := by rw [← hl]; exact (List.getElem?_eq_some_iff.mp hg).1
        have hmem : s.next + i ∈ s4.ga.population := by
          rw [hpop]; exact List.mem_append_right _ (List.mem_range'_1.mpr ⟨by omega, by omega⟩)
        have hnew := ap.new i g hg
        simp only at hnew
        have := b2 _ hmem
        rw [hnew, hatt] at this
        rcases this with ⟨c, _⟩ | ⟨_, g', p, e1, e2, e3⟩
        · simp at c
        · simp only [Option.some.injEq] at e1
          subst e1
          exact ⟨some p, e3, by rw [if_pos hph]; exact ⟨p, rfl, e2⟩⟩
    · rename_i hph
      simp only [Prod.mk.injEq, true_and] at h9
      subst h9
      refine ⟨SameBut.refl _, ?_, ?_⟩
      · intro r hr
        exact ⟨(s.heap r).phenotype, ap.old r (hal r hr), fun _ => rfl⟩
      · intro i g hg
        exact ⟨none, ap.new i g hg, by rw [if_neg hph]⟩
  obtain ⟨sb5, old5, new5⟩ := hph
  obtain ⟨s6, r1, r2, r3, r4, r5⟩ := resetIdx_run s5
  rw [r1] at h10
  simp only [Prod.mk.injEq, true_and] at h10
  subst h10
  have sb : SameBut s4 s6 := sb5.trans r2
  have hga : s6.ga = s4.ga := sb.ga
  have hpop5 : s5.ga.population = s.ga.population ++ List.range' s.next n := by rw [sb5.ga, hpop]
  have hnd5 : s5.ga.population.Nodup := by
    rw [hpop5]
    refine List.Nodup.append hnd List.nodup_range' ?_
    intro r h1 h2
    have := hal r h1
    have := List.mem_range'_1.mp h2
    omega
  refine ⟨⟨by rw [hga, hatt, a1], by rw [hga, hatt, a2], by rw [hga, hatt, a3], by rw [hga, hatt, a5], by rw [hga, hatt]; exact a4⟩, ?_,
    by rw [sb.next, ap.next, hl], by rw [sb.calls, ap.calls], ?_, g1 ++ g2, hl, ?_, ?_, ?_⟩
  · rw [hga, ap.pop, hl]
  · intro j r hj
    obtain ⟨p, e1, e2⟩ := old5 r (List.mem_of_getElem? hj)
    refine ⟨p, ?_, e2⟩
    have hget : s5.ga.population[j]? = some r := by
      rw [hpop5, List.getElem?_append_left (List.getElem?_eq_some_iff.mp hj).1]; exact hj
    rw [r5 hnd5 j _ hget, e1]
  · rw [hga, hatt, ← hl1, List.take_left]; exact f1
  · rw [hga, hatt, ← hl1, List.drop_left]
    intro g hg
    obtain ⟨i, hi, rfl⟩ := List.getElem_of_mem hg
    exact (List.forall₂_iff_get.mp f2).2 i (by rw [f2.length_eq]; exact hi) hi
  · intro i g hg
    have hi : i < n := by rw [← hl]; exact (List.getElem?_eq_some_iff.mp hg).1
    obtain ⟨p, e1, e2⟩ := new5 i g hg
    refine ⟨p, ?_, by rw [hga, hatt]; exact e2⟩
    have hget : s5.ga.population[s.ga.population.length + i]? = some (s.next + i) := by
      rw [hpop5, List.getElem?_append_right (by omega), Nat.add_sub_cancel_left, List.getElem?_range' hi]; simp
    rw [r5 hnd5 _ _ hget, e1]

theorem refill_ok {spec : PopSpec} {n : Nat} {input : Option (List (List Val))} {s s' : St σ} {u : Unit}
    (h : refill spec n input s = (.ok u, s')) : (input.getD []).length ≤ n ∧
      fill input { s with ga := { s.ga with
        attrs := { s.ga.attrs with numIndivid := n, spec := spec, isPhenotype := spec.hasPhenotype, params := [], idxBits := [0] } } } =
          (.ok u, s') := by
  unfold refill setParamsAgain at h
  obtain ⟨_, s1, h1, h2⟩ := bind_ok.mp h
  rw [ite_run] at h1
  split at h1
  · cases (throwE_ok.mp h1)
  · rename_i hlen
    rw [modGa_run] at h1
    obtain rfl := (Prod.mk.inj h1).2
    exact ⟨by omega, h2⟩

/-- C115: `set_params` and `fill` on a population object in use append `num_individ` individuals to its list.  The individuals in
the list keep genotype, score, objective value and feasibility; only their numbers change.  The new ones are well-formed. -/
theorem C115_appends {spec : PopSpec} {n : Nat} {input : Option (List (List Val))} {s s' : St σ}
    (hal : ∀ r ∈ s.ga.population, r < s.next) (hnd : s.ga.population.Nodup) (h : refill spec n input s = (.ok (), s')) :
    s'.ga.population = s.ga.population ++ List.range' s.next n ∧ s'.ga.attrs.isSorted = s.ga.attrs.isSorted ∧ s'.calls = s.calls ∧
    (∀ j r, s.ga.population[j]? = some r → (s'.heap r).genotype = (s.heap r).genotype ∧ (s'.heap r).score = (s.heap r).score ∧
      (s'.heap r).objScore = (s.heap r).objScore ∧ (s'.heap r).feasible = (s.heap r).feasible ∧ (s'.heap r).idx = some j) ∧
    ∀ i, i < n → ∃ g, (s'.heap (s.next + i)).genotype = some g ∧ (s'.heap (s.next + i)).score = none ∧
      (s'.heap (s.next + i)).idx = some (s.ga.population.length + i) ∧
      ((∃ x, (input.getD [])[i]? = some x ∧ adopt s'.ga.attrs x = .ok g) ∨ (input.getD []).length ≤ i ∧ GenShape s'.ga.attrs g) := by
  obtain ⟨hlen, hf⟩ := refill_ok h
  obtain ⟨⟨_, _, _, a4, _⟩, b1, b2, b3, b4, gs, c1, c2, c3, c4⟩ := fill_more (by exact hal) (by exact hnd) (by exact hlen) hf
  refine ⟨by rw [b1], a4, b3, ?_, ?_⟩
  · intro j r hj
    obtain ⟨p, e, _⟩ := b4 j r hj
    rw [e]
    exact ⟨rfl, rfl, rfl, rfl, rfl⟩
  · intro i hi
    simp only at c1 c4
    have hig : i < gs.length := by omega
    obtain ⟨p, e, _⟩ := c4 i gs[i] (List.getElem?_eq_getElem hig)
    rw [e]
    refine ⟨gs[i], rfl, rfl, rfl, ?_⟩
    by_cases hi2 : i < (input.getD []).length
    · left
      refine ⟨(input.getD [])[i], List.getElem?_eq_getElem hi2, ?_⟩
      have := (List.forall₂_iff_get.mp c2).2 i hi2 (by rw [List.length_take]; omega)
      simpa using this
    · right
      refine ⟨by omega, c3 _ ?_⟩
      rw [List.mem_drop_iff_getElem]
      exact ⟨i - (input.getD []).length, by omega, by congr 1; omega⟩

/-! ## the first evaluation after that -/

section
variable {c : Cfg} {spec : PopSpec} {old : List Nat} {fit : Fit ℚ} {sel : SelOp} {op : CrossOp} {mop : MutOp} {tr : Transfer} {s s' : St ℚ}

theorem reuse_ok (hal : ∀ r ∈ old, r < s.next) (hnd : old.Nodup) (h : reuse c spec old (singleOps fit sel op mop tr) s = (.ok (), s')) :
    ∃ b r v, s'.ga.population.Perm (old ++ List.range' s.next c.numIndivid) ∧
      (s.ga.attrs.isSorted = true → s'.ga.population = old ++ List.range' s.next c.numIndivid) ∧
      (s.ga.attrs.isSorted = false → ∀ x ∈ s'.ga.population, ∃ w, (s'.heap x).score = some w ∧ w ≤ v) ∧
      s'.ga.population.getLast? = some r ∧ s'.ga.best = some (.single b 0) ∧ s'.heap b = s'.heap r ∧ (s'.heap r).score = some v ∧
      s'.ga.histBest = [v] ∧ s'.ga.idxGeneration = 1 ∧
      (∀ q ∈ old, (s.heap q).score.isSome → (s'.heap q).genotype = (s.heap q).genotype ∧ (s'.heap q).score = (s.heap q).score) := by
  unfold reuse at h
  rw [bind_of_ok (modifyS_run _ _)] at h
  obtain ⟨_, s1, h1, h2⟩ := bind_ok.mp h
  obtain ⟨_, s2, h3, h4⟩ := bind_ok.mp h2
  obtain ⟨p1, p2, _, p4, _⟩ := C115_appends (by exact hal) (by exact hnd) h1
  obtain ⟨_, hf⟩ := refill_ok h1
  obtain ⟨_, b1, b2, _⟩ := fill_more (by exact hal) (by exact hnd) (by exact (refill_ok h1).1) hf
  simp only at p1 p2 p4 b1 b2
  have hnd1 : s1.ga.population.Nodup := by
    rw [p1]
    refine List.Nodup.append hnd List.nodup_range' ?_
    intro r h1 h2
    have := hal r h1
    have := List.mem_range'_1.mp h2
    omega
  have hal1 : ∀ r ∈ s1.ga.population, r < s1.next := by
    intro r hr
    rw [p1, List.mem_append] at hr
    rw [b2]
    rcases hr with hr | hr
    · have := hal r hr; omega
    · have := List.mem_range'_1.mp hr; omega
  change baseFitnessExec fit s1 = _ at h3
  change gaUpdate s2 = _ at h4
  obtain ⟨f1, _, _, f4, _⟩ := baseFitness_ok h3 (hnd1.filter _)
  have hga : s2.ga = s1.ga := by rw [show s2 = _ from f1]
  have hnx : s2.next = s1.next := by rw [show s2 = _ from f1]
  obtain ⟨pop, rb, rm, rw', b, m, w, u1, u2, u3, u4, _, _, u7, _, _, s3, hd, rfl⟩ := gaUpdate_ok h4
  have hbn : s2.ga.best = none := by rw [hga, b1]
  have hh : s2.ga.histBest = [] := by rw [hga, b1]
  have hi : s2.ga.idxGeneration = 0 := by rw [hga, b1]
  have halp : ∀ r ∈ pop, r < s2.next := by
    intro r hr
    have := u1.subset hr
    rw [hga] at this
    rw [hnx]
    exact hal1 r this
  have hrb : rb < s2.next := halp rb (List.mem_of_getLast? u4)
  cases hd with
  | first _ =>
    simp only
    have hout : ∀ r, r < s2.next → upd s2.heap s2.next (s2.heap rb) r = s2.heap r := by
      intro r hr
      unfold upd
      rw [if_neg (by omega)]
    refine ⟨s2.next, rb, b, ?_, ?_, ?_, u4, by rw [hi], ?_, ?_, by rw [hh]; rfl, by rw [hi], ?_⟩
    · rw [← p1, ← hga]; exact u1
    · intro hs
      rw [u2 (by rw [hga, p2, hs]), hga, p1]
    · intro hs x hx
      have ha := (u3 (by rw [hga, p2, hs])).ascending
      obtain ⟨w, hw⟩ := Option.isSome_iff_exists.mp (ha.1 x hx)
      rw [hout x (halp x hx)]
      exact ⟨w, hw, ha.last u4 hx hw u7⟩
    · rw [hout rb hrb]
      unfold upd
      rw [if_pos rfl]
    · rw [hout rb hrb]; exact u7
    · intro q hq hsc
      obtain ⟨j, hj⟩ := List.mem_iff_getElem?.mp hq
      obtain ⟨e1, e2, _⟩ := p4 j q hj
      have hq1 : q ∈ s1.ga.population := by rw [p1]; exact List.mem_append_left _ hq
      have := f4 q hq1 (by rw [e2]; exact hsc)
      rw [hout q (by rw [hnx]; exact hal1 q hq1)]
      rw [this.keeps]
      exact ⟨e1, e2⟩
  | better e => simp only [hbn] at e; cases e
  | same e => simp only [hbn] at e; cases e

/-- What the generations of a run leave of the first one. -/
theorem first_generation_kept {s0 s1 : St ℚ} {k : Nat} (h0 : Fresh s0) (h1 : After (singleOps fit sel op mop tr) s0 1 s1)
    (h : After (singleOps fit sel op mop tr) s0 k s) : s1.next ≤ s.next ∧ s.ga.attrs = s1.ga.attrs ∧
      ∀ r, r < s1.next → (s1.heap r).score.isSome → (s.heap r).genotype = (s1.heap r).genotype ∧ (s.heap r).score = (s1.heap r).score := by
  have hops := singleOps_run fit sel op mop tr
  refine h1.induct (P := fun s => s1.next ≤ s.next ∧ s.ga.attrs = s1.ga.attrs ∧
      ∀ r, r < s1.next → (s1.heap r).score.isSome → (s.heap r).genotype = (s1.heap r).genotype ∧ (s.heap r).score = (s1.heap r).score)
    h h.pos ⟨le_rfl, rfl, fun _ _ _ => ⟨rfl, rfl⟩⟩ ?_
  intro i a b ha hP hg
  obtain ⟨p1, p2, p3⟩ := hP
  obtain ⟨_, b1, b2, b3, es, t, hB, _, _, e2, _, _, _, _, hS, _, _, q1, q2, q3, _⟩ := generation_inv hops (ha.inv hops h0) hg
  obtain ⟨n0, hn0, _, hn1⟩ := hB.range
  refine ⟨by omega, q2.trans p2, ?_⟩
  intro r hr hsc
  obtain ⟨r1, r2⟩ := p3 r hr hsc
  have hc := hB.core r (by omega)
  have hh : b2.heap r = b1.heap r := by rw [e2]
  have hs2 : (b2.heap r).score = (a.heap r).score := by rw [hh, show b1.heap r = _ from hc]
  have hg2 : (b2.heap r).genotype = (a.heap r).genotype := by rw [hh, hc.genotype]
  rw [q1 r (by omega)]
  by_cases hm : r ∈ b2.ga.population
  · have := hS.kept r hm (by rw [hs2, r2]; exact hsc)
    rw [this]
    exact ⟨hg2.trans r1, hs2.trans r2⟩
  · rw [hS.old r hm]
    exact ⟨hg2.trans r1, hs2.trans r2⟩

end

section
variable {c : Cfg} {spec : PopSpec} {sel : SelOp} {op : CrossOp} {mop : MutOp} {ov goal : Option ℚ} {s s' : St ℚ}

/-- C115: a program that uses its population object for a second run gets the `num_individ` individuals of the first generation of
the first run and as many new ones, and the best solution it is given after the first evaluation is the individual created last,
whatever its score and the scores of the others. -/
theorem C115_twice (h : advancedTwiceGA c spec sel op mop ov goal s = (.ok (), s')) :
    ∃ old new b r v, s'.ga.population = old ++ new ∧ old.length = c.numIndivid ∧ new.length = c.numIndivid ∧
      (∀ q ∈ old, ∀ p ∈ new, q < p) ∧ new.Pairwise (· < ·) ∧ new.getLast? = some r ∧ s'.ga.best = some (.single b 0) ∧
      s'.heap b = s'.heap r ∧ (s'.heap b).score = some v ∧ s'.ga.histBest = [v] ∧ ∀ q ∈ old, (s'.heap q).score.isSome := by
  unfold advancedTwiceGA advancedTwice at h
  obtain ⟨fit, s1, h1, h2⟩ := bind_ok.mp h
  obtain ⟨l, s2, h3, h4⟩ := bind_ok.mp h2
  obtain ⟨_, rfl⟩ := liftE_ok.mp h3
  rw [bind_of_ok (modifyS_run _ _)] at h4
  obtain ⟨tr, s3, h5, h6⟩ := bind_ok.mp h4
  obtain ⟨_, rfl⟩ := liftE_ok.mp h5
  obtain ⟨_, s0, h7, h8⟩ := bind_ok.mp h6
  obtain ⟨_, s4, h9, h10⟩ := bind_ok.mp h8
  obtain ⟨_, s5, h11, h12⟩ := bind_ok.mp h10
  rw [bind_of_ok (getGa_run s5)] at h12
  obtain ⟨_, s6, h13, h14⟩ := bind_ok.mp h12
  have hst := collectorSetPopulation_ok h7
  have ha : After (singleOps fit sel op mop tr) s0 1 s5 := .first h9 h11
  obtain ⟨k, _, _, hk, _⟩ := advancedLoop_after ha h13
  obtain ⟨i1, i2, _, i4, _⟩ := first_inv (baseFitness_isFitness fit) hst.fresh h9 h11
  obtain ⟨k1, k2, k3⟩ := first_generation_kept hst.fresh ha hk
  have hlen : s5.ga.population.length = c.numIndivid := by
    rw [i2.length_eq, hst.cells.1]
  have hsc : ∀ q ∈ s5.ga.population, (s6.heap q).score.isSome := by
    intro q hq
    have := i1.settled.asc.1 q hq
    rw [(k3 q (i1.settled.alive q hq) this).2]
    exact this
  have hal : ∀ q ∈ s5.ga.population, q < s6.next := fun q hq => (i1.settled.alive q hq).trans_le k1
  obtain ⟨b, r, v, e1, e2, _, e4, e5, e6, e7, e8, _, e10⟩ := reuse_ok hal
    (i2.nodup_iff.mpr hst.fresh.distinct) h14
  have e2 := e2 (by rw [k2, i4])
  have hpos : 0 < c.numIndivid := by
    rcases Nat.eq_zero_or_pos c.numIndivid with h0 | h0
    · rw [e2, h0, List.length_eq_zero_iff.mp (hlen.trans h0)] at e4
      simp at e4
    · exact h0
  refine ⟨_, _, b, r, v, e2, hlen, List.length_range', ?_, List.pairwise_lt_range' (step := 1) (by omega), ?_, e5, e6, ?_, e8, ?_⟩
  · intro q hq p hp
    have := hal q hq
    have := List.mem_range'_1.mp hp
    omega
  · rw [← e4, e2, List.getLast?_append]
    have : (List.range' s6.next c.numIndivid).getLast? ≠ none := by
      rw [Ne, List.getLast?_eq_none_iff, ← List.length_eq_zero_iff, List.length_range']; omega
    obtain ⟨x, hx⟩ := Option.ne_none_iff_exists'.mp this
    rw [hx]; rfl
  · rw [e6]; exact e7
  · intro q hq
    rw [(e10 q hq (hsc q hq)).2]
    exact hsc q hq

end

/-! ## a program -/

def exTwiceCfg : Cfg := { exReadmeCfg with numGenerations := 1 }

def exTwice : Except PyErr Unit × St ℚ :=
  advancedTwiceGA exTwiceCfg exFacade.spec (.tournament 2) .onePoint .categorical (some 12) none exHand

set_option maxRecDepth 100000 in
/-- Four individuals are asked for and there are eight; the recorded best score is 1/5 although the first run left a 1/2 in the list. -/
theorem exTwice_values : exTwice.1 = .ok () ∧ exTwice.2.ga.population = [1, 0, 2, 3, 11, 12, 13, 14] ∧
    exTwice.2.ga.population.map (fun r => (exTwice.2.heap r).score) =
      [some (1 / 4), some (1 / 3), some (1 / 3), some (1 / 2), some (1 / 4), some (1 / 8), some (1 / 12), some (1 / 5)] ∧
    exTwice.2.ga.histBest = [1 / 5] := by decide +kernel

theorem exTwice_run : advancedTwiceGA exTwiceCfg exFacade.spec (.tournament 2) .onePoint .categorical (some 12) none exHand =
    (.ok (), exTwice.2) := by
  rw [← exTwice_values.1]; rfl

/-- C115, full claim about the size: a population object filled again has `num_individ` individuals. -/
def RefilledSize : Prop :=
  ∀ (c : Cfg) (spec : PopSpec) (sel : SelOp) (op : CrossOp) (mop : MutOp) (ov goal : Option ℚ) (s s' : St ℚ),
    advancedTwiceGA c spec sel op mop ov goal s = (.ok (), s') → s'.ga.population.length = c.numIndivid

/-- C115, full claim about the result: no individual of the population has a better score than the best solution. -/
def RefilledBest : Prop :=
  ∀ (c : Cfg) (spec : PopSpec) (sel : SelOp) (op : CrossOp) (mop : MutOp) (ov goal : Option ℚ) (s s' : St ℚ),
    advancedTwiceGA c spec sel op mop ov goal s = (.ok (), s') → ∀ b g v, s'.ga.best = some (.single b g) → (s'.heap b).score = some v →
      ∀ r ∈ s'.ga.population, ∀ w, (s'.heap r).score = some w → w ≤ v

/-- C115: it has twice as many, in every such program that returns. -/
theorem C115_size_refuted : ¬ RefilledSize ∧
    ∀ {c : Cfg} {spec : PopSpec} {sel : SelOp} {op : CrossOp} {mop : MutOp} {ov goal : Option ℚ} {s s' : St ℚ},
      advancedTwiceGA c spec sel op mop ov goal s = (.ok (), s') → s'.ga.population.length = 2 * c.numIndivid := by
  refine ⟨fun h => ?_, fun h => ?_⟩
  · have h1 := h _ _ _ _ _ _ _ _ _ exTwice_run
    rw [exTwice_values.2.1] at h1
    exact absurd h1 (by decide)
  · obtain ⟨old, new, _, _, _, e1, e2, e3, _⟩ := C115_twice h
    rw [e1, List.length_append, e2, e3]; omega

/-- C115: better individuals of the same population are passed over. -/
theorem C115_best_refuted : ¬ RefilledBest := by
  intro h
  obtain ⟨_, _, b, _, v, _, _, _, _, _, _, hb, _, hv, hh, _⟩ := C115_twice exTwice_run
  obtain ⟨_, h2, h3, h4⟩ := exTwice_values
  rw [h4] at hh
  obtain rfl : (1 / 5 : ℚ) = v := (List.cons.inj hh).1
  have hm : (3 : Nat) ∈ exTwice.2.ga.population := by rw [h2]; decide
  have hs : (exTwice.2.heap 3).score = some (1 / 2) := by
    have := congrArg (fun l => l[3]?) h3
    rw [h2] at this
    simpa using this
  have := h _ _ _ _ _ _ _ _ _ exTwice_run b 0 _ hb hv 3 hm _ hs
  norm_num at this

section
variable {c : Cfg} {spec : PopSpec} {old : List Nat} {fit : Fit ℚ} {sel : SelOp} {op : CrossOp} {mop : MutOp} {tr : Transfer} {s s' : St ℚ}

/-- C115, proved part: a population object that was filled but not used in a run (`is_sorted` is still false).  If it is filled again,
the run starts with all the individuals, and the best solution is the best of them.  If it is empty, there are `num_individ` of
them.  Missing: population objects a run has used (false, see `C115_size_refuted` and `C115_best_refuted`). -/
theorem C115_unused_partial (hal : ∀ r ∈ old, r < s.next) (hnd : old.Nodup) (hs : s.ga.attrs.isSorted = false)
    (h : reuse c spec old (singleOps fit sel op mop tr) s = (.ok (), s')) :
    (old = [] → s'.ga.population.length = c.numIndivid) ∧ s'.ga.population.length = old.length + c.numIndivid ∧
    (∀ r ∈ old, r ∈ s'.ga.population) ∧
    ∃ b v, s'.ga.best = some (.single b 0) ∧ (s'.heap b).score = some v ∧ (∃ r ∈ s'.ga.population, s'.heap r = s'.heap b) ∧
      ∀ r ∈ s'.ga.population, ∃ w, (s'.heap r).score = some w ∧ w ≤ v := by
  obtain ⟨b, r, v, e1, _, e3, e4, e5, e6, e7, _⟩ := reuse_ok hal hnd h
  have hl : s'.ga.population.length = old.length + c.numIndivid := by
    rw [e1.length_eq, List.length_append, List.length_range']
  refine ⟨?_, hl, fun q hq => e1.mem_iff.mpr (List.mem_append_left _ hq), b, v, e5, by rw [e6]; exact e7,
    ⟨r, List.mem_of_getLast? e4, e6.symm⟩, e3 hs⟩
  rintro rfl
  simpa using hl

end

/-! ## a population object filled twice before its first run -/

/-- Two individuals are in the list, without score. -/
def exUnused : St ℚ :=
  { exHand with
    heap := fun r => if r < 2 then { genotype := some [.num 1, .num r, .num 2] } else {}
    next := 2
    ga := { population := [0, 1] } }

def exRefit : Fit ℚ := { exFit with task := hyperbolaTask exTwiceCfg.obj1 exTwiceCfg.obj2 false none (some 12) .exact }

def exFilled : Except PyErr Unit × St ℚ :=
  reuse exTwiceCfg exFacade.spec [0, 1] (singleOps exRefit (.tournament 2) .onePoint .categorical .best) exUnused

set_option maxRecDepth 100000 in
theorem exUnused_values : exFilled.1 = .ok () := by decide +kernel

theorem exUnused_run : reuse exTwiceCfg exFacade.spec [0, 1] (singleOps exRefit (.tournament 2) .onePoint .categorical .best) exUnused =
    (.ok (), exFilled.2) := of_ok exUnused_values

example : exFilled.2.ga.population.length = 6 :=
  (C115_unused_partial (s := exUnused) (by decide) (by decide) rfl exUnused_run).2.1

example {s' : St ℚ} (h : refill exFacade.spec 4 none exUnused = (.ok (), s')) : s'.ga.population.length = 6 := by
  rw [(C115_appends (s := exUnused) (by decide) (by decide) h).1]
  rfl

set_option maxRecDepth 100000 in
example : (refill exFacade.spec 4 none exUnused).1 = .ok () ∧ (refill exFacade.spec 4 none exTwice.2).1 = .ok () ∧
    (refill exFacade.spec 4 none exTwice.2).2.ga.population.length = 12 := by decide +kernel

end BaumEva
