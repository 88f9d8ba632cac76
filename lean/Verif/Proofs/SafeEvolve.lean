import Verif.Proofs.SafeRun
import Verif.Props.Genotypes
/-!
# Single-objective runs that raise nothing
-/
namespace BaumEva
open Spec

section
variable {σ : Type}

/-- Not fewer elites than requested, unless the population is smaller. -/
theorem chooseElites_length {tr : Transfer} {k : Nat} {s s' : St σ} {es : List Nat} (h : chooseElites tr k s = (.ok es, s')) :
    min (k + 1) s.ga.population.length ≤ es.length := by
  cases tr with
  | best =>
    obtain ⟨_, _, c1, c2, c3⟩ := addBest_ok h
    by_cases hk : k < s.ga.population.length
    · rw [c1 hk]; exact min_le_left _ _
    · by_cases hd : ((lastN s.ga.population (k + 1)).map fun r => (s.heap r).genotype).Nodup
      · rw [c2 hd]
        unfold lastN
        rw [List.length_drop]
        omega
      · rw [(c3 hd).1]; exact min_le_left _ _
  | random => obtain ⟨_, _, c, _⟩ := addRandom_ok h; rw [c]; exact min_le_left _ _

theorem newGenExec_size [LinearOrder σ] {tr : Transfer} {s s' : St σ} {u : Unit} (h : newGenExec tr s = (.ok u, s'))
    (hn : s.ga.attrs.numIndivid ≤ s.ga.population.length) : s.ga.attrs.numIndivid ≤ s'.ga.population.length := by
  unfold newGenExec at h
  obtain ⟨_, s1, h1, h2⟩ := bind_ok.mp h
  obtain ⟨pop, rfl, hperm, hs1, hs2⟩ := ensureSorted_ok h1
  have hpl := hperm.length_eq
  rw [bind_of_ok (getGa_run _)] at h2
  simp only at h2
  rw [ite_run] at h2
  split at h2
  · rename_i hk
    obtain ⟨es, s2, h3, h4⟩ := bind_ok.mp h2
    obtain ⟨⟨t, rfl⟩, _, _⟩ := chooseElites_ok h3
    have hl := chooseElites_length h3
    simp only at hl
    unfold installPop at h4
    rw [modGa_ok] at h4
    subst h4
    simp only [List.length_append]
    rw [hpl] at hl
    omega
  · rename_i hk
    cases hl : pop.getLast? with
    | none => simp only [hl, throwE_ok] at h2
    | some r =>
      simp only [hl] at h2
      unfold installPop at h2
      rw [modGa_ok] at h2
      subst h2
      simp only [List.length_append, List.length_singleton]
      omega

theorem gaUpdate_mutLvl [LinearOrder σ] {s s' : St σ} {u : Unit} (h : gaUpdate s = (.ok u, s')) : s'.mutLvl = s.mutLvl := by
  obtain ⟨pop, rb, rm, rw', b, m, w, _, _, _, _, _, _, _, _, _, s1, hdec, rfl⟩ := gaUpdate_ok h
  cases hdec <;> rfl

end

/-- The argument the objective is called with for genotype `g`. -/
def ArgOf (at_ : Attrs) (g a : List Val) : Prop := if at_.isPhenotype then decodeIndivid at_ g = .ok a else a = g

/-- What makes a run raise nothing outside its selection. `P`: the genotypes that can occur. -/
structure SafeCore (fit : Fit ℚ) (op : CrossOp) (mop : MutOp) (tr : Transfer) (P : List Val → Prop) (s0 : St ℚ) :
    Prop where
  fresh : Fresh s0
  closed : ClosedGeno op mop s0.ga.attrs.spec P
  first : ∀ r ∈ s0.ga.population, WellFormed P s0.ga.attrs (s0.heap r)
  full : s0.ga.attrs.numIndivid ≤ s0.ga.population.length
  two : 2 ≤ s0.ga.attrs.numIndivid
  cross : ∀ g0 p1 p2, P g0 → P p1 → P p2 → CrossFits op g0.length p1 p2
  mutable : ∀ g0 p1 p2 g1, P g0 → P p1 → P p2 → CrossResult ℚ op g0.length p1 p2 g1 → MutFits mop s0.ga.attrs.spec g1
  ready : MutReady mop s0.ga.attrs s0.mutLvl
  random : tr = .random → 1 ≤ numPairs s0.ga 1
  decode : s0.ga.attrs.isPhenotype = true → ∀ g, P g → ∃ p, decodeIndivid s0.ga.attrs g = .ok p
  eval : ∀ g a, P g → ArgOf s0.ga.attrs g a → ∀ b gen rk, (gen = 0 ∨ ∃ x k, b = some (.single x k)) →
    Evaluable fit b gen rk a
  stop : s0.ga.earlyStop ≠ none

/-- The same, with a selection that is content with any evaluated population. -/
structure SafeSetup (fit : Fit ℚ) (sel : SelOp) (op : CrossOp) (mop : MutOp) (tr : Transfer) (P : List Val → Prop) (s0 : St ℚ) : Prop
    extends SafeCore fit op mop tr P s0 where
  sel : ∀ s : St ℚ, s.ga.attrs.numIndivid = s0.ga.attrs.numIndivid → s.ga.attrs.numIndivid ≤ s.ga.population.length →
    (∀ r ∈ s.ga.population, r < s.next) → Keyed scoreKey s → Safe (selExec sel) s

section
variable {fit : Fit ℚ} {sel : SelOp} {op : CrossOp} {mop : MutOp} {tr : Transfer} {P : List Val → Prop} {s0 : St ℚ}

/-- Evaluation of a population raises nothing. -/
theorem SafeCore.fitness (h0 : SafeCore fit op mop tr P s0) {s : St ℚ} {b : Bool}
    (hat : s.ga.attrs = { s0.ga.attrs with isSorted := b }) (hnd : (unscored s.heap s.ga.population).Nodup)
    (hpre : ∀ r ∈ s.ga.population, (∃ g, (s.heap r).genotype = some g ∧ P g ∧ (s.heap r).phenotype = none) ∨
      WellFormed P s0.ga.attrs (s.heap r))
    (hbest : s.ga.idxGeneration = 0 ∨ ∃ x k, s.ga.best = some (.single x k)) : Safe (baseFitnessExec fit) s := by
  have hph : s.ga.attrs.isPhenotype = s0.ga.attrs.isPhenotype := by rw [hat]
  have hdec : ∀ g, decodeIndivid s.ga.attrs g = decodeIndivid s0.ga.attrs g := by rw [hat]; intro g; rfl
  refine baseFitness_safe hnd ?_ ?_
  · intro hp r hr
    rcases hpre r hr with ⟨g, e1, e2, e3⟩ | ⟨g, e1, e2, e3⟩
    · obtain ⟨p, hp⟩ := h0.decode (hph ▸ hp) g e2
      exact .inr ⟨g, p, e1, (hdec g).trans hp⟩
    · obtain ⟨p, d1, _⟩ := e3 (hph ▸ hp)
      exact .inl (by rw [d1]; rfl)
  · intro r hr m hm
    have hr := (mem_unscored.mp hr).1
    unfold Decoded at hm
    unfold seen
    by_cases hp : s.ga.attrs.isPhenotype = true
    · rw [if_pos hp] at hm ⊢
      have key : ∃ g p, P g ∧ decodeIndivid s0.ga.attrs g = .ok p ∧ m.phenotype = some p := by
        rcases hpre r hr with ⟨g, e1, e2, e3⟩ | ⟨g, e1, e2, e3⟩
        · rcases hm with ⟨d, _⟩ | ⟨_, g', p, d1, d2, rfl⟩
          · rw [e3] at d; simp at d
          · rw [e1] at d1
            injection d1 with d1
            subst d1
            exact ⟨g, p, e2, (hdec g) ▸ d2, rfl⟩
        · obtain ⟨p, d1, d2⟩ := e3 (hph ▸ hp)
          rcases hm with ⟨_, rfl⟩ | ⟨d, _⟩
          · exact ⟨g, p, e2, d2, d1⟩
          · rw [d1] at d; simp at d
      obtain ⟨g, p, k1, k2, k3⟩ := key
      exact ⟨p, k3, h0.eval g p k1 (by unfold ArgOf; rw [if_pos (hph ▸ hp)]; exact k2) _ _ _ hbest⟩
    · rw [if_neg hp] at hm ⊢
      subst hm
      have key : ∃ g, P g ∧ (s.heap r).genotype = some g := by
        rcases hpre r hr with ⟨g, e1, e2, e3⟩ | ⟨g, e1, e2, e3⟩ <;> exact ⟨g, e2, e1⟩
      obtain ⟨g, k1, k2⟩ := key
      exact ⟨g, k2, h0.eval g g k1 (by unfold ArgOf; rw [if_neg (hph ▸ hp)]) _ _ _ hbest⟩

/-- What holds between generations. -/
structure SafeInv (P : List Val → Prop) (mop : MutOp) (s0 s : St ℚ) (k : Nat) : Prop where
  run : RunInv s k
  attrs : s.ga.attrs = { s0.ga.attrs with isSorted := true }
  good : ∀ r ∈ s.ga.population, WellFormed P s0.ga.attrs (s.heap r)
  full : s.ga.attrs.numIndivid ≤ s.ga.population.length
  ready : MutReady mop s.ga.attrs s.mutLvl
  percent : s.ga.childrenPercent = s0.ga.childrenPercent
  stop : s.ga.earlyStop = s0.ga.earlyStop

theorem SafeCore.full_after (h0 : SafeCore fit op mop tr P s0) {k : Nat} {s : St ℚ}
    (h : After (singleOps fit sel op mop tr) s0 k s) : s.ga.attrs.numIndivid ≤ s.ga.population.length := by
  have hops := singleOps_run fit sel op mop tr
  induction h with
  | @first s1 s a b =>
    obtain ⟨_, hperm, _, hat, _⟩ := first_inv hops.fitness h0.fresh a b
    rw [hat, hperm.length_eq]
    exact h0.full
  | @next k s s' a b ih =>
    have hinv := a.inv hops h0.fresh
    obtain ⟨s1, s2, s3, es, t, hB, _, _, e2, _, _, _, _, hF, hup, hng⟩ := generation_ok hops hinv.settled b
    obtain ⟨_, _, _, _, _, _, _, _, _, _, _, _, _, _, _, _, _, _, hat, _⟩ := generation_inv hops hinv b
    have := newGenExec_size hng (by rw [hB.ga]; exact ih)
    have hl : s'.ga.population.length = s2.ga.population.length := by
      obtain ⟨pop, rb, rm, rw', b, m, w, hperm, _, _, _, _, _, _, _, _, s1, hdec, rfl⟩ := gaUpdate_ok hup
      have : s1.ga.population = pop := by cases hdec <;> rfl
      simp only
      rw [this, hperm.length_eq, hF.ga]
    rw [hat, hl]
    rw [hB.ga] at this
    exact this

theorem SafeCore.ready_after (h0 : SafeCore fit op mop tr P s0) {k : Nat} {s : St ℚ}
    (h : After (singleOps fit sel op mop tr) s0 k s) : MutReady mop s0.ga.attrs s.mutLvl := by
  have hops := singleOps_run fit sel op mop tr
  induction h with
  | @first s1 s a b =>
    obtain ⟨_, _, _, _, _, hS, _⟩ := first_inv hops.fitness h0.fresh a b
    rw [gaUpdate_mutLvl b, hS.shape]
    exact h0.ready
  | @next k s s' a b ih =>
    have hinv := a.inv hops h0.fresh
    obtain ⟨s1, s2, s3, es, t, hB, _, _, e2, _, _, _, _, hF, hup, hng⟩ := generation_ok hops hinv.settled b
    have hl : s'.mutLvl = s1.mutLvl := by
      rw [gaUpdate_mutLvl hup, hF.shape, e2]
    rw [hl]
    by_cases hop : mop = .binString
    · obtain ⟨hat, _⟩ := genotypes_invariant h0.fresh h0.closed h0.first a
      have hu := hB.lvl.2 hop
      rw [hat] at hu
      exact ⟨.inl (ih.update hop hu), ih.2⟩
    · rw [hB.lvl.1 hop]; exact ih

theorem SafeCore.inv (h0 : SafeCore fit op mop tr P s0) {k : Nat} {s : St ℚ} (h : After (singleOps fit sel op mop tr) s0 k s) :
    SafeInv P mop s0 s k := by
  have hops := singleOps_run fit sel op mop tr
  obtain ⟨hat, hgood⟩ := genotypes_invariant h0.fresh h0.closed h0.first h
  obtain ⟨⟨_, hcp, hes⟩, _, _⟩ := h.keeps sameSetup_frame (singleOps_frame sameSetup_frame fit sel op mop tr)
  refine ⟨h.inv hops h0.fresh, hat, hgood, h0.full_after h, ?_, hcp, hes⟩
  rw [hat]
  exact h0.ready_after h

/-- One generation raises nothing. -/
theorem SafeCore.generation (h0 : SafeCore fit op mop tr P s0) {k : Nat} {s : St ℚ}
    (h : After (singleOps fit sel op mop tr) s0 k s) (hsel : Safe (selExec sel) s) :
    Safe (generation (singleOps fit sel op mop tr)) s := by
  have hops := singleOps_run fit sel op mop tr
  have hI := h0.inv h
  have hal := hI.run.settled.alive
  have hN : s.ga.attrs.numIndivid = s0.ga.attrs.numIndivid := by rw [hI.attrs]
  have hspec : s.ga.attrs.spec = s0.ga.attrs.spec := by rw [hI.attrs]
  have hPof : ∀ z q, z ∈ s.ga.population → (s.heap z).genotype = some q → P q := by
    intro z q hz hq
    obtain ⟨q', d1, d2, _⟩ := hI.good z hz
    rw [hq] at d1
    injection d1 with d1
    rw [d1]; exact d2
  have hne : s.ga.population ≠ [] := by
    have := hI.full
    have h2 := h0.two
    intro he
    rw [he] at this
    simp at this
    omega
  unfold BaumEva.generation
  refine Safe.bind hsel ?_
  intro u1 s1 h1
  have hS := selExec_isSelection sel s s1 u1 hal h1
  have hp1 : s1.ga.population = s.ga.population := by rw [hS.1.ga]
  obtain ⟨r0, hr0⟩ : ∃ r0, s.ga.population.head? = some r0 := by
    cases hp : s.ga.population with
    | nil => exact absurd hp hne
    | cons x xs => exact ⟨x, rfl⟩
  have hr0m := List.mem_of_mem_head? hr0
  obtain ⟨g0, hg0, hPg0, _⟩ := hI.good r0 hr0m
  have hpar : ∀ r ∈ s1.ga.parents, r < s1.next ∧ ∃ p ∈ s.ga.population, (s1.heap r).genotype = (s.heap p).genotype := by
    intro r hr
    obtain ⟨_, k2, p, hp, hc⟩ := hS.1.fresh r hr
    exact ⟨k2, p, hp, hc.genotype⟩
  have hparG : ∀ r ∈ s1.ga.parents, ∀ q, (s1.heap r).genotype = some q → P q := by
    intro r hr q hq
    obtain ⟨_, p, hp, e⟩ := hpar r hr
    exact hPof p q hp (e ▸ hq)
  refine Safe.bind ?_ ?_
  · show Safe (crossExec op) s1
    refine crossExec_safe (by rw [hp1]; exact hr0) (by rw [(hS.1.core r0 (hal r0 hr0m)).genotype]; exact hg0) hS.2
      (fun r hr => (hpar r hr).1) ?_ ?_
    · intro r hr
      obtain ⟨_, p, hp, e⟩ := hpar r hr
      obtain ⟨g, hg, _⟩ := hI.good p hp
      exact ⟨g, e.trans hg⟩
    · intro a ha b hb p1 p2 e1 e2
      exact h0.cross g0 p1 p2 hPg0 (hparG a ha p1 e1) (hparG b hb p2 e2)
  intro u2 s2 h2
  have h2' : crossExec op s1 = (.ok u2, s2) := h2
  obtain ⟨r0', g0', e1, e2, sx, gs, hd, hga, hb, hlen, hch⟩ := crossExec_ok h2' (fun r hr => (hS.1.fresh r hr).2.1)
  have hxn : sx.next = s1.next := by obtain ⟨t, ht⟩ := hd; simp at ht; simp [ht]
  have hxml : sx.mutLvl = s1.mutLvl := by obtain ⟨t, ht⟩ := hd; simp at ht; simp [ht]
  have hg0' : g0' = g0 := by
    rw [hp1, hr0] at e1
    injection e1 with e1
    subst e1
    rw [(hS.1.core r0 (hal r0 hr0m)).genotype, hg0] at e2
    injection e2 with e2
    exact e2.symm
  have hchild : s2.ga.children = List.range' s1.next gs.length := by rw [hb.ga, hga, hxn]; simp
  have hat2 : s2.ga.attrs = s.ga.attrs := by rw [hb.ga, hga, hS.1.ga]
  refine Safe.bind ?_ ?_
  · show Safe (mutExec mop) s2
    refine mutExec_safe (by rw [hchild]; exact List.nodup_range') ?_ ?_
    · rw [hat2, hb.mutLvl, hxml, hS.1.mutLvl]; exact hI.ready
    · intro r hr
      rw [hchild, List.mem_range'_1] at hr
      obtain ⟨i, rfl⟩ : ∃ i, r = s1.next + i := ⟨r - s1.next, by omega⟩
      have hi : i < gs.length := by omega
      have hcell := hb.new i gs[i] (List.getElem?_eq_getElem hi)
      rw [hxn] at hcell
      obtain ⟨a, b, p1, p2, q1, q2, q3, q4, q5⟩ := hch i gs[i] (List.getElem?_eq_getElem hi)
      refine ⟨gs[i], by rw [hcell], ?_⟩
      rw [hat2, hspec]
      rw [hg0'] at q5
      exact h0.mutable g0 p1 p2 _ hPg0 (hparG a (List.mem_of_getElem? q1) p1 q3) (hparG b (List.mem_of_getElem? q2) p2 q4) q5
  intro u3 s3 h3
  have hbr : breed (selExec sel) op mop s = (.ok u3, s3) := by
    unfold breed
    exact (bind_of_ok h1).trans ((bind_of_ok h2).trans h3)
  obtain ⟨hB, hlenC⟩ := breed_ok (selExec_isSelection sel) hal hbr
  have hp3 : s3.ga.population = s.ga.population := by rw [hB.ga]
  have hat3 : s3.ga.attrs = s.ga.attrs := by rw [hB.ga]
  have hpairs : numPairs s.ga 1 = numPairs s0.ga 1 := by
    unfold numPairs
    rw [hI.percent, hI.attrs]
  refine Safe.bind ?_ ?_
  · show Safe (newGenExec tr) s3
    refine newGenExec_safe (by rw [hat3]; exact hI.run.settled.sorted) ?_ ?_ ?_ ?_
    · rw [hp3]
      intro r hr
      obtain ⟨g, hg, _⟩ := hI.good r hr
      exact ⟨g, by rw [(hB.core r (hal r hr)).genotype]; exact hg⟩
    · rw [hp3]
      exact h0.two.trans (hN ▸ hI.full)
    · rw [hp3, hat3]; exact hI.full
    · intro ht
      rw [hp3, hat3, hlenC, hpairs]
      have := h0.random ht
      have := hI.full
      omega
  intro u4 s4 h4
  have h4' : newGenExec tr s3 = (.ok u4, s4) := h4
  obtain ⟨pop, es, t, _, k1, _, hel, k2, k3, k4⟩ := newGenExec_ok h4'
  have k1 := k1 (by rw [hat3]; exact hI.run.settled.sorted)
  rw [k1, hp3] at hel
  have hh4 : s4.heap = s3.heap := by rw [k2]
  have hp4 : s4.ga.population = s3.ga.children ++ es := by rw [k2]
  have hat4 : s4.ga.attrs = { s0.ga.attrs with isSorted := false } := by
    rw [k2]
    simp only
    rw [hat3, hI.attrs]
  have hscore : ∀ r ∈ es, (s3.heap r).score.isSome := by
    intro r hr
    have hm := hel.mem r hr
    rw [(hB.core r (hal r hm)).score]
    exact hI.run.settled.asc.1 r hm
  obtain ⟨n0, hn0, hrange, hn1⟩ := hB.range
  obtain ⟨rz, gz, z1, z2, hnew⟩ := hB.new
  have hgz : P gz := hPof rz gz (List.mem_of_mem_head? z1) z2
  have hnd : (unscored s4.heap s4.ga.population).Nodup := by
    rw [hh4, hp4]
    unfold unscored
    rw [List.filter_append]
    have : (es.filter fun r => (s3.heap r).score.isNone) = [] := by
      rw [List.filter_eq_nil_iff]
      intro r hr
      have := hscore r hr
      cases hx : (s3.heap r).score with
      | none => rw [hx] at this; simp at this
      | some v => simp
    rw [this, List.append_nil, hrange]
    exact List.Nodup.sublist List.filter_sublist List.nodup_range'
  have hpre : ∀ r ∈ s4.ga.population, (∃ g, (s4.heap r).genotype = some g ∧ P g ∧ (s4.heap r).phenotype = none) ∨
      WellFormed P s0.ga.attrs (s4.heap r) := by
    intro r hr
    rw [hp4] at hr
    rw [hh4]
    rcases List.mem_append.mp hr with hx | hx
    · left
      obtain ⟨g, hcell, x, y, p1, p2, g1, hxm, hym, hp1, hp2', hcr, hmu⟩ := hnew r hx
      rw [hspec] at hmu
      exact ⟨g, by rw [hcell], h0.closed _ gz p1 p2 g1 g hgz (hPof x p1 hxm hp1) (hPof y p2 hym hp2') hcr hmu, by rw [hcell]⟩
    · right
      have hm := hel.mem r hx
      have hcore := hB.core r (hal r hm)
      obtain ⟨g, d1, d2, d3⟩ := hI.good r hm
      exact ⟨g, by rw [hcore.genotype]; exact d1, d2, by rw [hcore.phenotype]; exact d3⟩
  have hbest4 : s4.ga.best = s.ga.best := by rw [k2]; simp only; rw [hB.ga]
  obtain ⟨b, gb, v, rt, t1, t2, t3, t4, t5⟩ := hI.run.top
  refine Safe.bind ?_ ?_
  · show Safe (baseFitnessExec fit) s4
    exact h0.fitness hat4 hnd hpre (.inr ⟨b, gb, hbest4.trans t1⟩)
  intro u5 s5 h5
  have hF := hops.fitness s4 s5 u5 hnd h5
  show Safe gaUpdate s5
  have hb := hI.run.settled.best b gb t1
  have hbc : b ∉ s4.ga.population := by
    rw [hp4, List.mem_append]
    rintro (hc | hc)
    · rw [hrange, List.mem_range'_1] at hc; omega
    · exact hb.2 (hel.mem b hc)
  refine gaUpdate_safe ?_ ?_ (.inr ⟨b, gb, v, ?_, ?_⟩)
  · rw [hF.ga]
    have := newGenExec_size h4' (by rw [hat3, hp3]; exact hI.full)
    rw [hat3, hN] at this
    have h2 := h0.two
    intro he
    rw [he] at this
    simp at this
    omega
  · rw [hF.ga]; exact hF.done
  · rw [hF.ga, hbest4]; exact t1
  · rw [hF.old b hbc, hh4, hB.old b hb.1 hb.2]; exact t2

/-- A selection that is content with any evaluated population is content with the populations of the run. -/
theorem SafeSetup.selects (h0 : SafeSetup fit sel op mop tr P s0) {k : Nat} {s : St ℚ}
    (h : After (singleOps fit sel op mop tr) s0 k s) : Safe (selExec sel) s := by
  have hI := h0.inv h
  refine h0.sel s (by rw [hI.attrs]) hI.full hI.run.settled.alive ?_
  intro r hr
  obtain ⟨v, hv⟩ := Option.isSome_iff_exists.mp (hI.run.settled.asc.1 r hr)
  exact ⟨v, by unfold scoreKey; rw [hv]⟩

theorem SafeSetup.generation (h0 : SafeSetup fit sel op mop tr P s0) {k : Nat} {s : St ℚ}
    (h : After (singleOps fit sel op mop tr) s0 k s) : Safe (generation (singleOps fit sel op mop tr)) s :=
  h0.toSafeCore.generation h (h0.selects h)

theorem SafeCore.mainLoop (h0 : SafeCore fit op mop tr P s0)
    (hsel : ∀ {k : Nat} {s : St ℚ}, After (singleOps fit sel op mop tr) s0 k s → Safe (selExec sel) s) : ∀ {n k : Nat} {s : St ℚ},
    After (singleOps fit sel op mop tr) s0 k s → Safe (mainLoop (singleOps fit sel op mop tr) n) s := by
  intro n
  induction n with
  | zero => intro k s _; exact Safe.pure _ _
  | succ n ih =>
    intro k s h
    rw [BaumEva.mainLoop]
    refine Safe.bind (h0.generation h (hsel h)) ?_
    intro u s1 h1
    have h' := After.next h h1
    refine Safe.bind_ok (getGa_run s1) ?_
    cases he : s1.ga.earlyStop with
    | none => exact absurd ((h0.inv h').stop.symm.trans he) h0.stop
    | some e => exact Safe.ite (fun _ => Safe.pure _ _) (fun _ => ih h')

/-- The whole run raises nothing. -/
theorem SafeCore.evolve (h0 : SafeCore fit op mop tr P s0)
    (hsel : ∀ {k : Nat} {s : St ℚ}, After (singleOps fit sel op mop tr) s0 k s → Safe (selExec sel) s) :
    Safe (evolve (singleOps fit sel op mop tr)) s0 := by
  have hops := singleOps_run fit sel op mop tr
  unfold BaumEva.evolve
  refine Safe.bind ?_ ?_
  · show Safe (baseFitnessExec fit) s0
    exact h0.fitness (b := s0.ga.attrs.isSorted) rfl (h0.fresh.distinct.sublist (unscored_sublist _ _))
      (fun r hr => .inr (h0.first r hr)) (.inl h0.fresh.idx)
  intro u s1 h1
  have hF := hops.fitness s0 s1 u (h0.fresh.distinct.sublist (unscored_sublist _ _)) h1
  refine Safe.bind ?_ ?_
  · show Safe gaUpdate s1
    refine gaUpdate_safe ?_ ?_ (.inl ?_)
    · rw [hF.ga]
      intro he
      have h1 := h0.full
      have h2 := h0.two
      rw [he] at h1
      simp at h1
      omega
    · rw [hF.ga]; exact hF.done
    · rw [hF.ga]; exact h0.fresh.best
  intro u2 s2 h2
  refine Safe.bind_ok (getGa_run s2) ?_
  exact h0.mainLoop hsel (After.first h1 h2)

theorem SafeSetup.evolve (h0 : SafeSetup fit sel op mop tr P s0) : Safe (evolve (singleOps fit sel op mop tr)) s0 :=
  h0.toSafeCore.evolve (fun h => h0.selects h)

end

end BaumEva
