import Verif.Proofs.SafeMulti
import Verif.Proofs.SafeEvolve
import Verif.Props.MultiLedger
/-!
# Multi-objective runs that raise nothing
-/
namespace BaumEva
open Spec
variable {σ : Type}

theorem multiUpdate_mutLvl [DecidableEq σ] {s s' : St σ} {u : Unit} (h : multiUpdate s = (.ok u, s'))
    (hns : s.ga.attrs.isSorted = false) (hal : ∀ r ∈ s.ga.population, r < s.next) : s'.mutLvl = s.mutLvl := by
  obtain ⟨pop, front, s1, _, _, hd, rfl⟩ := multiUpdate_ok h hns hal
  cases hd <;> rfl

/-- What makes a multi-objective run raise nothing. `P`: the genotypes that can occur. -/
structure MultiSafe [DecidableEq σ] (ops : Ops σ) (fit : Fit σ) (op : CrossOp) (mop : MutOp) (P : List Val → Prop) (s0 : St σ) :
    Prop where
  run : MultiRun ops fit op mop
  keep : OpsKeep SameSetup ops
  fresh : Fresh s0
  pheno : s0.ga.attrs.isPhenotype = true
  closed : ClosedFor σ op mop s0.ga.attrs.spec P
  first : ∀ r ∈ s0.ga.population, ∃ g, (s0.heap r).genotype = some g ∧ P g ∧
    ∀ p, (s0.heap r).phenotype = some p → decodeIndivid s0.ga.attrs g = .ok p
  attrs : ∀ k s, After ops s0 k s → s.ga.attrs = s0.ga.attrs
  good : ∀ k s, After ops s0 k s → ∀ r ∈ s.ga.population, WellFormed P s0.ga.attrs (s.heap r)
  nonempty : ∀ k s, After ops s0 k s → s.ga.population ≠ []
  sel : ∀ k s, After ops s0 k s → k < s0.ga.numGenerations → Safe ops.selection s
  pairs : ∀ k s a, After ops s0 k s → ops.selection s = (.ok (), a) → ∃ n, a.ga.parents.length = 2 * n
  cross : ∀ g0 p1 p2, P g0 → P p1 → P p2 → CrossFits op g0.length p1 p2
  mutable : ∀ g0 p1 p2 g1, P g0 → P p1 → P p2 → CrossResult σ op g0.length p1 p2 g1 → MutFits mop s0.ga.attrs.spec g1
  ready : MutReady mop s0.ga.attrs s0.mutLvl
  newGen : ∀ k s a s1, After ops s0 k s → ops.selection s = (.ok (), a) → s1.ga.parents = a.ga.parents → Bore op mop s s1 →
    Ready s1 → Safe ops.newGen s1
  decode : ∀ g, P g → ∃ p, decodeIndivid s0.ga.attrs g = .ok p
  vector : ∀ g a, P g → decodeIndivid s0.ga.attrs g = .ok a → ∃ l, fit.task.obj1 a = .ok (.tup l)
  eval : ∀ g a, P g → decodeIndivid s0.ga.attrs g = .ok a → ∀ b gen q, (∀ x k, b ≠ some (.single x k)) → 1 ≤ q →
    Evaluable fit b gen (some (.sc q)) a
  stop : s0.ga.earlyStop ≠ none

section
variable [DecidableEq σ] {ops : Ops σ} {fit : Fit σ} {op : CrossOp} {mop : MutOp} {P : List Val → Prop} {s0 : St σ}

theorem MultiSafe.fitness (h0 : MultiSafe ops fit op mop P s0) {s : St σ} {b : Bool}
    (hat : s.ga.attrs = { s0.ga.attrs with isSorted := b }) (hnd : (unscored s.heap s.ga.population).Nodup)
    (hpre : ∀ r ∈ s.ga.population, ∃ g, (s.heap r).genotype = some g ∧ P g ∧
      ∀ p, (s.heap r).phenotype = some p → decodeIndivid s0.ga.attrs g = .ok p)
    (hbest : ∀ x k, s.ga.best ≠ some (.single x k)) : Safe (multiFitnessExec fit) s := by
  have hdec : ∀ g, decodeIndivid s.ga.attrs g = decodeIndivid s0.ga.attrs g := by rw [hat]; intro g; rfl
  refine multiFitness_safe h0.run.uniform (by rw [hat]; exact h0.pheno) hnd ?_
  intro r hr
  obtain ⟨g, e1, e2, e3⟩ := hpre r hr
  obtain ⟨p, hp⟩ := h0.decode g e2
  refine ⟨p, ?_, h0.vector g p e2 hp, fun q hq => h0.eval g p e2 hp _ _ q hbest hq⟩
  cases hx : (s.heap r).phenotype with
  | none => exact .inr ⟨rfl, g, e1, (hdec g).trans hp⟩
  | some p' =>
    have := e3 p' hx
    rw [hp] at this
    injection this with this
    exact .inl (by rw [this])

theorem MultiSafe.ready_after (h0 : MultiSafe ops fit op mop P s0) {k : Nat} {s : St σ}
    (h : After ops s0 k s) : MutReady mop s0.ga.attrs s.mutLvl := by
  have hops := h0.run
  induction h with
  | @first s1 s a b =>
    rw [hops.fitness] at a
    rw [hops.update] at b
    obtain ⟨_, _, hS, _⟩ := multi_first hops.uniform h0.fresh a b
    rw [multiUpdate_mutLvl b (by rw [hS.ga]; exact h0.fresh.unsorted) (by rw [hS.ga, hS.next]; exact h0.fresh.alive), hS.shape]
    exact h0.ready
  | @next k s s' a b ih =>
    have hinv := a.multi hops h0.fresh
    obtain ⟨_, z0, s1, s2, s3, es, t, _, _, _, _, hB, _, _, _, e2, _, _, hF, hBU, hup, _⟩ := multi_generation hops hinv b
    have hl : s'.mutLvl = s1.mutLvl := by
      rw [multiUpdate_mutLvl hup hBU.unsorted hBU.alive, hF.shape, e2]
    rw [hl]
    by_cases hop : mop = .binString
    · have hu := hB.lvl.2 hop
      rw [h0.attrs _ _ a] at hu
      exact ⟨.inl (ih.update hop hu), ih.2⟩
    · rw [hB.lvl.1 hop]; exact ih

/-- One generation raises nothing. -/
theorem MultiSafe.generation (h0 : MultiSafe ops fit op mop P s0) {k : Nat} {s : St σ}
    (h : After ops s0 k s) (hk : k < s0.ga.numGenerations) : Safe (generation ops) s := by
  have hops := h0.run
  have hI := h.multi hops h0.fresh
  have hal := hI.alive
  have hgood := h0.good k s h
  have hat := h0.attrs k s h
  have hspec : s.ga.attrs.spec = s0.ga.attrs.spec := by rw [hat]
  have hPof : ∀ z q, z ∈ s.ga.population → (s.heap z).genotype = some q → P q := by
    intro z q hz hq
    obtain ⟨q', d1, d2, _⟩ := hgood z hz
    rw [hq] at d1
    injection d1 with d1
    rw [d1]; exact d2
  unfold BaumEva.generation
  refine Safe.bind (h0.sel k s h hk) ?_
  intro u1 s1 h1
  have hS := hops.selection s s1 u1 hal h1
  have hp1 : s1.ga.population = s.ga.population := by rw [hS.ga]
  obtain ⟨r0, hr0⟩ : ∃ r0, s.ga.population.head? = some r0 := by
    cases hp : s.ga.population with
    | nil => exact absurd hp (h0.nonempty k s h)
    | cons x xs => exact ⟨x, rfl⟩
  have hr0m := List.mem_of_mem_head? hr0
  obtain ⟨g0, hg0, hPg0, _⟩ := hgood r0 hr0m
  have hpar : ∀ r ∈ s1.ga.parents, r < s1.next ∧ ∃ p ∈ s.ga.population, (s1.heap r).genotype = (s.heap p).genotype := by
    intro r hr
    obtain ⟨_, k2, p, hp, hc⟩ := hS.fresh r hr
    exact ⟨k2, p, hp, hc.genotype⟩
  have hparG : ∀ r ∈ s1.ga.parents, ∀ q, (s1.heap r).genotype = some q → P q := by
    intro r hr q hq
    obtain ⟨_, p, hp, e⟩ := hpar r hr
    exact hPof p q hp (e ▸ hq)
  obtain ⟨n, hn⟩ := h0.pairs k s s1 h h1
  refine Safe.bind ?_ ?_
  · rw [hops.crossover]
    refine crossExec_safe (by rw [hp1]; exact hr0) (by rw [(hS.core r0 (hal r0 hr0m)).genotype]; exact hg0) hn
      (fun r hr => (hpar r hr).1) ?_ ?_
    · intro r hr
      obtain ⟨_, p, hp, e⟩ := hpar r hr
      obtain ⟨g, hg, _⟩ := hgood p hp
      exact ⟨g, e.trans hg⟩
    · intro a ha b hb p1 p2 e1 e2
      exact h0.cross g0 p1 p2 hPg0 (hparG a ha p1 e1) (hparG b hb p2 e2)
  intro u2 s2 h2
  rw [hops.crossover] at h2
  obtain ⟨r0', g0', e1, e2, sx, gs, hd, hga, hb, hlen, hch⟩ := crossExec_ok h2 (fun r hr => (hS.fresh r hr).2.1)
  have hxn : sx.next = s1.next := by obtain ⟨t, ht⟩ := hd; simp at ht; simp [ht]
  have hxml : sx.mutLvl = s1.mutLvl := by obtain ⟨t, ht⟩ := hd; simp at ht; simp [ht]
  have hg0' : g0' = g0 := by
    rw [hp1, hr0] at e1
    injection e1 with e1
    subst e1
    rw [(hS.core r0 (hal r0 hr0m)).genotype, hg0] at e2
    injection e2 with e2
    exact e2.symm
  have hchild : s2.ga.children = List.range' s1.next gs.length := by rw [hb.ga, hga, hxn]; simp
  have hat2 : s2.ga.attrs = s.ga.attrs := by rw [hb.ga, hga, hS.ga]
  refine Safe.bind ?_ ?_
  · rw [hops.mutation]
    refine mutExec_safe (by rw [hchild]; exact List.nodup_range') ?_ ?_
    · rw [hat2, hb.mutLvl, hxml, hS.mutLvl, hat]; exact h0.ready_after h
    · intro r hr
      rw [hchild, List.mem_range'_1] at hr
      obtain ⟨i, rfl⟩ : ∃ i, r = s1.next + i := ⟨r - s1.next, by omega⟩
      have hi : i < gs.length := by omega
      have hcell := hb.new i gs[i] (List.getElem?_eq_getElem hi)
      rw [hxn] at hcell
      obtain ⟨a, b, p1, p2, q1, q2, q3, q4, q5⟩ := hch i gs[i] (List.getElem?_eq_getElem hi)
      refine ⟨gs[i], by rw [hcell], ?_⟩
      rw [hat2, hspec]
      rw [hg0'] at q5
      exact h0.mutable g0 p1 p2 _ hPg0 (hparG a (List.mem_of_getElem? q1) p1 q3) (hparG b (List.mem_of_getElem? q2) p2 q4) q5
  intro u3 s3 h3
  rw [hops.mutation] at h3
  have hbr : breed ops.selection op mop s = (.ok u3, s3) := by
    unfold breed
    exact (bind_of_ok h1).trans ((bind_of_ok h2).trans h3)
  obtain ⟨hB, b1, hb1, hb2, hb3, hb4⟩ := breed_bore hops.selection hal hbr
  have hp3 : s3.ga.population = s.ga.population := by rw [hB.ga]
  have hat3 : s3.ga.attrs = s.ga.attrs := by rw [hB.ga]
  have hready : Ready s3 := by
    intro hp r hr
    rw [hat3] at hp
    rw [hp3] at hr
    rw [(hB.core r (hal r hr)).phenotype]
    exact hI.ready hp r hr
  refine Safe.bind (h0.newGen k s b1 s3 h hb1 hb4 hB hready) ?_
  intro u4 s4 h4
  obtain ⟨es, t, hes, k2⟩ := hops.newGen s3 s4 _ hready h4
  rw [hp3] at hes
  have hh4 : s4.heap = s3.heap := by rw [k2]
  have hp4 : s4.ga.population = s3.ga.children ++ es := by rw [k2]
  have hat4 : s4.ga.attrs = { s0.ga.attrs with isSorted := false } := by
    rw [k2]
    simp only
    rw [hat3, hat]
  have hscore : ∀ r ∈ es, (s3.heap r).score.isSome := by
    intro r hr
    have hm := hes r hr
    rw [(hB.core r (hal r hm)).score]
    exact hI.scored r hm
  obtain ⟨n0, hn0, hrange, hn1⟩ := hB.range
  obtain ⟨rz, gz, z1, z2, hnew⟩ := hB.new
  have hgz : P gz := hPof rz gz (List.mem_of_mem_head? z1) z2
  have hnd : (unscored s4.heap s4.ga.population).Nodup := by
    rw [hh4, hp4]
    unfold unscored
    rw [List.filter_append]
    have : (es.filter fun r => (s3.heap r).score.isNone) = [] := by
      rw [List.filter_eq_nil_iff]
      intro r hr
      have := hscore r hr
      cases hx : (s3.heap r).score with
      | none => rw [hx] at this; simp at this
      | some v => simp
    rw [this, List.append_nil, hrange]
    exact List.Nodup.sublist List.filter_sublist List.nodup_range'
  have hpre : ∀ r ∈ s4.ga.population, ∃ g, (s4.heap r).genotype = some g ∧ P g ∧
      ∀ p, (s4.heap r).phenotype = some p → decodeIndivid s0.ga.attrs g = .ok p := by
    intro r hr
    rw [hp4] at hr
    rw [hh4]
    rcases List.mem_append.mp hr with hx | hx
    · obtain ⟨g, hcell, x, y, p1, p2, g1, hxm, hym, hp1, hp2', hcr, hmu⟩ := hnew r hx
      rw [hspec] at hmu
      refine ⟨g, by rw [hcell], h0.closed _ gz p1 p2 g1 g hgz (hPof x p1 hxm hp1) (hPof y p2 hym hp2') hcr hmu, ?_⟩
      intro p hp
      rw [hcell] at hp
      cases hp
    · have hm := hes r hx
      have hcore := hB.core r (hal r hm)
      obtain ⟨g, d1, d2, d3⟩ := hgood r hm
      refine ⟨g, by rw [hcore.genotype]; exact d1, d2, ?_⟩
      intro p hp
      obtain ⟨p', f1, f2⟩ := d3 h0.pheno
      rw [hcore.phenotype, f1] at hp
      injection hp with hp
      rw [← hp]; exact f2
  have hbest4 : s4.ga.best = s.ga.best := by rw [k2]; simp only; rw [hB.ga]
  have hns : ∀ x k, s4.ga.best ≠ some (.single x k) := by
    obtain ⟨fr, g, hf, _⟩ := hI.front
    rw [hbest4, hf]
    intro x k e
    cases e
  refine Safe.bind ?_ ?_
  · rw [hops.fitness]
    exact h0.fitness hat4 hnd hpre hns
  intro u5 s5 h5
  rw [hops.fitness] at h5
  rw [hops.update]
  have hF := multiFitness_isFitness hops.uniform s4 s5 u5 hnd h5
  obtain ⟨_, _, a3, _⟩ := multiFitness_ok h5 hnd fun h' _ => hops.uniform.fit _ _
  refine multiUpdate_safe ?_ (by rw [hF.ga]; exact hns)
  intro r hr
  rw [hF.ga] at hr
  exact ⟨_, (a3 r hr).choose_spec.2.2.2.2⟩

theorem MultiSafe.mainLoop (h0 : MultiSafe ops fit op mop P s0) : ∀ {n k : Nat} {s : St σ},
    After ops s0 k s → k + n ≤ max 1 s0.ga.numGenerations → Safe (mainLoop ops n) s := by
  intro n
  induction n with
  | zero => intro k s _ _; exact Safe.pure _ _
  | succ n ih =>
    intro k s h hn
    have hk := h.pos
    rw [BaumEva.mainLoop]
    refine Safe.bind (h0.generation h (by omega)) ?_
    intro u s1 h1
    have h' := After.next h h1
    refine Safe.bind_ok (getGa_run s1) ?_
    obtain ⟨⟨_, _, hes⟩, _, _⟩ := h'.keeps sameSetup_frame h0.keep
    cases he : s1.ga.earlyStop with
    | none => exact absurd (hes.symm.trans he) h0.stop
    | some e => exact Safe.ite (fun _ => Safe.pure _ _) (fun _ => ih h' (by omega))

/-- The whole run raises nothing. -/
theorem MultiSafe.evolve (h0 : MultiSafe ops fit op mop P s0) : Safe (evolve ops) s0 := by
  have hops := h0.run
  have hnd := h0.fresh.distinct.sublist (unscored_sublist s0.heap s0.ga.population)
  have hns : ∀ x k, s0.ga.best ≠ some (.single x k) := by
    intro x k e
    rw [h0.fresh.best] at e
    cases e
  unfold BaumEva.evolve
  refine Safe.bind ?_ ?_
  · rw [hops.fitness]
    exact h0.fitness (b := s0.ga.attrs.isSorted) rfl hnd h0.first hns
  intro u s1 h1
  have h1' := h1
  rw [hops.fitness] at h1'
  have hF := multiFitness_isFitness hops.uniform s0 s1 u hnd h1'
  obtain ⟨_, _, a3, _⟩ := multiFitness_ok h1' hnd fun h' _ => hops.uniform.fit _ _
  refine Safe.bind ?_ ?_
  · rw [hops.update]
    refine multiUpdate_safe ?_ (by rw [hF.ga]; exact hns)
    intro r hr
    rw [hF.ga] at hr
    exact ⟨_, (a3 r hr).choose_spec.2.2.2.2⟩
  intro u2 s2 h2
  have hA := After.first h1 h2
  refine Safe.bind_ok (getGa_run s2) (h0.mainLoop hA ?_)
  obtain ⟨⟨hg, _, _⟩, _, _⟩ := hA.keeps sameSetup_frame h0.keep
  rw [hg]
  omega

/-- The result can be printed. -/
theorem MultiSafe.print (h0 : MultiSafe ops fit op mop P s0) {k : Nat} {s : St σ} (h : After ops s0 k s) : Safe printBest s := by
  have hI := h.multi h0.run h0.fresh
  obtain ⟨fr, g, hf, _, hmap⟩ := hI.front
  unfold printBest
  refine Safe.bind_ok (getS_run s) ?_
  rw [hf]
  cases g with
  | some j =>
    refine Safe.ite (fun _ => Safe.pure _ _) fun hn => absurd ?_ hn
    rw [List.all_eq_true]
    intro r hr
    have hm := List.mem_map_of_mem (f := s.heap) hr
    rw [hmap] at hm
    obtain ⟨q, hq, hqr⟩ := List.mem_map.mp hm
    rw [← hqr]
    exact hI.ready (by rw [h0.attrs k s h]; exact h0.pheno) q (List.mem_filter.mp hq).1
  | none =>
    exfalso
    have hfr : fr = [] := by
      rcases hI.count with ⟨e, _⟩ | ⟨_, _, e, _⟩
      · rw [hf] at e
        simp only [storedFront, Option.some.injEq, Prod.mk.injEq] at e
        exact e.1
      · rw [hf] at e
        simp [storedFront] at e
    obtain ⟨r0, hr0⟩ := List.exists_mem_of_ne_nil _ (h0.nonempty k s h)
    obtain ⟨b, hb, hn, _⟩ := exists_nonDominated fit.task.obj1 (s.ga.population.map s.heap) _ (List.mem_map_of_mem hr0)
    obtain ⟨r1, hr1, rfl⟩ := List.mem_map.mp hb
    have h1 := (hI.rank_one hr1).mpr hn
    rw [hfr, List.map_nil] at hmap
    have hnil := List.map_eq_nil_iff.mp hmap.symm
    rw [List.filter_eq_nil_iff] at hnil
    exact hnil r1 hr1 (by simp [h1])

end

end BaumEva
