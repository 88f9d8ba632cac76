import Verif.Spec.Run
import Verif.Proofs.Generation
import Verif.Proofs.Update
/-!
# Single-objective runs
-/
namespace BaumEva
variable {σ : Type}

/-! ## fitness -/

/-- Effect of `fitness.execute`: members get scored, scored members keep everything but phenotype and rank. -/
structure Scored (s s' : St σ) : Prop where
  shape : HeapCalls s s'
  old : ∀ r, r ∉ s.ga.population → s'.heap r = s.heap r
  kept : ∀ r ∈ s.ga.population, (s.heap r).score.isSome →
    s'.heap r = { s.heap r with phenotype := (s'.heap r).phenotype, rank := (s'.heap r).rank }
  geno : ∀ r ∈ s.ga.population, (s'.heap r).genotype = (s.heap r).genotype
  done : ∀ r ∈ s.ga.population, (s'.heap r).score.isSome

/-- A computation with this effect. -/
def IsFitness (f : M σ Unit) : Prop :=
  ∀ (s s' : St σ) (u : Unit), (unscored s.heap s.ga.population).Nodup → f s = (.ok u, s') → Scored s s'

theorem mem_unscored {h : Nat → Ind σ} {l : List Nat} {r : Nat} : r ∈ unscored h l ↔ r ∈ l ∧ (h r).score = none := by
  unfold unscored
  rw [List.mem_filter]
  simp

theorem baseFitness_isFitness (fit : Fit σ) : IsFitness (baseFitnessExec fit) := by
  intro s s' u hnd h
  obtain ⟨a1, _, a3, a4, a5⟩ := baseFitness_ok h hnd
  refine ⟨a1, a3, ?_, ?_, ?_⟩
  · intro r hr hs
    have := (a4 r hr hs).keeps
    rw [this]
  · intro r hr
    cases hs : (s.heap r).score with
    | some v =>
      have := (a4 r hr (by rw [hs]; rfl)).keeps
      rw [this]
    | none =>
      obtain ⟨m, best, b1, _, b3⟩ := a5 r (mem_unscored.mpr ⟨hr, hs⟩)
      rw [b3.keeps.2.1, b1.keeps]
  · intro r hr
    cases hs : (s.heap r).score with
    | some v =>
      have := (a4 r hr (by rw [hs]; rfl)).keeps
      rw [this, hs]; rfl
    | none =>
      obtain ⟨m, best, b1, _, b3⟩ := a5 r (mem_unscored.mpr ⟨hr, hs⟩)
      exact b3.keeps.1

theorem Scored.ga {s s' : St σ} (h : Scored s s') : s'.ga = s.ga := by rw [h.shape]
theorem Scored.next {s s' : St σ} (h : Scored s s') : s'.next = s.next := by rw [h.shape]
theorem Scored.snaps {s s' : St σ} (h : Scored s s') : s'.snaps = s.snaps := by rw [h.shape]
theorem Scored.seed {s s' : St σ} (h : Scored s s') : s'.seed = s.seed := by rw [h.shape]
theorem Scored.score {s s' : St σ} (h : Scored s s') {r : Nat} {v : σ} (hr : (s.heap r).score = some v) :
    (s'.heap r).score = some v := by
  by_cases hm : r ∈ s.ga.population
  · rw [h.kept r hm (by rw [hr]; rfl)]; exact hr
  · rw [h.old r hm]; exact hr

/-! ## the components of a single-objective run -/

/-- Components of a run whose storage is `GaData`. -/
structure SingleRun [LinearOrder σ] (ops : Ops σ) (m : Nat) (op : CrossOp) (mop : MutOp) (tr : Transfer) : Prop where
  fitness : IsFitness ops.fitness
  update : ops.update = gaUpdate
  selection : IsSelection ops.selection m
  crossover : ops.crossover = crossExec op
  mutation : ops.mutation = mutExec mop
  newGen : ops.newGen = newGenExec tr

theorem singleOps_run (fit : Fit ℚ) (sel : SelOp) (op : CrossOp) (mop : MutOp) (tr : Transfer) :
    SingleRun (singleOps fit sel op mop tr) 1 op mop tr :=
  ⟨baseFitness_isFitness fit, rfl, selExec_isSelection sel, rfl, rfl, rfl⟩

/-- A state between generations: members are allocated, scored and sorted. -/
structure Settled [LinearOrder σ] (s : St σ) : Prop where
  alive : ∀ r ∈ s.ga.population, r < s.next
  asc : Ascending s.heap s.ga.population
  sorted : s.ga.attrs.isSorted = true
  best : ∀ b g, s.ga.best = some (.single b g) → b < s.next ∧ b ∉ s.ga.population

/-- The states inside one generation (before `update`): after mutation, after `new_generation`, after
evaluation. -/
theorem generation_steps [LinearOrder σ] {ops : Ops σ} {m : Nat} {op : CrossOp} {mop : MutOp} {tr : Transfer}
    (hops : SingleRun ops m op mop tr) {s s' : St σ} {u : Unit} (hs : Settled s) (h : generation ops s = (.ok u, s')) :
    ∃ s1 s2 s3 es t, breed ops.selection op mop s = (.ok (), s1) ∧ Bore op mop s s1 ∧ s1.ga.children.length = numPairs s.ga m ∧ Elites s.ga.population es ∧
      s2 = { s1 with
        tape := t
        ga := { s1.ga with
          children := s1.ga.children ++ es
          population := s1.ga.children ++ es
          attrs := { s1.ga.attrs with isSorted := false } } } ∧
      (s1.ga.attrs.numIndivid ≤ s1.ga.children.length → es.length = 1) ∧
      (s1.ga.attrs.numIndivid - s1.ga.children.length < s.ga.population.length →
        es.length = s1.ga.attrs.numIndivid - s1.ga.children.length + 1) ∧
      unscored s2.heap s2.ga.population = s1.ga.children ∧
      ops.fitness s2 = (.ok (), s3) ∧ Scored s2 s3 ∧ gaUpdate s3 = (.ok (), s') ∧
      newGenExec tr s1 = (.ok (), s2) := by
  unfold generation at h
  obtain ⟨_, a1, h1, k1⟩ := bind_ok.mp h
  obtain ⟨_, a2, h2, k2⟩ := bind_ok.mp k1
  obtain ⟨_, a3, h3, k3⟩ := bind_ok.mp k2
  obtain ⟨_, a4, h4, k4⟩ := bind_ok.mp k3
  obtain ⟨_, a5, h5, k5⟩ := bind_ok.mp k4
  rw [hops.crossover] at h2
  rw [hops.mutation] at h3
  rw [hops.newGen] at h4
  rw [hops.update] at k5
  have hbr : breed ops.selection op mop s = (.ok (), a3) := by
    unfold breed
    rw [bind_of_ok h1, bind_of_ok h2]
    exact h3
  obtain ⟨hB, hlen⟩ := breed_ok hops.selection hs.alive hbr
  have hsorted : a3.ga.attrs.isSorted = true := by rw [hB.ga]; exact hs.sorted
  have hpop : a3.ga.population = s.ga.population := by rw [hB.ga]
  obtain ⟨pop, es, t, _, e1, _, hel, e2, e3, e4⟩ := newGenExec_ok h4
  have e1 := e1 hsorted
  rw [e1, hpop] at hel
  rw [hpop] at e4
  have hun : unscored a4.heap a4.ga.population = a3.ga.children := by
    have hh : a4.heap = a3.heap := by rw [e2]
    have hp : a4.ga.population = a3.ga.children ++ es := by rw [e2]
    rw [hh, hp]
    unfold unscored
    rw [List.filter_append]
    have c1 : (a3.ga.children.filter fun r => (a3.heap r).score.isNone) = a3.ga.children := by
      rw [List.filter_eq_self]
      intro r hr
      obtain ⟨_, _, _, _, hnew⟩ := hB.new
      obtain ⟨g, hg, _⟩ := hnew r hr
      rw [hg]; rfl
    have c2 : (es.filter fun r => (a3.heap r).score.isNone) = [] := by
      rw [List.filter_eq_nil_iff]
      intro r hr
      have hm := hel.mem r hr
      rw [(hB.core r (hs.alive r hm)).score]
      have := hs.asc.1 r hm
      cases hx : (s.heap r).score with
      | none => rw [hx] at this; simp at this
      | some v => simp
    rw [c1, c2, List.append_nil]
  have hnd : a3.ga.children.Nodup := by
    obtain ⟨n0, _, hr, _⟩ := hB.range
    rw [hr]; exact List.nodup_range'
  have hF := hops.fitness a4 a5 _ (by rw [hun]; exact hnd) h5
  exact ⟨a3, a4, a5, es, t, hbr, hB, hlen, hel, e2, e3, e4, hun, h5, hF, k5, h4⟩

@[inherit_doc generation_steps]
theorem generation_ok [LinearOrder σ] {ops : Ops σ} {m : Nat} {op : CrossOp} {mop : MutOp} {tr : Transfer}
    (hops : SingleRun ops m op mop tr) {s s' : St σ} {u : Unit} (hs : Settled s) (h : generation ops s = (.ok u, s')) :
    ∃ s1 s2 s3 es t, Bore op mop s s1 ∧ s1.ga.children.length = numPairs s.ga m ∧ Elites s.ga.population es ∧
      s2 = { s1 with
        tape := t
        ga := { s1.ga with
          children := s1.ga.children ++ es
          population := s1.ga.children ++ es
          attrs := { s1.ga.attrs with isSorted := false } } } ∧
      (s1.ga.attrs.numIndivid ≤ s1.ga.children.length → es.length = 1) ∧
      (s1.ga.attrs.numIndivid - s1.ga.children.length < s.ga.population.length →
        es.length = s1.ga.attrs.numIndivid - s1.ga.children.length + 1) ∧
      unscored s2.heap s2.ga.population = s1.ga.children ∧
      ops.fitness s2 = (.ok (), s3) ∧ Scored s2 s3 ∧ gaUpdate s3 = (.ok (), s') ∧
      newGenExec tr s1 = (.ok (), s2) := by
  obtain ⟨s1, s2, s3, es, t, _, h⟩ := generation_steps hops hs h
  exact ⟨s1, s2, s3, es, t, h⟩

/-! ## the record of a run -/

/-- What `historical_*` say about one recorded population. -/
structure SnapOk [LinearOrder σ] (l : List (Ind σ)) (b m w : σ) : Prop where
  best : (l.getLast?).bind (fun x => x.score) = some b
  med : (l[l.length / 2]?).bind (fun x => x.score) = some m
  worst : (l.head?).bind (fun x => x.score) = some w
  scored : ∀ x ∈ l, x.score.isSome
  sorted : l.Pairwise fun x y => ∀ a b, x.score = some a → y.score = some b → a ≤ b

/-- The record after `k` generations: histories, snapshots, `best_solution` and the counter. -/
structure Hist [LinearOrder σ] (s : St σ) (k : Nat) : Prop where
  idx : s.ga.idxGeneration = k
  snaps : s.snaps.length = k
  lenB : s.ga.histBest.length = k
  lenM : s.ga.histMed.length = k
  lenW : s.ga.histWorst.length = k
  entry : ∀ (i : Nat) (l : List (Ind σ)), s.snaps[i]? = some l → ∃ b m w, s.ga.histBest[i]? = some b ∧
    s.ga.histMed[i]? = some m ∧ s.ga.histWorst[i]? = some w ∧ SnapOk l b m w
  mono : s.ga.histBest.Pairwise (· ≤ ·)
  best : (k = 0 ∧ s.ga.best = none ∧ s.ga.noImprove = 0) ∨
    ∃ b g v l, s.ga.best = some (.single b g) ∧ b < s.next ∧ (s.heap b).score = some v ∧ g + s.ga.noImprove + 1 = k ∧
      s.snaps[g]? = some l ∧ s.heap b ∈ l ∧ (∀ (i : Nat) (x : σ), i < g → s.ga.histBest[i]? = some x → x < v) ∧
      (∀ (i : Nat) (x : σ), g ≤ i → s.ga.histBest[i]? = some x → x = v)

theorem Hist.frame [LinearOrder σ] {s s' : St σ} {k : Nat} (h : Hist s k) (h1 : s'.ga.idxGeneration = s.ga.idxGeneration)
    (h2 : s'.snaps = s.snaps) (h3 : s'.ga.histBest = s.ga.histBest) (h4 : s'.ga.histMed = s.ga.histMed)
    (h5 : s'.ga.histWorst = s.ga.histWorst) (h6 : s'.ga.best = s.ga.best) (h7 : s'.ga.noImprove = s.ga.noImprove)
    (h8 : s.next ≤ s'.next) (h9 : ∀ b g, s.ga.best = some (.single b g) → s'.heap b = s.heap b) : Hist s' k := by
  refine ⟨by rw [h1]; exact h.idx, by rw [h2]; exact h.snaps, by rw [h3]; exact h.lenB, by rw [h4]; exact h.lenM,
    by rw [h5]; exact h.lenW, ?_, by rw [h3]; exact h.mono, ?_⟩
  · rw [h2, h3, h4, h5]; exact h.entry
  · rw [h2, h3, h6, h7]
    rcases h.best with hb | ⟨b, g, v, l, b1, b2, b3, b4⟩
    · exact Or.inl hb
    · have hh := h9 b g b1
      refine Or.inr ⟨b, g, v, l, b1, b2.trans_le h8, ?_⟩
      rw [hh]
      exact ⟨b3, b4⟩

/-- Maximum of the scores so far. -/
theorem gaUpdate_step [LinearOrder σ] {s s' : St σ} {u : Unit} {k : Nat} (hh : Hist s k)
    (hal : ∀ r ∈ s.ga.population, r < s.next) (hso : s.ga.attrs.isSorted = true → Ascending s.heap s.ga.population)
    (hsurv : ∀ b g, s.ga.best = some (.single b g) → b ∉ s.ga.population ∧
      ∀ v, (s.heap b).score = some v → ∃ r ∈ s.ga.population, (s.heap r).score = some v)
    (h : gaUpdate s = (.ok u, s')) :
    Hist s' (k + 1) ∧ Settled s' ∧ s'.snaps.getLast? = some (s'.ga.population.map s'.heap) ∧
      s'.ga.population.Perm s.ga.population ∧ (∀ r, r < s.next → s'.heap r = s.heap r) ∧
      s'.ga.attrs = { s.ga.attrs with isSorted := true } ∧ s.next ≤ s'.next ∧
      (s.ga.attrs.isSorted = false → SortedBy (fun r => (s.heap r).score) s.ga.population s'.ga.population) := by
  obtain ⟨pop, rb, rm, rw', b, m, w, hperm, hs1, hs2, l1, l2, l3, b1, b2, b3, s1, hdec, rfl⟩ := gaUpdate_ok h
  have hasc : Ascending s.heap pop := by
    cases hx : s.ga.attrs.isSorted with
    | true => rw [hs1 hx]; exact hso hx
    | false => exact (hs2 hx).ascending
  have halp : ∀ r ∈ pop, r < s.next := fun r hr => hal r (hperm.subset hr)
  have hmapeq : ∀ h' : Nat → Ind σ, (∀ r, r < s.next → h' r = s.heap r) → pop.map h' = pop.map s.heap := by
    intro h' hc
    exact List.map_congr_left fun r hr => hc r (halp r hr)
  have hsnap : SnapOk (pop.map s.heap) b m w := by
    refine ⟨?_, ?_, ?_, ?_, ?_⟩
    · rw [List.getLast?_map, l1]; exact b1
    · rw [List.length_map, List.getElem?_map, l2]; exact b2
    · rw [List.head?_map, l3]; exact b3
    · intro x hx
      obtain ⟨r, hr, rfl⟩ := List.mem_map.mp hx
      exact hasc.1 r hr
    · rw [List.pairwise_map]
      exact hasc.2
  have hrb : rb ∈ pop := List.mem_of_getLast? l1
  have hbmem : s.heap rb ∈ pop.map s.heap := List.mem_map_of_mem hrb
  -- the part that does not depend on the decision
  have common : ∀ (h' : Nat → Ind σ) (nx : Nat) (bst : Best) (ni : Nat), (∀ r, r < s.next → h' r = s.heap r) → s.next ≤ nx →
      (∀ x ∈ s.ga.histBest, x ≤ b) →
      (∀ c g, bst = .single c g → c < nx ∧ c ∉ pop) →
      (∃ c g v l, bst = .single c g ∧ c < nx ∧ (h' c).score = some v ∧ g + ni + 1 = k + 1 ∧
        (s.snaps ++ [pop.map s.heap])[g]? = some l ∧ h' c ∈ l ∧
        (∀ (i : Nat) (x : σ), i < g → (s.ga.histBest ++ [b])[i]? = some x → x < v) ∧
        (∀ (i : Nat) (x : σ), g ≤ i → (s.ga.histBest ++ [b])[i]? = some x → x = v)) →
      let s2 : St σ := { s with
        heap := h'
        next := nx
        ga := { s.ga with
          population := pop, attrs := { s.ga.attrs with isSorted := true }
          histBest := s.ga.histBest ++ [b], histMed := s.ga.histMed ++ [m], histWorst := s.ga.histWorst ++ [w]
          best := some bst, noImprove := ni, idxGeneration := s.ga.idxGeneration + 1 }
        snaps := s.snaps ++ [pop.map h'] }
      Hist s2 (k + 1) ∧ Settled s2 ∧ s2.snaps.getLast? = some (s2.ga.population.map s2.heap) ∧
      s2.ga.population.Perm s.ga.population ∧ (∀ r, r < s.next → s2.heap r = s.heap r) ∧
      s2.ga.attrs = { s.ga.attrs with isSorted := true } ∧ s.next ≤ s2.next ∧
      (s.ga.attrs.isSorted = false → SortedBy (fun r => (s.heap r).score) s.ga.population s2.ga.population) := by
    intro h' nx bst ni c1 c2 c3 c4 c5 s2
    have hm := hmapeq h' c1
    refine ⟨⟨by simp [s2, hh.idx], by simp [s2, hh.snaps], by simp [s2, hh.lenB], by simp [s2, hh.lenM],
      by simp [s2, hh.lenW], ?_, ?_, Or.inr ?_⟩, ⟨?_, ⟨?_, ?_⟩, rfl, ?_⟩, by simp [s2], hperm, c1, rfl, c2, hs2⟩
    · intro i l hl
      simp only [s2, hm] at hl ⊢
      by_cases hi : i < k
      · rw [List.getElem?_append_left (by rw [hh.snaps]; exact hi)] at hl
        rw [List.getElem?_append_left (by rw [hh.lenB]; exact hi), List.getElem?_append_left (by rw [hh.lenM]; exact hi),
          List.getElem?_append_left (by rw [hh.lenW]; exact hi)]
        exact hh.entry i l hl
      · have hik : i = k := by
          have := (List.getElem?_eq_some_iff.mp hl).1
          simp [hh.snaps] at this; omega
        subst hik
        rw [List.getElem?_append_right (by rw [hh.snaps])] at hl
        simp [hh.snaps] at hl
        subst hl
        refine ⟨b, m, w, ?_, ?_, ?_, hsnap⟩
        · rw [List.getElem?_append_right (by rw [hh.lenB])]; simp [hh.lenB]
        · rw [List.getElem?_append_right (by rw [hh.lenM])]; simp [hh.lenM]
        · rw [List.getElem?_append_right (by rw [hh.lenW])]; simp [hh.lenW]
    · simp only [s2]
      rw [List.pairwise_append]
      exact ⟨hh.mono, by simp, fun x hx y hy => by simp at hy; rw [hy]; exact c3 x hx⟩
    · simp only [s2, hm]
      obtain ⟨c, g, v, l, d1, d2⟩ := c5
      exact ⟨c, g, v, l, by rw [d1], d2⟩
    · intro r hr; exact (halp r hr).trans_le c2
    · intro r hr
      simp only [s2] at hr ⊢
      rw [c1 r (halp r hr)]; exact hasc.1 r hr
    · simp only [s2]
      refine List.Pairwise.imp_of_mem ?_ hasc.2
      intro x y hx hy hxy
      rw [c1 x (halp x hx), c1 y (halp y hy)]
      exact hxy
    · intro c g hc
      simp only [s2, Option.some.injEq] at hc
      exact c4 c g hc
  have fresh : s.next ∉ pop := fun hc => absurd (halp _ hc) (lt_irrefl _)
  have updlt : ∀ r, r < s.next → upd s.heap s.next (s.heap rb) r = s.heap r := fun r hr => upd_ne (Nat.ne_of_lt hr)
  have newEntry : (s.snaps ++ [pop.map s.heap])[k]? = some (pop.map s.heap) := by
    rw [List.getElem?_append_right (by rw [hh.snaps])]; simp [hh.snaps]
  have lastHist : ∀ (i : Nat) (x : σ), k ≤ i → (s.ga.histBest ++ [b])[i]? = some x → x = b := by
    intro i x hi hx
    rw [List.getElem?_append_right (by rw [hh.lenB]; exact hi), hh.lenB] at hx
    have : i - k = 0 := by
      have := (List.getElem?_eq_some_iff.mp hx).1
      simpa using this
    rw [this] at hx
    simpa using hx.symm
  -- the best so far is not above the new best
  have topped : ∀ c g v, s.ga.best = some (.single c g) → (s.heap c).score = some v → v ≤ b := by
    intro c g v e1 e2
    obtain ⟨r, hr, e3⟩ := (hsurv c g e1).2 v e2
    exact hasc.last l1 (hperm.symm.subset hr) e3 b1
  have histLe : ∀ c g v, s.ga.best = some (.single c g) → (s.heap c).score = some v → ∀ x ∈ s.ga.histBest, x ≤ v := by
    intro c g v e1 e2 x hx
    rcases hh.best with ⟨_, e, _⟩ | ⟨c', g', v', l, d1, _, d3, _, _, _, d7, d8⟩
    · rw [e] at e1; simp at e1
    · rw [d1] at e1
      simp at e1
      obtain ⟨rfl, rfl⟩ := e1
      rw [d3] at e2
      injection e2 with e2
      subst e2
      obtain ⟨i, hi⟩ := List.getElem?_of_mem hx
      by_cases hig : i < g'
      · exact le_of_lt (d7 i x hig hi)
      · exact le_of_eq (d8 i x (by omega) hi)
  cases hdec with
  | first hn =>
    simp only at hn
    have hk : k = 0 ∧ s.ga.noImprove = 0 := by
      rcases hh.best with ⟨e, _, e2⟩ | ⟨c, g, v, l, d1, _⟩
      · exact ⟨e, e2⟩
      · rw [hn] at d1; simp at d1
    have hidx : s.ga.idxGeneration = 0 := by rw [hh.idx]; exact hk.1
    have hemp : s.ga.histBest = [] := List.length_eq_zero_iff.mp (by rw [hh.lenB]; exact hk.1)
    refine common (upd s.heap s.next (s.heap rb)) (s.next + 1) (.single s.next s.ga.idxGeneration) s.ga.noImprove
      updlt (Nat.le_succ _) (by rw [hemp]; simp) ?_ ⟨s.next, s.ga.idxGeneration, b, pop.map s.heap, rfl, Nat.lt_succ_self _, ?_, ?_, ?_, ?_, ?_, ?_⟩
    · intro c g hc; injection hc with e1 e2; subst e1; exact ⟨Nat.lt_succ_self _, fresh⟩
    · rw [upd_same]; exact b1
    · rw [hidx, hk.1, hk.2]
    · rw [hh.idx]; exact newEntry
    · rw [upd_same]; exact hbmem
    · intro i x hi; omega
    · intro i x hi hx; exact lastHist i x (by rw [hk.1]; omega) hx
  | @better c g bs sc e1 e2 e3 hlt =>
    simp only at e1 e2 e3
    rw [b1] at e3
    injection e3 with e3
    subst e3
    refine common (upd s.heap s.next (s.heap rb)) (s.next + 1) (.single s.next s.ga.idxGeneration) 0
      updlt (Nat.le_succ _) ?_ ?_ ⟨s.next, s.ga.idxGeneration, b, pop.map s.heap, rfl, Nat.lt_succ_self _, ?_, ?_, ?_, ?_, ?_, ?_⟩
    · intro x hx; exact (histLe c g bs e1 e2 x hx).trans hlt.le
    · intro c g hc; injection hc with e1 e2; subst e1; exact ⟨Nat.lt_succ_self _, fresh⟩
    · rw [upd_same]; exact b1
    · rw [hh.idx]
    · rw [hh.idx]; exact newEntry
    · rw [upd_same]; exact hbmem
    · intro i x hi hx
      rw [hh.idx] at hi
      rw [List.getElem?_append_left (by rw [hh.lenB]; exact hi)] at hx
      exact (histLe c g bs e1 e2 x (List.mem_of_getElem? hx)).trans_lt hlt
    · intro i x hi hx; exact lastHist i x (by rw [hh.idx] at hi; exact hi) hx
  | @same c g bs sc e1 e2 e3 hlt =>
    simp only at e1 e2 e3
    rw [b1] at e3
    injection e3 with e3
    subst e3
    have hEq : bs = b := le_antisymm (topped c g bs e1 e2) (not_lt.mp hlt)
    subst hEq
    rcases hh.best with ⟨_, e, _⟩ | ⟨c', g', v', l, d1, d2, d3, d4, d5, d6, d7, d8⟩
    · rw [e] at e1; simp at e1
    rw [d1] at e1
    simp at e1
    obtain ⟨rfl, rfl⟩ := e1
    rw [d3] at e2
    injection e2 with e2
    subst e2
    have := common s.heap s.next (.single c' g') (s.ga.noImprove + 1) (fun _ _ => rfl) le_rfl ?_ ?_
      ⟨c', g', v', l, rfl, d2, d3, by omega, ?_, d6, ?_, ?_⟩
    · simp only [d1] at this ⊢
      exact this
    · exact fun x hx => histLe c' g' v' d1 d3 x hx
    · intro c2 g2 hc; injection hc with e1 e2; subst e1; exact ⟨d2, fun hc => (hsurv c' g' d1).1 (hperm.subset hc)⟩
    · rw [List.getElem?_append_left (List.getElem?_eq_some_iff.mp d5).1]; exact d5
    · intro i x hi hx
      rw [List.getElem?_append_left (by rw [hh.lenB]; omega)] at hx
      exact d7 i x hi hx
    · intro i x hi hx
      by_cases hik : i < k
      · rw [List.getElem?_append_left (by rw [hh.lenB]; exact hik)] at hx
        exact d8 i x hi hx
      · exact lastHist i x (by omega) hx

/-- Everything that holds after `k` generations. -/
structure RunInv [LinearOrder σ] (s : St σ) (k : Nat) : Prop where
  pos : 0 < k
  hist : Hist s k
  settled : Settled s
  last : s.snaps.getLast? = some (s.ga.population.map s.heap)

/-- The last member of the population has the score of `best_solution`. -/
theorem RunInv.top [LinearOrder σ] {s : St σ} {k : Nat} (h : RunInv s k) : ∃ b g v r, s.ga.best = some (.single b g) ∧
    (s.heap b).score = some v ∧ s.ga.population.getLast? = some r ∧ (s.heap r).score = some v ∧
    s.ga.histBest.getLast? = some v := by
  have hpos := h.pos
  rcases h.hist.best with ⟨e, _⟩ | ⟨b, g, v, l, b1, _, b3, b4, _, _, _, b8⟩
  · omega
  have hl := h.last
  rw [List.getLast?_eq_getElem?, h.hist.snaps] at hl
  obtain ⟨x, _, _, c1, _, _, hok⟩ := h.hist.entry _ _ hl
  have hx := b8 (k - 1) x (by omega) c1
  subst hx
  have hb := hok.best
  rw [List.getLast?_map] at hb
  cases hr : s.ga.population.getLast? with
  | none => rw [hr] at hb; simp at hb
  | some r =>
    rw [hr] at hb
    refine ⟨b, g, x, r, b1, b3, rfl, hb, ?_⟩
    rw [List.getLast?_eq_getElem?, h.hist.lenB]; exact c1

theorem Fresh.hist [LinearOrder σ] {s : St σ} (h : Fresh s) : Hist s 0 := by
  refine ⟨h.idx, by rw [h.snaps]; rfl, by rw [h.histBest]; rfl, by rw [h.histMed]; rfl, by rw [h.histWorst]; rfl, ?_, ?_,
    Or.inl ⟨rfl, h.best, h.noImprove⟩⟩
  · intro i l hl; rw [h.snaps] at hl; simp at hl
  · rw [h.histBest]; exact List.Pairwise.nil

theorem unscored_sublist (h : Nat → Ind σ) (l : List Nat) : (unscored h l).Sublist l := List.filter_sublist

/-- The first generation. -/
theorem first_inv [LinearOrder σ] {f : M σ Unit} (hf : IsFitness f) {s0 s1 s : St σ} (h0 : Fresh s0)
    (h1 : f s0 = (.ok (), s1)) (h2 : gaUpdate s1 = (.ok (), s)) :
    RunInv s 1 ∧ s.ga.population.Perm s0.ga.population ∧ (∀ r, r < s0.next → s.heap r = s1.heap r) ∧
      s.ga.attrs = { s0.ga.attrs with isSorted := true } ∧ s0.next ≤ s.next ∧ Scored s0 s1 ∧
      SortedBy (fun r => (s1.heap r).score) s0.ga.population s.ga.population := by
  have hS := hf s0 s1 _ (h0.distinct.sublist (unscored_sublist _ _)) h1
  have hga := hS.ga
  have hu : s1.ga.attrs.isSorted = false := by rw [hga]; exact h0.unsorted
  obtain ⟨a1, a2, a3, a4, a5, a6, a7, a8⟩ := gaUpdate_step (k := 0) (h0.hist.frame (by rw [hga]) hS.snaps (by rw [hga]) (by rw [hga])
    (by rw [hga]) (by rw [hga]) (by rw [hga]) (by rw [hS.next]) (by intro b g e; rw [h0.best] at e; simp at e))
    (by rw [hga, hS.next]; exact h0.alive) (by intro e; rw [hu] at e; simp at e)
    (by intro b g e; rw [hga, h0.best] at e; simp at e) h2
  rw [hga] at a4 a6
  rw [hS.next] at a5 a7
  have a8 := a8 hu
  rw [hga] at a8
  exact ⟨⟨Nat.one_pos, a1, a2, a3⟩, a4, a5, a6, a7, hS, a8⟩

/-- One more generation; the intermediate states are those of `generation_ok`. -/
theorem generation_inv [LinearOrder σ] {ops : Ops σ} {m : Nat} {op : CrossOp} {mop : MutOp} {tr : Transfer}
    (hops : SingleRun ops m op mop tr) {s s' : St σ} {u : Unit} {k : Nat} (hs : RunInv s k)
    (h : generation ops s = (.ok u, s')) :
    RunInv s' (k + 1) ∧ ∃ s1 s2 s3 es t, Bore op mop s s1 ∧ s1.ga.children.length = numPairs s.ga m ∧
      Elites s.ga.population es ∧
      s2 = { s1 with
        tape := t
        ga := { s1.ga with
          children := s1.ga.children ++ es
          population := s1.ga.children ++ es
          attrs := { s1.ga.attrs with isSorted := false } } } ∧
      (s1.ga.attrs.numIndivid ≤ s1.ga.children.length → es.length = 1) ∧
      (s1.ga.attrs.numIndivid - s1.ga.children.length < s.ga.population.length →
        es.length = s1.ga.attrs.numIndivid - s1.ga.children.length + 1) ∧
      unscored s2.heap s2.ga.population = s1.ga.children ∧
      ops.fitness s2 = (.ok (), s3) ∧ Scored s2 s3 ∧ gaUpdate s3 = (.ok (), s') ∧
      s'.ga.population.Perm (s1.ga.children ++ es) ∧ (∀ r, r < s1.next → s'.heap r = s3.heap r) ∧
      s'.ga.attrs = s.ga.attrs ∧ s1.next ≤ s'.next ∧
      SortedBy (fun r => (s3.heap r).score) (s1.ga.children ++ es) s'.ga.population := by
  obtain ⟨s1, s2, s3, es, t, hB, hlen, hel, e2, e3, e4, hun, hfit, hF, hup, _⟩ := generation_ok hops hs.settled h
  obtain ⟨n0, hn0, hrange, hn1⟩ := hB.range
  have hsn : s.next ≤ s1.next := by omega
  have hn2 : s2.next = s1.next := by rw [e2]
  have hh2 : s2.heap = s1.heap := by rw [e2]
  have hp2 : s2.ga.population = s1.ga.children ++ es := by rw [e2]
  have hu2 : s2.ga.attrs.isSorted = false := by rw [e2]
  obtain ⟨b, g, v, r, t1, t2, t3, t4, t5⟩ := hs.top
  have hb := hs.settled.best b g t1
  have hbc : b ∉ s2.ga.population := by
    rw [hp2, List.mem_append]
    rintro (hc | hc)
    · rw [hrange, List.mem_range'_1] at hc; omega
    · exact hb.2 (hel.mem b hc)
  have hbh : s3.heap b = s.heap b := by rw [hF.old b hbc, hh2]; exact hB.old b hb.1 hb.2
  have hgaX : ∀ x : St σ, x = s2 → x.ga.idxGeneration = s.ga.idxGeneration ∧ x.ga.histBest = s.ga.histBest ∧
      x.ga.histMed = s.ga.histMed ∧ x.ga.histWorst = s.ga.histWorst ∧ x.ga.best = s.ga.best ∧
      x.ga.noImprove = s.ga.noImprove ∧ x.ga.attrs = { s.ga.attrs with isSorted := false } ∧ x.snaps = s.snaps := by
    intro x hx
    rw [hx, e2]
    simp only
    rw [hB.ga, hB.snaps]
    exact ⟨rfl, rfl, rfl, rfl, rfl, rfl, rfl, rfl⟩
  obtain ⟨g1, g2, g3, g4, g5, g6, g7, g8⟩ := hgaX s2 rfl
  have hlast : s2.ga.population.getLast? = some r := by
    rw [hp2, List.getLast?_append, hel.last, t3]; rfl
  have hH3 : Hist s3 k := hs.hist.frame (by rw [hF.ga, g1]) (by rw [hF.snaps, g8]) (by rw [hF.ga, g2]) (by rw [hF.ga, g3])
    (by rw [hF.ga, g4]) (by rw [hF.ga, g5]) (by rw [hF.ga, g6]) (by rw [hF.next, hn2]; exact hsn)
    (by intro b' g' e; rw [t1] at e; simp at e; rw [← e.1]; exact hbh)
  have hu3 : s3.ga.attrs.isSorted = false := by rw [hF.ga]; exact hu2
  have hrm : r ∈ s.ga.population := List.mem_of_getLast? t3
  have hr3 : (s3.heap r).score = some v := by
    refine hF.score ?_
    rw [hh2, (hB.core r (hs.settled.alive r hrm)).score]; exact t4
  obtain ⟨a1, a2, a3, a4, a5, a6, a7, a8⟩ := gaUpdate_step hH3
    (by
      rw [hF.ga, hF.next, hn2, hp2]
      intro x hx
      rcases List.mem_append.mp hx with hx | hx
      · rw [hrange, List.mem_range'_1] at hx; omega
      · exact (hs.settled.alive x (hel.mem x hx)).trans_le hsn)
    (by intro e; rw [hu3] at e; simp at e)
    (by
      intro b' g' e
      rw [hF.ga, g5, t1] at e
      simp at e
      rw [← e.1, hF.ga]
      refine ⟨hbc, fun v' hv' => ⟨r, List.mem_of_getLast? hlast, ?_⟩⟩
      rw [hbh, t2] at hv'
      rw [hr3]; exact hv') hup
  rw [hF.ga, hp2] at a4
  rw [hF.next, hn2] at a5 a7
  rw [hF.ga, g7] at a6
  have a8 := a8 hu3
  rw [hF.ga, hp2] at a8
  refine ⟨⟨Nat.succ_pos _, a1, a2, a3⟩, s1, s2, s3, es, t, hB, hlen, hel, e2, e3, e4, hun, hfit, hF, hup, a4, a5, ?_, a7, a8⟩
  rw [a6]
  have := hs.settled.sorted
  cases ha : s.ga.attrs with
  | mk x1 x2 x3 x4 x5 x6 => rw [ha] at this; simp at this; rw [this]

/-- The invariant holds after every generation. -/
theorem After.inv [LinearOrder σ] {ops : Ops σ} {m : Nat} {op : CrossOp} {mop : MutOp} {tr : Transfer}
    (hops : SingleRun ops m op mop tr) {s0 s : St σ} {k : Nat} (h0 : Fresh s0) (h : After ops s0 k s) : RunInv s k := by
  induction h with
  | first h1 h2 => rw [hops.update] at h2; exact (first_inv hops.fitness h0 h1 h2).1
  | next _ h2 ih => exact (generation_inv hops ih h2).1

/-! ## the main loop -/

theorem After.pos {ops : Ops σ} {s0 s : St σ} {k : Nat} (h : After ops s0 k s) : 1 ≤ k := by
  cases h <;> omega

theorem After.unique {ops : Ops σ} {s0 s s' : St σ} {k : Nat} (h : After ops s0 k s) (h' : After ops s0 k s') : s' = s := by
  induction h generalizing s' with
  | first h1 h2 =>
    cases h' with
    | first g1 g2 =>
      rw [h1] at g1
      obtain ⟨_, rfl⟩ := Prod.mk.inj g1
      rw [h2] at g2
      exact (Prod.mk.inj g2).2.symm
    | next g1 g2 => exact absurd g1.pos (by omega)
  | next h1 h2 ih =>
    cases h' with
    | first g1 g2 => exact absurd h1.pos (by omega)
    | next g1 g2 =>
      obtain rfl := ih g1
      rw [h2] at g2
      exact (Prod.mk.inj g2).2.symm

theorem mainLoop_after {ops : Ops σ} {s0 : St σ} : ∀ {n k : Nat} {s s' : St σ} {u : Unit}, After ops s0 k s →
    mainLoop ops n s = (.ok u, s') → ∃ j, k ≤ j ∧ j ≤ k + n ∧ After ops s0 j s' ∧
      (j < k + n → k < j ∧ ∃ e, s'.ga.earlyStop = some e ∧ e < s'.ga.noImprove) ∧
      (∀ i si, k < i → i < j → After ops s0 i si → ∃ e, si.ga.earlyStop = some e ∧ ¬ e < si.ga.noImprove) := by
  intro n
  induction n with
  | zero =>
    intro k s s' u hk h
    rw [mainLoop] at h
    obtain ⟨_, rfl⟩ := pure_ok.mp h
    exact ⟨k, le_rfl, le_rfl, hk, fun h => absurd h (lt_irrefl _), fun i si h1 h2 => by omega⟩
  | succ n ih =>
    intro k s s' u hk h
    rw [mainLoop] at h
    obtain ⟨_, s1, h1, h2⟩ := bind_ok.mp h
    have hk1 : After ops s0 (k + 1) s1 := .next hk h1
    rw [bind_of_ok (getGa_run s1)] at h2
    cases he : s1.ga.earlyStop with
    | none => simp only [he, throwE_ok] at h2
    | some e =>
      simp only [he] at h2
      rw [ite_run] at h2
      split at h2
      · rename_i hlt
        obtain ⟨_, rfl⟩ := pure_ok.mp h2
        exact ⟨k + 1, by omega, by omega, hk1, fun _ => ⟨by omega, e, he, hlt⟩, fun i si h1 h2 => by omega⟩
      · rename_i hlt
        obtain ⟨j, j1, j2, j3, j4, j5⟩ := ih hk1 h2
        refine ⟨j, by omega, by omega, j3, fun hj => ⟨by omega, (j4 (by omega)).2⟩, ?_⟩
        intro i si hi1 hi2 hi3
        by_cases hik : i = k + 1
        · subst hik
          rw [hk1.unique hi3]
          exact ⟨e, he, hlt⟩
        · exact j5 i si (by omega) hi2 hi3

/-- Number of generations of a finished run. -/
theorem evolve_after {ops : Ops σ} {s0 s' : St σ} {u : Unit} (h : evolve ops s0 = (.ok u, s')) :
    ∃ s1 k, After ops s0 1 s1 ∧ 1 ≤ k ∧ k ≤ 1 + (s1.ga.numGenerations - 1) ∧ After ops s0 k s' ∧
      (k < 1 + (s1.ga.numGenerations - 1) → 1 < k ∧ ∃ e, s'.ga.earlyStop = some e ∧ e < s'.ga.noImprove) ∧
      (∀ i si, 1 < i → i < k → After ops s0 i si → ∃ e, si.ga.earlyStop = some e ∧ ¬ e < si.ga.noImprove) := by
  unfold evolve at h
  obtain ⟨_, a1, h1, k1⟩ := bind_ok.mp h
  obtain ⟨_, a2, h2, k2⟩ := bind_ok.mp k1
  rw [bind_of_ok (getGa_run a2)] at k2
  have ha : After ops s0 1 a2 := .first h1 h2
  obtain ⟨j, j1, j2, j3, j4, j5⟩ := mainLoop_after ha k2
  exact ⟨a2, j, ha, j1, j2, j3, j4, j5⟩

end BaumEva
