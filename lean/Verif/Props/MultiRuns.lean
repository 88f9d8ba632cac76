import Verif.Props.Multi
import Verif.Props.VegaSelection
/-!
# C56 - C59, C64: what multi-objective runs keep and lose
-/
namespace BaumEva
open Spec
variable {σ : Type}

/-! ## what a generation does to existing individuals -/

/-- A generation changes existing individuals only in `idx_individ` and `rank`, and objects outside the population
not at all. -/
theorem multi_generation_old [DecidableEq σ] {ops : Ops σ} {fit : Fit σ} {op : CrossOp} {mop : MutOp}
    (hops : MultiRun ops fit op mop) {s s' : St σ} {u : Unit} {k : Nat} (hs : MultiInv fit.task.obj1 s k)
    (h : generation ops s = (.ok u, s')) :
    (∀ r, r < s.next → SameCore (s.heap r) (s'.heap r)) ∧
    (∀ r, r < s.next → r ∉ s.ga.population → s'.heap r = s.heap r) ∧ s.next ≤ s'.next ∧
    (∀ r, r ∈ s'.ga.population → r < s.next → r ∈ s.ga.population) := by
  obtain ⟨_, s0, s1, s2, s3, es, t, hsel, hb1, hb2, hb3, hB, hready, hng, hes, e2, hun, hF5, hF, hBU, hup, hperm, hheap, _, hn', hn, _, hcore⟩ :=
    multi_generation hops hs h
  obtain ⟨n0, hn0, hrange, hn1⟩ := hB.range
  have hp2 : s2.ga.population = s1.ga.children ++ es := by rw [e2]
  have hh2 : s2.heap = s1.heap := by rw [e2]
  have hnd2 : (unscored s2.heap s2.ga.population).Nodup := by rw [hun, hrange]; exact List.nodup_range'
  obtain ⟨_, o2, _, _⟩ := multiFitness_ok hF5 hnd2 fun h' _ => hops.uniform.fit _ _
  have hnm : ∀ r, r < s.next → r ∉ es → r ∉ s2.ga.population := by
    intro r hr hre hm
    rw [hp2] at hm
    rcases List.mem_append.mp hm with hm | hm
    · rw [hrange, List.mem_range'_1] at hm; omega
    · exact hre hm
  refine ⟨?_, ?_, by omega, ?_⟩
  · intro r hr
    by_cases hre : r ∈ es
    · exact hcore r hre
    · rw [hheap r (by omega), o2 r (hnm r hr hre), hh2]
      exact hB.core r hr
  · intro r hr hm
    rw [hheap r (by omega), o2 r (hnm r hr fun hre => hm (hes r hre)), hh2]
    exact hB.old r hr hm
  · intro r hr hlt
    rcases List.mem_append.mp (hperm.subset hr) with hm | hm
    · rw [hrange, List.mem_range'_1] at hm; omega
    · exact hes r hm

theorem After.multi_old [DecidableEq σ] {ops : Ops σ} {fit : Fit σ} {op : CrossOp} {mop : MutOp} {s0 s s' : St σ} {k j : Nat}
    (hops : MultiRun ops fit op mop) (h0 : Fresh s0) (h : After ops s0 k s) (h' : After ops s0 j s') (hkj : k ≤ j) :
    (∀ r, r < s.next → SameCore (s.heap r) (s'.heap r)) ∧
    (∀ r, r < s.next → r ∉ s.ga.population → s'.heap r = s.heap r) ∧ s.next ≤ s'.next ∧
    (∀ r, r ∈ s'.ga.population → r < s.next → r ∈ s.ga.population) := by
  refine h.induct h' hkj
    (P := fun s' => (∀ r, r < s.next → SameCore (s.heap r) (s'.heap r)) ∧
      (∀ r, r < s.next → r ∉ s.ga.population → s'.heap r = s.heap r) ∧ s.next ≤ s'.next ∧
      (∀ r, r ∈ s'.ga.population → r < s.next → r ∈ s.ga.population))
    ⟨fun _ _ => SameCore.refl _, fun _ _ _ => rfl, le_rfl, fun _ hr _ => hr⟩ ?_
  rintro i a b ha ⟨h1, h2, h3, h4⟩ hg
  obtain ⟨g1, g2, g3, g4⟩ := multi_generation_old hops (ha.multi hops h0) hg
  refine ⟨?_, ?_, by omega, ?_⟩
  · intro r hr
    exact (h1 r hr).trans (g1 r (by omega))
  · intro r hr hm
    rw [g2 r (by omega) fun hma => hm (h4 r hma hr), h2 r hr hm]
  · intro r hr hlt
    exact h4 r (g4 r hr (by omega)) hlt

/-- Consecutive states of a run. -/
theorem After.step {ops : Ops σ} {s0 s s' : St σ} {k : Nat} (h : After ops s0 k s) (h' : After ops s0 (k + 1) s') :
    generation ops s = (.ok (), s') := by
  cases h' with
  | first _ _ => exact absurd h.pos (by omega)
  | next h1 h2 =>
    rw [h1.unique h]
    exact h2

/-! ## C64 -/

/-- Entry `i` of `historical_best` was recorded by the update of generation `i` (from 0). -/
theorem After.multi_fronts [DecidableEq σ] {ops : Ops σ} {fit : Fit σ} {op : CrossOp} {mop : MutOp} {s0 s : St σ} {k : Nat}
    (hops : MultiRun ops fit op mop) (h0 : Fresh s0) (h : After ops s0 k s) :
    ∀ (i : Nat) (f : List Nat), s.ga.histFronts[i]? = some f → ∃ si, i + 1 ≤ k ∧ After ops s0 (i + 1) si ∧
      f = si.ga.population.filter fun r => (si.heap r).rank = some (.sc 1) := by
  induction h with
  | @first s1 s h1 h2 =>
    intro i f hf
    have e : s.ga.histFronts = [s.ga.population.filter fun r => (s.heap r).rank = some (.sc 1)] := by
      have h1' := h1
      have h2' := h2
      rw [hops.fitness] at h1'
      rw [hops.update] at h2'
      have hnd := h0.distinct.sublist (unscored_sublist s0.heap s0.ga.population)
      have hB := multiFitness_before (k := 0) hops.uniform h1' hnd h0.alive h0.unsorted
        (by intro fr g e; rw [h0.best] at e; simp [storedFront] at e; rw [e.1]; simp) h0.idx (by rw [h0.snaps]; rfl)
        (by rw [h0.histFronts]; rfl) (Or.inl ⟨by rw [h0.best]; rfl, h0.noImprove⟩)
      obtain ⟨_, _, _, _, _, _, e, _⟩ := multiUpdate_inv hB h2'
      have hS := multiFitness_isFitness hops.uniform s0 s1 _ hnd h1'
      rw [hS.ga, h0.histFronts] at e
      simpa using e
    rw [e] at hf
    cases i with
    | zero =>
      simp at hf
      exact ⟨s, le_rfl, .first h1 h2, hf.symm⟩
    | succ i => simp at hf
  | @next k s s' h1 h2 ih =>
    intro i f hf
    obtain ⟨_, a0, a1, a2, a3, es, t, _, _, _, _, hB, _, _, _, e2, _, _, hF, hBU, hup, _⟩ := multi_generation hops (h1.multi hops h0) h2
    obtain ⟨_, _, _, _, _, _, e, _⟩ := multiUpdate_inv hBU hup
    have e3 : a3.ga.histFronts = s.ga.histFronts := by
      rw [hF.ga, e2]; simp only; rw [hB.ga]
    rw [e3] at e
    have hlen := (h1.multi hops h0).hist
    rw [e] at hf
    by_cases hi : i < s.ga.histFronts.length
    · rw [List.getElem?_append_left hi] at hf
      obtain ⟨si, b1, b2, b3⟩ := ih i f hf
      exact ⟨si, by omega, b2, b3⟩
    · rw [List.getElem?_append_right (by omega)] at hf
      have hi' : i - s.ga.histFronts.length = 0 := by
        by_contra hne
        rw [List.getElem?_eq_none (by simp; omega)] at hf
        simp at hf
      have hik : i = k := by omega
      rw [hi'] at hf
      simp at hf
      subst hik
      exact ⟨s', le_rfl, .next h1 h2, hf.symm⟩

/-- C64, the part that holds: the individuals recorded in `historical_best` by generation `i` keep genotype,
phenotype, score, objective values and feasibility to the end of the run (only `rank` and `idx_individ` change);
and the objects of `best_solution["pareto_set"]` never change once stored. -/
theorem C64_snapshots_partial [DecidableEq σ] {ops : Ops σ} {fit : Fit σ} {op : CrossOp} {mop : MutOp} {s0 s s' : St σ} {k j : Nat}
    (hops : MultiRun ops fit op mop) (h0 : Fresh s0) (h : After ops s0 k s) (h' : After ops s0 j s') (hkj : k ≤ j) :
    (∃ f, s'.ga.histFronts[k - 1]? = some f ∧ (∀ r, r ∈ f ↔ r ∈ s.ga.population ∧ (s.heap r).rank = some (.sc 1)) ∧
      ∀ r ∈ f, sameVisible (s.heap r) (s'.heap r)) ∧
    ∀ fr g, s.ga.best = some (.pareto fr g) → ∀ c ∈ fr, s'.heap c = s.heap c := by
  obtain ⟨o1, o2, _, _⟩ := h.multi_old hops h0 h' hkj
  have hinv := h.multi hops h0
  have hinv' := h'.multi hops h0
  have hk := h.pos
  refine ⟨?_, ?_⟩
  · have hlt : k - 1 < s'.ga.histFronts.length := by rw [hinv'.hist]; omega
    obtain ⟨si, _, b2, b3⟩ := h'.multi_fronts hops h0 (k - 1) _ (List.getElem?_eq_getElem hlt)
    have hsi : si = s := by
      rw [show k - 1 + 1 = k by omega] at b2
      exact (b2.unique h).symm
    subst hsi
    refine ⟨_, List.getElem?_eq_getElem hlt, ?_, ?_⟩
    · intro r; rw [b3, List.mem_filter]; simp
    · intro r hr
      rw [b3] at hr
      exact (o1 r (hinv.alive r (List.mem_filter.mp hr).1)).visible
  · intro fr g e c hc
    obtain ⟨fr', g', e1, e2, _⟩ := hinv.front
    rw [e] at e1
    simp only [Option.some.injEq, Best.pareto.injEq] at e1
    obtain ⟨rfl, rfl⟩ := e1
    exact o2 c (e2 c hc).1 (e2 c hc).2

/-! ## concrete runs -/

/-- Settings of the concrete runs below. -/
def exMulti : Cfg :=
  { numGenerations := 3, numIndivid := 5, obj1 := exTwo, childrenPercent := 6/10, mutationLvl := .float (1/10) }

/-- One integer gene 0..7. -/
def exGenes : List BinGene := [⟨0, 7, 1⟩]

def exSeed (a : Nat) : Nat := (a * 6364136223846793005 + 1442695040888963407) % 2 ^ 64

/-- `FFGA.optimize` with two objectives. -/
def exFfga (a : Nat) : Except PyErr Unit × St ℚ := ffga exMulti false exGenes { tape := exDraws 300 (exSeed a) }

/-- `VEGA.optimize` with two objectives. -/
def exVega (a : Nat) : Except PyErr Unit × St (List ℚ) := vega exMulti false exGenes none { tape := exDraws 500 (exSeed a) }

theorem run_eq {r : Except PyErr Unit × St σ} (h : r.1 = .ok ()) : r = (.ok (), r.2) := Prod.ext h rfl

set_option maxRecDepth 100000 in
theorem exFfga20_ok : (exFfga 20).1 = .ok () := by decide +kernel

/-- C64, full claim: an entry of `historical_best` still shows at the end of the run what it was when recorded
(the members of rank 1 of the population of that generation). -/
def FrontsFixed : Prop := ∀ (c : Cfg) (gray : Bool) (gens : List BinGene) (s s' : St ℚ), UniformVecs c.obj1 →
  ffga c gray gens s = (.ok (), s') → ∀ (i : Nat) (f : List Nat) (l : List (Ind ℚ)), s'.ga.histFronts[i]? = some f →
    s'.snaps[i]? = some l → f.map s'.heap = l.filter fun a => a.rank = some (.sc 1)

set_option maxRecDepth 100000 in
/-- C64 is false: in this run a recorded individual gets rank 2 later. -/
theorem C64_snapshots_refuted : ¬ FrontsFixed := by
  intro h
  have := h exMulti false exGenes _ _ exTwo_uniform (run_eq exFfga20_ok) 1
  have key : ∃ f l, (exFfga 20).2.ga.histFronts[1]? = some f ∧ (exFfga 20).2.snaps[1]? = some l ∧
      (f.map fun r => ((exFfga 20).2.heap r).rank) ≠ (l.filter fun a => a.rank = some (.sc 1)).map fun a => a.rank := by
    refine ⟨(exFfga 20).2.ga.histFronts.getD 1 [], (exFfga 20).2.snaps.getD 1 [], ?_, ?_, ?_⟩ <;> decide +kernel
  obtain ⟨f, l, h1, h2, h3⟩ := key
  have e := this f l h1 h2
  apply h3
  rw [← e, List.map_map]
  rfl

/-! ## C57 -/

/-- Sizes of consecutive generations of FFGA: all children plus the transferred members. -/
theorem ffga_sizes_all {fit : Fit ℚ} {sel : SelOp} {op : CrossOp} {mop : MutOp} {tr : Transfer} {s0 s s' : St ℚ} {k : Nat}
    (hv : UniformVecs fit.task.obj1) (h0 : Fresh s0) (h : After (ffgaOps fit sel op mop tr) s0 k s)
    (hg : generation (ffgaOps fit sel op mop tr) s = (.ok (), s')) :
    ∃ es, (∀ r ∈ es, r ∈ s.ga.population ∧ r ∈ s'.ga.population) ∧
      s'.ga.population.length = s0.ga.attrs.arith.share s0.ga.childrenPercent s0.ga.attrs.numIndivid 1 + es.length ∧
      (tr = .best → sel ≠ .ranked → es = s.ga.population.filter fun r => (s.heap r).rank = some (.sc 1)) ∧
      (tr = .random → es.length = 11 ∧ es.getLast? = s.ga.population.getLast?) ∧
      (tr = .best → es.length ≤ s.ga.population.length) := by
  have hops := ffgaOps_run hv sel op mop tr
  have hs := h.multi hops h0
  obtain ⟨_, a0, s1, s2, s3, es, t, hsel, hb1, hb2, hb3, hB, hready, hng, hes, e2, _, _, _, _, _, hperm, _⟩ :=
    multi_generation hops hs hg
  obtain ⟨es', t', _, hbest, hrand, e2'⟩ := multiNewGen_ok hready (show multiNewGenExec tr s1 = (.ok (), s2) from hng)
  have hees : es = es' := by
    have h1 : s2.ga.population = s1.ga.children ++ es := by rw [e2]
    have h2 : s2.ga.population = s1.ga.children ++ es' := by rw [e2']
    rw [h1] at h2
    exact List.append_cancel_left h2
  subst hees
  have hpop1 : s1.ga.population = s.ga.population := by rw [hB.ga]
  obtain ⟨⟨p1, p2, p3⟩, _⟩ := h.keeps sameSetup_frame (ffgaOps_frame sameSetup_frame fit sel op mop tr)
  have hni : s.ga.attrs = s0.ga.attrs := by
    have key : ∀ j x, After (ffgaOps fit sel op mop tr) s0 j x → x.ga.attrs = s0.ga.attrs := by
      intro j x hx
      induction hx with
      | first f1 f2 => exact (multi_first hv h0 f1 f2).2.2.2.2.1
      | next f1 f2 ih =>
        obtain ⟨_, _, _, _, _, _, _, _, _, _, _, _, _, _, _, _, _, _, _, _, _, _, _, ha, _⟩ := multi_generation hops (f1.multi hops h0) f2
        rw [ha, ih]
    exact key _ _ h
  have hch : s1.ga.children.length = s0.ga.attrs.arith.share s0.ga.childrenPercent s0.ga.attrs.numIndivid 1 := by
    have h1 := (selExec_isSelection sel s a0 _ hs.alive hsel).2
    have h2 := hB.size
    rw [hb3, h1] at h2
    have : numPairs s.ga 1 = s0.ga.attrs.arith.share s0.ga.childrenPercent s0.ga.attrs.numIndivid 1 := by
      rw [numPairs_share, hni, p2]
    omega
  refine ⟨es, fun r hr => ⟨hes r hr, hperm.symm.subset (List.mem_append_right _ hr)⟩, ?_, ?_, ?_, ?_⟩
  · rw [hperm.length_eq, List.length_append, hch]
  · intro hb hsr
    rw [hbest hb, hpop1, ← hs.order.front]
    have aux : ∀ l : List Nat, (∀ r ∈ l, r ∈ s.ga.population) →
        (l.takeWhile fun r => decide ((s1.heap r).rank = some (.sc 1))) = l.takeWhile fun r => decide ((s.heap r).rank = some (.sc 1)) := by
      intro l
      induction l with
      | nil => intro _; rfl
      | cons x l ih =>
        intro hl
        have hx := hs.alive x (hl x List.mem_cons_self)
        rw [List.takeWhile_cons, List.takeWhile_cons, hb1 x (hx.trans_le hb2),
          selExec_keepsRank hsr s a0 _ hs.alive hsel x hx, ih fun r hr => hl r (List.mem_cons_of_mem _ hr)]
    exact aux _ fun _ hr => hr
  · intro hr
    obtain ⟨r1, r2⟩ := hrand hr
    rw [hpop1] at r2
    exact ⟨r1, r2⟩
  · intro hb
    rw [hbest hb, hpop1]
    exact (List.takeWhile_sublist _).length_le

theorem ffga_sizes {fit : Fit ℚ} {sel : SelOp} {op : CrossOp} {mop : MutOp} {tr : Transfer} {s0 s s' : St ℚ} {k : Nat}
    (hv : UniformVecs fit.task.obj1) (h0 : Fresh s0) (h : After (ffgaOps fit sel op mop tr) s0 k s)
    (hg : generation (ffgaOps fit sel op mop tr) s = (.ok (), s')) :
    ∃ es, (∀ r ∈ es, r ∈ s.ga.population ∧ r ∈ s'.ga.population) ∧
      s'.ga.population.length = s0.ga.attrs.arith.share s0.ga.childrenPercent s0.ga.attrs.numIndivid 1 + es.length ∧
      (tr = .best → sel ≠ .ranked → es = s.ga.population.filter fun r => (s.heap r).rank = some (.sc 1)) ∧
      (tr = .random → es.length = 11 ∧ es.getLast? = s.ga.population.getLast?) := by
  obtain ⟨es, a, b, c, d, _⟩ := ffga_sizes_all hv h0 h hg
  exact ⟨es, a, b, c, d⟩

/-- C57, what holds: with transfer "best" the next generation has `int(children_percent * num_individ)` members more
than the Pareto set of this one (for a selection that leaves ranks alone), with "random" 11 members more than that
number of children. -/
theorem C57_next_size_partial {fit : Fit ℚ} {sel : SelOp} {op : CrossOp} {mop : MutOp} {tr : Transfer} {s0 s s' : St ℚ} {k : Nat}
    (hv : UniformVecs fit.task.obj1) (hsel : sel ≠ .ranked) (h0 : Fresh s0) (h : After (ffgaOps fit sel op mop tr) s0 k s)
    (h' : After (ffgaOps fit sel op mop tr) s0 (k + 1) s') :
    s'.ga.population.length = s0.ga.attrs.arith.share s0.ga.childrenPercent s0.ga.attrs.numIndivid 1 +
      (match tr with | .best => (paretoSet s).length | .random => 11) := by
  have hg := After.step h h'
  obtain ⟨es, _, e, e1, e2⟩ := ffga_sizes hv h0 h hg
  rw [e]
  cases tr with
  | best => rw [e1 rfl hsel, (h.multi (ffgaOps_run hv sel op mop .best) h0).paretoSet, List.length_map]
  | random => rw [(e2 rfl).1]

/-- C57: while no member dominates another the population grows by the number of children in every generation. -/
theorem C57_grows {fit : Fit ℚ} {sel : SelOp} {op : CrossOp} {mop : MutOp} {s0 s s' : St ℚ} {k : Nat}
    (hv : UniformVecs fit.task.obj1) (hsel : sel ≠ .ranked) (h0 : Fresh s0) (h : After (ffgaOps fit sel op mop .best) s0 k s)
    (h' : After (ffgaOps fit sel op mop .best) s0 (k + 1) s')
    (hnd : ∀ r ∈ s.ga.population, NonDominated fit.task.obj1 (s.ga.population.map s.heap) (s.heap r)) :
    s'.ga.population.length = s.ga.population.length + s0.ga.attrs.arith.share s0.ga.childrenPercent s0.ga.attrs.numIndivid 1 := by
  have hinv := h.multi (ffgaOps_run hv sel op mop .best) h0
  rw [C57_next_size_partial hv hsel h0 h h', hinv.paretoSet, List.length_map, List.filter_eq_self.mpr, Nat.add_comm]
  intro r hr
  simpa using (hinv.rank_one hr).mpr (hnd r hr)

/-- C57, full claim. -/
def FfgaKeepsSize : Prop := ∀ (c : Cfg) (gray : Bool) (gens : List BinGene) (s s' : St ℚ),
  ffga c gray gens s = (.ok (), s') → ∀ l ∈ s'.snaps, l.length = c.numIndivid

set_option maxRecDepth 100000 in
theorem exFfga0_ok : (exFfga 0).1 = .ok () := by decide +kernel

set_option maxRecDepth 100000 in
theorem exFfga0_sizes : (exFfga 0).2.snaps.map List.length = [5, 7, 9] := by decide +kernel

/-- C57 is false: in this run with `num_individ = 5` the generations have 5, 7 and 9 members. -/
theorem C57_size_refuted : ¬ FfgaKeepsSize := by
  intro h
  have h1 := h exMulti false exGenes _ _ (run_eq exFfga0_ok)
  have h2 : (exFfga 0).2.snaps.map List.length = (exFfga 0).2.snaps.map fun _ => 5 :=
    List.map_congr_left fun l hl => h1 l hl
  have h3 : (exFfga 0).2.snaps.length = 3 := by
    rw [← List.length_map (f := List.length), exFfga0_sizes]; rfl
  rw [exFfga0_sizes, List.map_const', h3] at h2
  simp at h2

/-! ## C58 -/

/-- C58, what holds: in every generation the individuals created in this generation (all in the first) have the
score `1 / (1 + rank)` (rounded in the arithmetic of the run), and survivors keep the score they had. -/
theorem C58_new_scores_partial {fit : Fit ℚ} {sel : SelOp} {op : CrossOp} {mop : MutOp} {tr : Transfer} {s0 s : St ℚ} {k : Nat} {ar : Arith}
    (hv : UniformVecs fit.task.obj1) (hfit : fit.task.score = ffgaScore ar) (h0 : Fresh s0)
    (h : After (ffgaOps fit sel op mop tr) s0 k s) :
    (k = 1 → ∀ r ∈ s.ga.population, ∃ q, (s.heap r).rank = some (.sc q) ∧ (s.heap r).score = some (ar.rnd (1 / (1 + q)))) ∧
    ∀ s', After (ffgaOps fit sel op mop tr) s0 (k + 1) s' → ∀ r ∈ s'.ga.population,
      (r ∉ s.ga.population → ∃ q, (s'.heap r).rank = some (.sc q) ∧ (s'.heap r).score = some (ar.rnd (1 / (1 + q)))) ∧
      (r ∈ s.ga.population → (s'.heap r).score = (s.heap r).score) := by
  have hops := ffgaOps_run hv sel op mop tr
  have key : ∀ (ga : GaData ℚ) best (a b : Ind ℚ) (q : ℚ), Evaluated fit ga best { a with rank := some (.sc q) } b →
      b.rank = some (.sc q) ∧ b.score = some (ar.rnd (1 / (1 + q))) := by
    rintro ga best a b q ⟨g, _, he⟩
    have aux : ∀ (a b : Ind ℚ), a.rank = some (.sc q) → EvalTo fit ga.idxGeneration best g a b →
        b.rank = some (.sc q) ∧ b.score = some (ar.rnd (1 / (1 + q))) := by
      rintro a b ha ⟨ret, vals, os, feas, pen, sc, _, _, rfl, hsc, _⟩
      rw [hfit] at hsc
      unfold ffgaScore at hsc
      simp only [ha] at hsc
      refine ⟨ha, ?_⟩
      split at hsc
      · simp at hsc
      · injection hsc with hsc
        simp only [hsc]
    split at he
    · have := aux _ _ rfl he
      exact this
    · exact aux _ _ rfl he
  constructor
  · intro hk
    subst hk
    cases h with
    | @first s1 _ h1 h2 =>
      intro r hr
      have hnd := h0.distinct.sublist (unscored_sublist s0.heap s0.ga.population)
      obtain ⟨_, _, c3, _⟩ := multiFitness_ok (show multiFitnessExec fit s0 = (.ok (), s1) from h1) hnd fun h' _ => hv.fit _ _
      obtain ⟨_, hperm, _, hh, _⟩ := multi_first hv h0 h1 h2
      have hr0 := hperm.subset hr
      obtain ⟨m, _, _, d3, _⟩ := c3 r hr0
      obtain ⟨best, he⟩ := d3 (h0.unscored r hr0)
      rw [hh r (h0.alive r hr0)]
      exact ⟨_, key _ _ _ _ _ he⟩
    | next h1 _ => exact absurd h1.pos (by omega)
  · intro s' h' r hr
    have hg := After.step h h'
    have hs := h.multi hops h0
    obtain ⟨_, a0, s1, s2, s3, es, t, _, _, hb2, _, hB, _, _, hes, e2, hun, h5, hF, _, _, hperm, hheap, _, _, hn, _, hcore⟩ :=
      multi_generation hops hs hg
    obtain ⟨n0, hn0, hrange, hn1⟩ := hB.range
    have hp2 : s2.ga.population = s1.ga.children ++ es := by rw [e2]
    have hnd2 : (unscored s2.heap s2.ga.population).Nodup := by rw [hun, hrange]; exact List.nodup_range'
    obtain ⟨_, _, c3, _⟩ := multiFitness_ok h5 hnd2 fun h' _ => hops.uniform.fit _ _
    have hr2 := hperm.subset hr
    constructor
    · intro hnew
      have hc : r ∈ s1.ga.children := by
        rcases List.mem_append.mp hr2 with hm | hm
        · exact hm
        · exact absurd (hes r hm) hnew
      have hlt : r < s1.next := by rw [hrange, List.mem_range'_1] at hc; omega
      obtain ⟨m, _, _, d3, _⟩ := c3 r (by rw [hp2]; exact hr2)
      have hsc : (s2.heap r).score = none := by
        rw [← hun] at hc
        unfold unscored at hc
        have := (List.mem_filter.mp hc).2
        simpa using this
      obtain ⟨best, he⟩ := d3 hsc
      rw [hheap r hlt]
      exact ⟨_, key _ _ _ _ _ he⟩
    · intro hold
      exact ((multi_generation_old hops hs hg).1 r (hs.alive r hold)).score

/-- C58, full claim. -/
def FfgaScoresCurrent : Prop := ∀ (c : Cfg) (gray : Bool) (gens : List BinGene) (s s' : St ℚ), UniformVecs c.obj1 → c.arith = .exact →
  ffga c gray gens s = (.ok (), s') → ∀ l ∈ s'.snaps, ∀ a ∈ l, ∀ q, a.rank = some (.sc q) → a.score = some (1 / (1 + q))

/-- Rank 2 and score 1/2. -/
def staleScore (a : Ind ℚ) : Bool := a.rank = some (.sc 2) && a.score = some (1 / 2)

set_option maxRecDepth 100000 in
/-- C58 is false: in this run a survivor has rank 2 and the score 1/2 of its former rank 1. -/
theorem C58_scores_refuted : ¬ FfgaScoresCurrent := by
  intro h
  have h1 := h exMulti false exGenes _ _ exTwo_uniform rfl (run_eq exFfga20_ok)
  have h2 : ((exFfga 20).2.snaps.any fun l => l.any staleScore) = true := by decide +kernel
  obtain ⟨l, hl, h3⟩ := List.any_eq_true.mp h2
  obtain ⟨a, ha, h4⟩ := List.any_eq_true.mp h3
  unfold staleScore at h4
  simp only [Bool.and_eq_true, decide_eq_true_eq] at h4
  have := h1 l hl a ha 2 h4.1
  rw [h4.2] at this
  norm_num at this

/-! ## C59 -/

/-- C59, what is guaranteed: with transfer "random" a member of maximal rank survives; this needs at least 11 members. -/
theorem C59_worst_survives_partial {fit : Fit ℚ} {sel : SelOp} {op : CrossOp} {mop : MutOp} {s0 s s' : St ℚ} {k : Nat}
    (hv : UniformVecs fit.task.obj1) (h0 : Fresh s0) (h : After (ffgaOps fit sel op mop .random) s0 k s)
    (h' : After (ffgaOps fit sel op mop .random) s0 (k + 1) s') :
    ∃ r ∈ s.ga.population, r ∈ s'.ga.population ∧ ∀ q ∈ s.ga.population, ∀ x y,
      (s.heap q).rank = some (.sc x) → (s.heap r).rank = some (.sc y) → x ≤ y := by
  have hg := After.step h h'
  have hops := ffgaOps_run hv sel op mop .random
  have hs := h.multi hops h0
  obtain ⟨es, hm, _, _, e2⟩ := ffga_sizes hv h0 h hg
  obtain ⟨hlen, hlast⟩ := e2 rfl
  obtain ⟨r, hr⟩ : ∃ r, es.getLast? = some r := by
    cases he : es.getLast? with
    | none => rw [List.getLast?_eq_none_iff] at he; rw [he] at hlen; simp at hlen
    | some r => exact ⟨r, rfl⟩
  have hre := List.mem_of_getLast? hr
  refine ⟨r, (hm r hre).1, (hm r hre).2, ?_⟩
  rw [hlast] at hr
  obtain ⟨l, hl⟩ := List.getLast?_eq_some_iff.mp hr
  intro q hq x y hx hy
  rw [hl] at hq
  rcases List.mem_append.mp hq with hq | hq
  · have := hs.order.2
    rw [hl, List.pairwise_append] at this
    exact this.2.2 q hq r (by simp) x y hx hy
  · simp at hq
    subst hq
    rw [hx] at hy
    simp only [Option.some.injEq, Rank.sc.injEq] at hy
    rw [hy]

/-- C59, full claim: of the members of rank 1 at least one survives. -/
def RandomKeepsBest : Prop := ∀ (c : Cfg) (gray : Bool) (gens : List BinGene) (s s' : St ℚ), UniformVecs c.obj1 →
  c.transfer = "random" → c.numGenerations = 2 → ffga c gray gens s = (.ok (), s') → ∀ f, s'.ga.histFronts[0]? = some f →
  ∃ r ∈ f, r ∈ s'.ga.population

/-- Objectives `x` and `10 + 3 x`. -/
def exLine (l : List Val) : Except PyErr Ret :=
  match l with
  | [.num q] => .ok (.tup [q, 10 + 3 * q])
  | _ => .error .typeError

theorem exLine_uniform : UniformVecs exLine := by
  have key : ∀ p x, exLine p = .ok (.tup x) → x.length = 2 := by
    intro p x h
    unfold exLine at h
    split at h
    · simp only [Except.ok.injEq, Ret.tup.injEq] at h
      rw [← h]; rfl
    · simp at h
  intro p q x y hx hy
  rw [key p x hx, key q y hy]

def exRandomCfg : Cfg :=
  { numGenerations := 2, numIndivid := 13, obj1 := exLine, childrenPercent := 2/10, mutationLvl := .float (1/10), transfer := "random" }

/-- Two generations with transfer "random". -/
def exRandom : Except PyErr Unit × St ℚ := ffga exRandomCfg false [⟨0, 31, 1⟩] { tape := exDraws 500 (exSeed 7) }

set_option maxRecDepth 100000 in
theorem exRandom_ok : exRandom.1 = .ok () := by decide +kernel

set_option maxRecDepth 100000 in
/-- C59 is false: in this run the only individual of rank 1 is lost. -/
theorem C59_best_survives_refuted : ¬ RandomKeepsBest := by
  intro h
  obtain ⟨r, h1, h2⟩ := h exRandomCfg false [⟨0, 31, 1⟩] _ _ exLine_uniform rfl rfl (run_eq exRandom_ok)
    (exRandom.2.ga.histFronts.getD 0 []) (by decide +kernel)
  have h3 : ((exRandom.2.ga.histFronts.getD 0 []).all fun r => !exRandom.2.ga.population.contains r) = true := by decide +kernel
  have := List.all_eq_true.mp h3 r h1
  simp at this
  exact this h2

/-! ## C56 -/

/-- C56, what holds for VEGA (any of its selections, both transfers): for every individual of a generation some
individual of the next has a score vector that is lexicographically at least as large. -/
theorem C56_lexicographic_partial {fit : Fit (List ℚ)} {n : Nat} (hn : 1 ≤ n) {sel : VegaSelOp} {op : CrossOp} {mop : MutOp}
    {tr : Transfer} {s0 s s' : St (List ℚ)} {k j : Nat} (hv : UniformVecs fit.task.obj1) (h0 : Fresh s0)
    (h : After (vegaOps fit n sel op mop tr) s0 k s) (h' : After (vegaOps fit n sel op mop tr) s0 j s') (hkj : k ≤ j) :
    ∀ r ∈ s.ga.population, ∀ v, (s.heap r).score = some v → ∃ r' ∈ s'.ga.population, ∃ v', (s'.heap r').score = some v' ∧ v ≤ v' := by
  have hops := vegaOps_run hv hn sel op mop tr
  intro r hr v hrv
  refine h.induct h' hkj
    (P := fun s' => ∃ r' ∈ s'.ga.population, ∃ v', (s'.heap r').score = some v' ∧ v ≤ v') ⟨r, hr, v, hrv, le_rfl⟩ ?_
  rintro i a b ha ⟨q, hq, w, hqw, hvw⟩ hg
  have hs := ha.multi hops h0
  obtain ⟨_, a0, s1, s2, s3, es, t, hsel, hb1, hb2, hb3, hB, hready, hng, hes, e2, _, _, _, _, _, hperm, _, _, _, _, _, hcore⟩ :=
    multi_generation hops hs hg
  obtain ⟨pop, es', t', hp, _, hsort, hel, e2', _⟩ := newGenExec_ok (show newGenExec tr s1 = (.ok (), s2) from hng)
  have hees : es = es' := by
    have h1 : s2.ga.population = s1.ga.children ++ es := by rw [e2]
    have h2 : s2.ga.population = s1.ga.children ++ es' := by rw [e2']
    rw [h1] at h2
    exact List.append_cancel_left h2
  subst hees
  have hpop1 : s1.ga.population = a.ga.population := by rw [hB.ga]
  have hS := hsort (by rw [hB.ga]; exact hs.unsorted)
  obtain ⟨z, hz⟩ : ∃ z, pop.getLast? = some z := by
    cases he : pop.getLast? with
    | none =>
      rw [List.getLast?_eq_none_iff] at he
      rw [he, hpop1] at hp
      rw [hp.symm.eq_nil] at hq
      simp at hq
    | some z => exact ⟨z, rfl⟩
  have hze : z ∈ es := List.mem_of_getLast? (hel.last.trans hz)
  have hza := hes z hze
  obtain ⟨vz, hvz⟩ := Option.isSome_iff_exists.mp (hs.scored z hza)
  have hle : w ≤ vz := by
    obtain ⟨l, hl⟩ := List.getLast?_eq_some_iff.mp hz
    have hqp : q ∈ pop := by rw [hp.mem_iff, hpop1]; exact hq
    rw [hl] at hqp
    rcases List.mem_append.mp hqp with hq' | hq'
    · have h1 := hS.sorted
      rw [hl, List.pairwise_append] at h1
      refine h1.2.2 q hq' z (by simp) w vz ?_ ?_
      · rw [(hB.core q (hs.alive q hq)).score]; exact hqw
      · rw [(hB.core z (hs.alive z hza)).score]; exact hvz
    · simp at hq'
      subst hq'
      rw [hqw] at hvz
      injection hvz with hvz
      rw [hvz]
  exact ⟨z, hperm.symm.subset (List.mem_append_right _ hze), vz, by rw [(hcore z hze).score]; exact hvz, hvw.trans hle⟩

/-- Whatever evaluation establishes for new individuals (apart from `idx_individ` and `rank`) holds for all members of
all generations. -/
theorem After.multi_all [DecidableEq σ] {ops : Ops σ} {fit : Fit σ} {op : CrossOp} {mop : MutOp} {s0 : St σ} {P : Ind σ → Prop}
    (hops : MultiRun ops fit op mop) (h0 : Fresh s0) (hcore : ∀ a b, SameCore a b → P a → P b)
    (hnew : ∀ (ga : GaData σ) best (a b : Ind σ), ga.attrs = s0.ga.attrs → Evaluated fit ga best a b → P b) :
    ∀ {k : Nat} {s : St σ}, After ops s0 k s → s.ga.attrs = s0.ga.attrs ∧ ∀ r ∈ s.ga.population, P (s.heap r) := by
  intro k s h
  induction h with
  | @first s1 s h1 h2 =>
    rw [hops.fitness] at h1
    rw [hops.update] at h2
    have hnd := h0.distinct.sublist (unscored_sublist s0.heap s0.ga.population)
    obtain ⟨_, _, c3, _⟩ := multiFitness_ok h1 hnd fun h' _ => hops.uniform.fit _ _
    obtain ⟨_, hperm, _, hh, ha, _⟩ := multi_first hops.uniform h0 h1 h2
    refine ⟨ha, fun r hr => ?_⟩
    have hr0 := hperm.subset hr
    obtain ⟨m, _, _, d3, _⟩ := c3 r hr0
    obtain ⟨best, he⟩ := d3 (h0.unscored r hr0)
    rw [hh r (h0.alive r hr0)]
    exact hnew _ _ _ _ rfl he
  | @next k s s' h1 h2 ih =>
    have hs := h1.multi hops h0
    obtain ⟨_, a0, s1, s2, s3, es, t, _, _, hb2, _, hB, _, _, hes, e2, hun, h5, hF, _, _, hperm, hheap, hat, _, hn, _, hc⟩ :=
      multi_generation hops hs h2
    refine ⟨by rw [hat]; exact ih.1, ?_⟩
    intro r hr
    obtain ⟨n0, hn0, hrange, hn1⟩ := hB.range
    have hp2 : s2.ga.population = s1.ga.children ++ es := by rw [e2]
    have hnd2 : (unscored s2.heap s2.ga.population).Nodup := by rw [hun, hrange]; exact List.nodup_range'
    obtain ⟨_, _, c3, _⟩ := multiFitness_ok h5 hnd2 fun h' _ => hops.uniform.fit _ _
    have hr2 := hperm.subset hr
    rcases List.mem_append.mp hr2 with hm | hm
    · have hlt : r < s1.next := by rw [hrange, List.mem_range'_1] at hm; omega
      obtain ⟨m, _, _, d3, _⟩ := c3 r (by rw [hp2]; exact hr2)
      have hsc : (s2.heap r).score = none := by
        rw [← hun] at hm
        unfold unscored at hm
        have := (List.mem_filter.mp hm).2
        simpa using this
      obtain ⟨best, he⟩ := d3 hsc
      rw [hheap r hlt]
      refine hnew _ _ _ _ ?_ he
      have hat2 : s2.ga.attrs = { s1.ga.attrs with isSorted := false } := by rw [e2]
      have hat1 : s1.ga.attrs = s.ga.attrs := by rw [hB.ga]
      rw [hat2, hat1, ih.1]
      have := h0.unsorted
      cases ha : s0.ga.attrs with
      | mk x1 x2 x3 x4 x5 x6 x7 => rw [ha] at this; simp at this; rw [this]
    · exact hcore _ _ (hc r hm) (ih.2 r (hes r hm))

/-- In a VEGA run of a binary population without penalty, target or input data the score of every individual consists of
its negated objective values. -/
theorem vega_scores {fit : Fit (List ℚ)} {n : Nat} (hn : 1 ≤ n) {sel : VegaSelOp} {op : CrossOp} {mop : MutOp}
    {tr : Transfer} {s0 s : St (List ℚ)} {k : Nat} (hv : UniformVecs fit.task.obj1) (h0 : Fresh s0)
    (hph : s0.ga.attrs.isPhenotype = true) (hm : fit.task.multi = true) (hin : fit.task.inputTruthy = false)
    (hc : fit.isCond = false) (hsc : fit.task.score = vegaScore .exact none) (h : After (vegaOps fit n sel op mop tr) s0 k s) :
    ∀ r ∈ s.ga.population, ∃ os, IsVec fit.task.obj1 (s.heap r) os ∧ (s.heap r).score = some (os.map fun o => -o) := by
  refine (h.multi_all (vegaOps_run hv hn sel op mop tr) h0
    (P := fun a => ∃ os, IsVec fit.task.obj1 a os ∧ a.score = some (os.map fun o => -o)) ?_ ?_).2
  · rintro a b hab ⟨os, ⟨p, e1, e2⟩, e3⟩
    exact ⟨os, ⟨p, by rw [hab.phenotype]; exact e1, e2⟩, by rw [hab.score]; exact e3⟩
  · rintro ga best a b hga ⟨g, e1, e2⟩
    rw [hga, hph, if_pos rfl] at e2
    unfold seen at e1
    rw [hga, hph, if_pos rfl] at e1
    obtain ⟨ret, vals, os, feas, pen, sc, f1, f2, f3, f4, f5⟩ := e2
    rw [hin, if_neg (by simp)] at f1
    rw [hm, hc] at f2
    unfold checkInput at f2
    rw [if_pos rfl] at f2
    cases ret with
    | sc q => simp at f2
    | tup l =>
      simp only [Except.ok.injEq] at f2
      rcases f5 with ⟨_, rfl, _, rfl⟩ | ⟨hx, _⟩
      · subst f2
        rw [hsc] at f4
        unfold vegaScore at f4
        simp only [add_zero, Except.ok.injEq] at f4
        have hb : b = swapInd (swapInd b) := by unfold swapInd; rfl
        refine ⟨l, ⟨g, ?_, f1⟩, ?_⟩
        · rw [hb, f3]; exact e1
        · rw [hb, f3, ← f4]; rfl
      · rw [hc] at hx; simp at hx

/-- C56: without penalty, target or input data VEGA never loses the best value of the first objective. -/
theorem C56_first_objective {fit : Fit (List ℚ)} {n : Nat} (hn : 1 ≤ n) {sel : VegaSelOp} {op : CrossOp} {mop : MutOp}
    {tr : Transfer} {s0 s s' : St (List ℚ)} {k j : Nat} (hv : UniformVecs fit.task.obj1) (h0 : Fresh s0)
    (hph : s0.ga.attrs.isPhenotype = true) (hm : fit.task.multi = true) (hin : fit.task.inputTruthy = false)
    (hc : fit.isCond = false) (hsc : fit.task.score = vegaScore .exact none)
    (h : After (vegaOps fit n sel op mop tr) s0 k s) (h' : After (vegaOps fit n sel op mop tr) s0 j s') (hkj : k ≤ j) :
    ∀ r ∈ s.ga.population, ∀ x, (vecOf fit.task.obj1 (s.heap r))[0]? = some x →
      ∃ r' ∈ s'.ga.population, ∃ y, (vecOf fit.task.obj1 (s'.heap r'))[0]? = some y ∧ y ≤ x := by
  intro r hr x hx
  obtain ⟨os, e1, e2⟩ := vega_scores hn hv h0 hph hm hin hc hsc h r hr
  obtain ⟨r', hr', v', e3, hle⟩ := C56_lexicographic_partial hn hv h0 h h' hkj r hr _ e2
  obtain ⟨os', e4, e5⟩ := vega_scores hn hv h0 hph hm hin hc hsc h' r' hr'
  rw [e3] at e5
  injection e5 with e5
  refine ⟨r', hr', ?_⟩
  rw [e4.vecOf]
  rw [e1.vecOf] at hx
  rw [e5] at hle
  cases os with
  | nil => simp at hx
  | cons a l =>
    simp at hx
    subst hx
    cases os' with
    | nil =>
      exfalso
      rw [List.map_nil, List.map_cons] at hle
      exact absurd hle (not_le.mpr List.Lex.nil)
    | cons b l' =>
      refine ⟨b, rfl, ?_⟩
      rw [List.map_cons, List.map_cons] at hle
      by_contra hab
      exact absurd hle (not_le.mpr (List.Lex.rel (by linarith [not_le.mp hab])))

/-- C56, full claim (C55 for VEGA). -/
def VegaNeverLoses : Prop := ∀ (c : Cfg) (gray : Bool) (gens : List BinGene) (ov : Option (List ℚ)) (s s' : St (List ℚ)),
  UniformVecs c.obj1 → c.transfer = "best" → vega c gray gens ov s = (.ok (), s') →
  ∀ l ∈ s'.snaps, ∀ a ∈ l, ∃ b ∈ paretoSet s', AsGood (vecOf c.obj1 b) (vecOf c.obj1 a)

set_option maxRecDepth 100000 in
theorem exVega2_ok : (exVega 2).1 = .ok () := by decide +kernel

instance (x y : List ℚ) : Decidable (AsGood x y) := by unfold AsGood; infer_instance

/-- Some earlier individual is not matched by the final Pareto set. -/
def losesPoint (f : List Val → Except PyErr Ret) (s : St (List ℚ)) : Bool :=
  s.snaps.any fun l => l.any fun a => (paretoSet s).all fun b => !decide (AsGood (vecOf f b) (vecOf f a))

set_option maxRecDepth 100000 in
theorem exVega2_loses : losesPoint exTwo (exVega 2).2 = true := by decide +kernel

/-- C56 is false: this run loses a Pareto point. -/
theorem C56_never_lost_refuted : ¬ VegaNeverLoses := by
  intro h
  have h1 := h exMulti false exGenes none _ _ exTwo_uniform rfl (run_eq exVega2_ok)
  have h2 := exVega2_loses
  unfold losesPoint at h2
  obtain ⟨l, hl, h3⟩ := List.any_eq_true.mp h2
  obtain ⟨a, ha, h4⟩ := List.any_eq_true.mp h3
  obtain ⟨b, hb, h5⟩ := h1 l hl a ha
  have := List.all_eq_true.mp h4 b hb
  simp only [Bool.not_eq_true', decide_eq_false_iff_not] at this
  exact this h5

end BaumEva
