import Verif.Proofs.Vega
import Verif.Proofs.History
import Verif.Props.Selection
/-!
# C53 - C55, C60: Pareto ranks, Pareto sets, VEGA selection
-/
namespace BaumEva
open Spec
variable {σ : Type}

/-! ## C53 -/

/-- C53: `assign_ranks` gives every individual the rank 1 + number of individuals that dominate it (different
objects, objective vectors of one length), and changes nothing else. -/
theorem C53_rank {t : Task σ} {s s' : St σ} (hd : s.ga.population.Nodup) (hv : SameLength t.obj1 (s.ga.population.map s.heap))
    (h : assignRanks t s = (.ok (), s')) :
    s'.ga = s.ga ∧ ∀ r ∈ s.ga.population,
      s'.heap r = { s.heap r with rank := some (.sc (1 + (dominators t.obj1 (s.ga.population.map s.heap) (s.heap r) : ℚ))) } := by
  obtain ⟨h1, h2, h3, _⟩ := assignRanks_ok h hv
  refine ⟨by rw [h1], fun r hr => ?_⟩
  rw [h2 r hr, List.count_eq_one_of_mem hd hr, one_mul]

/-- C53: rank 1 means not dominated, also if an object occurs several times in the population. -/
theorem C53_rank_one {t : Task σ} {s s' : St σ} (hv : SameLength t.obj1 (s.ga.population.map s.heap))
    (h : assignRanks t s = (.ok (), s')) {r : Nat} (hr : r ∈ s.ga.population) :
    (s'.heap r).rank = some (.sc 1) ↔ NonDominated t.obj1 (s.ga.population.map s.heap) (s.heap r) := by
  obtain ⟨h1, h2, h3, _⟩ := assignRanks_ok h hv
  rw [h2 r hr, ← rankIn_one hr]
  unfold rankIn
  simp

/-- C53: if the population has two members or more, a successful ranking means that every member has a
phenotype on which the objective function returns a tuple, so that the vectors compared above exist. -/
theorem C53_vectors {t : Task σ} {s s' : St σ} (hv : SameLength t.obj1 (s.ga.population.map s.heap))
    (h : assignRanks t s = (.ok (), s')) (h2 : 2 ≤ s.ga.population.length) :
    ∀ r ∈ s.ga.population, IsVec t.obj1 (s.heap r) (vecOf t.obj1 (s.heap r)) := by
  intro r hr
  obtain ⟨b, hb⟩ := (assignRanks_ok h hv).2.2.2 h2 r hr
  rw [hb.vecOf]
  exact hb

/-- C53 for `MultiFitness.execute`: ranks of all members, old and new, with respect to the evaluated population. -/
theorem C53_after_evaluation {fit : Fit σ} {s s' : St σ} (hd : s.ga.population.Nodup) (hv : UniformVecs fit.task.obj1)
    (h : multiFitnessExec fit s = (.ok (), s')) :
    s'.ga = s.ga ∧ ∀ r ∈ s.ga.population, (s'.heap r).rank =
      some (.sc (1 + (dominators fit.task.obj1 (s.ga.population.map s'.heap) (s'.heap r) : ℚ))) := by
  obtain ⟨h1, _, h3, _⟩ := multiFitness_ok h (hd.sublist (unscored_sublist _ _)) fun h' _ => hv.fit _ _
  refine ⟨by rw [h1], fun r hr => ?_⟩
  obtain ⟨_, _, _, _, _, e⟩ := h3 r hr
  rw [e]
  unfold rankIn
  rw [List.count_eq_one_of_mem hd hr, one_mul]

/-- Two objectives `x` and `10 - 3 x + x * x / 2`. -/
def exTwo (l : List Val) : Except PyErr Ret :=
  match l with
  | [.num q] => .ok (.tup [q, 10 - 3 * q + q * q / 2])
  | _ => .error .typeError

theorem exTwo_uniform : UniformVecs exTwo := by
  have key : ∀ p x, exTwo p = .ok (.tup x) → x.length = 2 := by
    intro p x h
    unfold exTwo at h
    split at h
    · simp only [Except.ok.injEq, Ret.tup.injEq] at h
      rw [← h]; rfl
    · simp at h
  intro p q x y hx hy
  rw [key p x hx, key q y hy]

/-- Five individuals with the phenotypes 0, 1, 5, 3, 3; the third is dominated by three others. -/
def exRankState : St ℚ :=
  { tape := []
    heap := fun r => { genotype := some [], phenotype := some [.num (([0, 1, 5, 3, 3] : List ℚ).getD r 0)] }
    next := 5
    ga := { population := [0, 1, 2, 3, 4] } }

def exRankTask : Task ℚ := ffgaTask exTwo exTwo false none

set_option maxRecDepth 100000 in
example : (assignRanks exRankTask exRankState).1 = .ok () ∧
    (exRankState.ga.population.map fun r => ((assignRanks exRankTask exRankState).2.heap r).rank) =
      [some (.sc 1), some (.sc 1), some (.sc 4), some (.sc 1), some (.sc 1)] := by decide +kernel

example : exRankState.ga.population.Nodup ∧ SameLength exRankTask.obj1 (exRankState.ga.population.map exRankState.heap) :=
  ⟨by decide, exTwo_uniform.fit _ _⟩

/-! ## C54 -/

/-- C54: evaluation followed by `update`, from any population: `pareto_set` holds, in the order of the sorted
population, the contents of exactly the non-dominated members; it is non-empty if the population is, and its
objects are not members. -/
theorem C54_pareto_set [DecidableEq σ] {fit : Fit σ} {s s1 s' : St σ} (hv : UniformVecs fit.task.obj1)
    (hd : (unscored s.heap s.ga.population).Nodup) (hal : ∀ r ∈ s.ga.population, r < s.next)
    (hns : s.ga.attrs.isSorted = false)
    (hst : ∀ fr g, storedFront s.ga.best = some (fr, g) → ∀ c ∈ fr, c < s.next ∧ c ∉ s.ga.population)
    (h1 : multiFitnessExec fit s = (.ok (), s1)) (h2 : multiUpdate s1 = (.ok (), s')) :
    s'.ga.population.Perm s.ga.population ∧
    (∃ fr g, s'.ga.best = some (.pareto fr g) ∧ paretoSet s' = fr.map s'.heap ∧ ∀ c ∈ fr, c ∉ s'.ga.population) ∧
    (∃ front : List Nat, front.Sublist s'.ga.population ∧ paretoSet s' = front.map s'.heap ∧
      (∀ r, r ∈ front ↔ r ∈ s'.ga.population ∧
        NonDominated fit.task.obj1 (s'.ga.population.map s'.heap) (s'.heap r)) ∧
      ∀ r ∈ s'.ga.population, front.count r = if r ∈ front then s'.ga.population.count r else 0) ∧
    (s.ga.population ≠ [] → paretoSet s' ≠ []) := by
  have hS := multiFitness_isFitness hv s s1 _ hd h1
  obtain ⟨_, _, a3, _⟩ := multiFitness_ok h1 hd fun h' _ => hv.fit _ _
  have hga := hS.ga
  have hal1 : ∀ r ∈ s1.ga.population, r < s1.next := by rw [hga, hS.next]; exact hal
  obtain ⟨pop, front, s2, hs, hf, hdec, rfl⟩ := multiUpdate_ok h2 (by rw [hga]; exact hns) hal1
  have halp : ∀ r ∈ pop, r < s1.next := fun r hr => hal1 r (hs.perm.subset hr)
  have hrk : ∀ r ∈ pop, (s1.heap r).rank = some (.sc (rankIn fit.task.obj1 s1.heap pop r)) := by
    intro r hr
    have hm := hs.perm.subset hr
    have hm' := hm
    rw [hga] at hm'
    obtain ⟨_, _, _, _, _, e⟩ := a3 r hm'
    rw [e, rankIn_perm hs.perm, hga]
  have hord : RankSorted s1.heap pop := by
    refine ⟨fun r hr => ⟨_, hrk r hr, rankIn_ge _ _ _ _⟩, hs.sorted.imp ?_⟩
    intro a b hab x y hx hy
    exact hab x y (by unfold scRank; rw [hx]) (by unfold scRank; rw [hy])
  have hfr : front = pop.filter fun r => (s1.heap r).rank = some (.sc 1) := by rw [hf, hord.front]
  have hmem : ∀ r, r ∈ front ↔ r ∈ pop ∧ NonDominated fit.task.obj1 (pop.map s1.heap) (s1.heap r) := by
    intro r
    rw [hfr, List.mem_filter]
    refine and_congr_right fun hr => ?_
    rw [← rankIn_one hr, hrk r hr]
    simp
  have hcount : ∀ r ∈ pop, front.count r = if r ∈ front then pop.count r else 0 := by
    intro r hr
    split
    · rename_i hm
      rw [hfr] at hm ⊢
      rw [List.count_filter]
      exact (List.mem_filter.mp hm).2
    · rename_i hm
      exact List.count_eq_zero.mpr hm
  have hne : s.ga.population ≠ [] → front ≠ [] := by
    intro hn he
    obtain ⟨r, hr⟩ : ∃ r, r ∈ pop := by
      cases hp : pop with
      | nil =>
        rw [hp] at hs
        exact absurd (by rw [← hga]; exact hs.perm.nil_eq.symm) hn
      | cons r l => exact ⟨r, List.mem_cons_self⟩
    obtain ⟨b, hb, hnd, _⟩ := exists_nonDominated fit.task.obj1 (pop.map s1.heap) (s1.heap r) (List.mem_map.mpr ⟨r, hr, rfl⟩)
    obtain ⟨q, hq, rfl⟩ := List.mem_map.mp hb
    have := (hmem q).mpr ⟨hq, hnd⟩
    rw [he] at this
    simp at this
  have hsub : front.Sublist pop := by rw [hfr]; exact List.filter_sublist
  -- independent of the decision
  have common : ∀ (h' : Nat → Ind σ) (fr : List Nat), (∀ r, r < s1.next → h' r = s1.heap r) → fr.map h' = front.map s1.heap →
      fr.map h' = front.map h' ∧ (∀ r, r ∈ front ↔ r ∈ pop ∧ NonDominated fit.task.obj1 (pop.map h') (h' r)) ∧
      (s.ga.population ≠ [] → fr.map h' ≠ []) := by
    intro h' fr c1 c2
    have hm : pop.map h' = pop.map s1.heap := List.map_congr_left fun r hr => c1 r (halp r hr)
    refine ⟨?_, ?_, ?_⟩
    · rw [c2]
      exact (List.map_congr_left fun r hr => c1 r (halp r (hsub.subset hr))).symm
    · intro r
      rw [hmem r, hm]
      refine and_congr_right fun hr => ?_
      rw [c1 r (halp r hr)]
    · intro hn
      rw [c2]
      simpa using hne hn
  have hperm : pop.Perm s.ga.population := by rw [← hga]; exact hs.perm
  cases hdec with
  | @same fr g e1 e2 =>
    simp only at e1 e2
    obtain ⟨d1, d2, d3⟩ := common s1.heap fr (fun _ _ => rfl) e2
    rw [hga] at e1
    exact ⟨hperm, ⟨fr, g, rfl, rfl, fun c hc hm => (hst fr g e1 c hc).2 (hperm.subset hm)⟩, ⟨front, hsub, d1, d2, hcount⟩, d3⟩
  | @new fr g h' e1 e2 e3 e4 =>
    simp only at e1 e2 e3 e4
    obtain ⟨d1, d2, d3⟩ := common h' (List.range' s1.next front.length) e3 e4
    refine ⟨hperm, ⟨_, _, rfl, rfl, ?_⟩, ⟨front, hsub, d1, d2, hcount⟩, d3⟩
    intro c hc hm
    rw [List.mem_range'_1] at hc
    exact absurd (halp c hm) (not_lt.mpr hc.1)

/-- C54 in runs of VEGA and FFGA: after every generation the Pareto set consists of the contents of exactly the
non-dominated members of the population. -/
theorem C54_in_runs [DecidableEq σ] {ops : Ops σ} {fit : Fit σ} {op : CrossOp} {mop : MutOp} {s0 s : St σ} {k : Nat}
    (hops : MultiRun ops fit op mop) (h0 : Fresh s0) (h : After ops s0 k s) :
    ∀ x, x ∈ paretoSet s ↔ x ∈ s.ga.population.map s.heap ∧ NonDominated fit.task.obj1 (s.ga.population.map s.heap) x := by
  have hinv := h.multi hops h0
  intro x
  rw [hinv.paretoSet, List.mem_map, List.mem_map]
  constructor
  · rintro ⟨r, hr, rfl⟩
    obtain ⟨h1, h2⟩ := List.mem_filter.mp hr
    exact ⟨⟨r, h1, rfl⟩, (hinv.rank_one h1).mp (by simpa using h2)⟩
  · rintro ⟨⟨r, hr, rfl⟩, h2⟩
    exact ⟨r, List.mem_filter.mpr ⟨hr, by simpa using (hinv.rank_one hr).mpr h2⟩, rfl⟩

/-! ## C55 -/

theorem selExec_keepsRank {sel : SelOp} (h : sel ≠ .ranked) : KeepsRank (selExec sel) := by
  cases sel with
  | tournament size => exact tournament_keepsRank size
  | balanced => exact balanced_keepsRank
  | ranked => exact absurd rfl h

/-- C55: with FFGA, transfer "best" and tournament or roulette selection (the facade uses the latter), every
individual of every generation is matched, in every objective, by a member of the Pareto set of every later
generation. -/
theorem C55_never_lost {fit : Fit ℚ} {sel : SelOp} {op : CrossOp} {mop : MutOp} {s0 s s' : St ℚ} {k j : Nat}
    (hv : UniformVecs fit.task.obj1) (hsel : sel ≠ .ranked) (h0 : Fresh s0)
    (h : After (ffgaOps fit sel op mop .best) s0 k s) (h' : After (ffgaOps fit sel op mop .best) s0 j s') (hkj : k ≤ j) :
    ∀ r ∈ s.ga.population, ∃ c ∈ paretoSet s', AsGood (vecOf fit.task.obj1 c) (vecOf fit.task.obj1 (s.heap r)) := by
  have hops := ffgaOps_run hv sel op mop .best
  intro r hr
  refine h.induct h' hkj
    (P := fun s' => ∃ c ∈ paretoSet s', AsGood (vecOf fit.task.obj1 c) (vecOf fit.task.obj1 (s.heap r)))
    ((h.multi hops h0).covers r hr) ?_
  rintro i a b ha ⟨c, hc, hcr⟩ hg
  obtain ⟨_, hcov⟩ := ffga_step hv (selExec_keepsRank hsel) (ha.multi hops h0) hg
  obtain ⟨c', hc', hcc⟩ := hcov c hc
  exact ⟨c', hc', hcc.trans hcr⟩

/-- In populations of two or more the vectors of C55 exist. -/
theorem C55_vectors {fit : Fit ℚ} {sel : SelOp} {op : CrossOp} {mop : MutOp} {tr : Transfer} {s0 s : St ℚ} {k : Nat}
    (hv : UniformVecs fit.task.obj1) (h0 : Fresh s0) (h : After (ffgaOps fit sel op mop tr) s0 k s)
    (h2 : 2 ≤ s.ga.population.length) :
    (∀ r ∈ s.ga.population, IsVec fit.task.obj1 (s.heap r) (vecOf fit.task.obj1 (s.heap r))) ∧
    ∀ c ∈ paretoSet s, IsVec fit.task.obj1 c (vecOf fit.task.obj1 c) := by
  have hinv := h.multi (ffgaOps_run hv sel op mop tr) h0
  have key : ∀ r ∈ s.ga.population, IsVec fit.task.obj1 (s.heap r) (vecOf fit.task.obj1 (s.heap r)) := by
    intro r hr
    obtain ⟨b, hb⟩ := hinv.vecs h2 r hr
    rw [hb.vecOf]; exact hb
  refine ⟨key, ?_⟩
  intro c hc
  rw [hinv.paretoSet] at hc
  obtain ⟨r, hr, rfl⟩ := List.mem_map.mp hc
  exact key r (List.mem_filter.mp hr).1

/-- In a multi-objective run `snaps` records the generations. -/
theorem After.multi_snaps [DecidableEq σ] {ops : Ops σ} {fit : Fit σ} {op : CrossOp} {mop : MutOp} {s0 s : St σ} {k : Nat}
    (hops : MultiRun ops fit op mop) (h0 : Fresh s0) (h : After ops s0 k s) :
    ∀ l ∈ s.snaps, ∃ i si, i ≤ k ∧ After ops s0 i si ∧ l = si.ga.population.map si.heap := by
  induction h with
  | @first s1 s h1 h2 =>
    intro l hl
    obtain ⟨_, _, _, _, _, _, e⟩ := multi_first hops.uniform h0 (by rw [← hops.fitness]; exact h1) (by rw [← hops.update]; exact h2)
    rw [e] at hl
    simp at hl
    exact ⟨1, s, le_rfl, .first h1 h2, hl⟩
  | @next k s s' h1 h2 ih =>
    intro l hl
    obtain ⟨_, _, _, _, _, _, _, _, _, _, _, _, _, _, _, _, _, _, _, _, _, _, _, _, _, _, e, _⟩ := multi_generation hops (h1.multi hops h0) h2
    rw [e] at hl
    rcases List.mem_append.mp hl with hl | hl
    · obtain ⟨i, si, a, b, c⟩ := ih l hl
      exact ⟨i, si, by omega, b, c⟩
    · simp at hl
      exact ⟨k + 1, s', le_rfl, .next h1 h2, hl⟩

/-- A finished `FFGA.optimize` is a run. -/
theorem ffga_run {c : Cfg} {gray : Bool} {gens : List BinGene} {s s' : St ℚ} (h : ffga c gray gens s = (.ok (), s')) :
    ∃ fit tr s0 k, fit.task = ffgaTask c.obj1 c.obj2 c.inputTruthy c.penalty c.arith ∧ checkTransfer c.transfer = .ok tr ∧
      Started (.binary gray gens) c.numIndivid c.numGenerations c.input c.childrenPercent (some c.stop) c.arith s0 ∧
      evolve (ffgaOps fit .balanced .onePoint .binString tr) s0 = (.ok (), s') ∧
      After (ffgaOps fit .balanced .onePoint .binString tr) s0 k s' := by
  obtain ⟨fit, tr, s0, sa, sb, a1, a2, a3, a4, a5, a6, a7, a8, a9⟩ := facade_ok h
  obtain ⟨s1, k, b1, b2, b3, b4, _⟩ := evolve_after a8
  exact ⟨fit, tr, s0, k, (newFitness_ok a1).1, a4, a7, a8, b4⟩

/-- C55 for the facade: after `FFGA.optimize()` with `transfer_parents="best"` the Pareto set in `best_solution`
matches every individual of every generation of the run in every objective. -/
theorem C55_facade {c : Cfg} {gray : Bool} {gens : List BinGene} {s s' : St ℚ} (hv : UniformVecs c.obj1)
    (htr : c.transfer = "best") (h : ffga c gray gens s = (.ok (), s')) :
    ∀ l ∈ s'.snaps, ∀ a ∈ l, ∃ b ∈ paretoSet s', AsGood (vecOf c.obj1 b) (vecOf c.obj1 a) := by
  obtain ⟨fit, tr, s0, k, hfit, htr', hst, _, hk⟩ := ffga_run h
  have hobj : fit.task.obj1 = c.obj1 := by rw [hfit]; rfl
  have hv' : UniformVecs fit.task.obj1 := by rw [hobj]; exact hv
  obtain rfl : tr = .best := by
    rw [htr] at htr'
    simp [checkTransfer] at htr'
    exact htr'.symm
  intro l hl a ha
  obtain ⟨i, si, hi, hai, rfl⟩ := hk.multi_snaps (ffgaOps_run hv' _ _ _ _) hst.fresh l hl
  obtain ⟨r, hr, rfl⟩ := List.mem_map.mp ha
  rw [← hobj]
  exact C55_never_lost hv' (by simp) hst.fresh hai hk hi r hr

end BaumEva
