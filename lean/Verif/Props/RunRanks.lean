import Verif.Proofs.RunRankSpec
import Verif.Proofs.SafeVega
import Verif.Props.MultiAssembled
import Verif.Props.MultiLiveness
import Verif.Props.MultiRuns
import Verif.Props.VegaSelection
/-!
# C127: ranked selections in multi-objective programs

`RankedSelection` and `VEGARankedSelection` number the individuals by position and average over runs of equal scores, which is a ranking by score only
in a population sorted by score.  A multi-objective storage is sorted by Pareto rank, best first.
-/
namespace BaumEva
open Spec

section
variable {σ : Type} {key rd : Ind σ → Except PyErr ℚ} {setRank : ℚ → Ind σ → Ind σ} {Ready : Ind σ → Prop}

/-- One round of a ranked selection on a population of different objects in any order. -/
theorem ranked_round (ops : RankOps key setRank rd Ready) (hcore : ∀ a b, SameCore a b → key b = key a)
    (hready : ∀ (a : Ind σ) k, Ready a → Ready { a with idx := k }) {m : Nat} {s s' : St σ} {sc : List ℚ} (hx : s.ga.attrs.arith = .exact)
    (hal : ∀ r ∈ s.ga.population, r < s.next) (hnd : s.ga.population.Nodup) (hk : HasKeys key Ready sc s) (hne : sc ≠ [])
    (hsent : sc.head? ≠ some (-1)) (h : balancedWith (assignRanked key setRank) rd m s = (.ok (), s')) :
    ∃ sel, selectionScores ((List.range sc.length).map (runRank sc)) = .ok sel ∧
      (∀ i, i < sc.length → ∃ a b, Owns (rouletteIndex sel) i a b ∧ b - a = runRank sc i / ((sc.length : ℚ) * (sc.length + 1) / 2)) ∧
      InPairs (s.ga.attrs.arith.share s.ga.childrenPercent s.ga.attrs.numIndivid m) s'.ga.parents
        (fun x a => s.next ≤ x ∧ a ∈ s.ga.population ∧ s'.heap x = s'.heap a) (SpunFrom sel s.ga.population) ∧
      ∀ (i r : Nat), s.ga.population[i]? = some r → rd (s'.heap r) = .ok (runRank sc i) := by
  obtain ⟨s1, s2, ws, sel, ps, hb, hpre, hr, hpar, hw, hs, hl, hc, hp⟩ := balancedWith_ok
    (by
      intro a b u hab
      have := assignRanked_ranked ops.core hab
      exact ⟨this.1, by rw [this.2.1]⟩) hal h
  obtain ⟨hr1, _⟩ := baseSelection_relabelled hb
  have hpop1 : s1.ga.population = s.ga.population := by rw [hr1.ga]
  have hk1 : HasKeys key Ready sc s1 := by
    refine ⟨by rw [hpop1]; exact hk.len, fun i r e => ?_, fun r e => ?_, by rw [hr1.ga]; exact hk.half⟩
    · rw [hcore _ _ (hr1.core r)]
      exact hk.key i r (by rw [← hpop1]; exact e)
    · obtain ⟨k, ek⟩ := (baseSelection_ok hb).2.2.2.2.2.2.2.2.1 r
      rw [ek]
      exact hready _ _ (hk.ready r (by rw [← hpop1]; exact e))
  obtain ⟨s2', e2, hrk2, _, hranks⟩ := assignRanked_runs ops runRank_tie hk1 (by rw [hpop1]; exact hnd) hsent
  rw [e2] at hpre
  obtain rfl : s2' = s2 := (Prod.mk.inj hpre).2
  have hranks' : ∀ i r, s.ga.population[i]? = some r → rd (s2'.heap r) = .ok (runRank sc i) := by
    intro i r e
    have hi := (List.getElem?_eq_some_iff.mp e).1
    exact hranks i (by rw [← hk.len]; exact hi) r (by rw [hrk2.2.1, hpop1]; exact e)
  have hws : ws = (List.range sc.length).map (runRank sc) := by
    apply List.ext_getElem
    · rw [← hw.length_eq, List.length_map, List.length_range, hk.len]
    · intro i h1 h2
      have hi : i < s.ga.population.length := by rw [hw.length_eq]; exact h1
      have := (List.forall₂_iff_get.mp hw).2 i hi h1
      simp only [List.get_eq_getElem] at this
      rw [hranks' i _ (List.getElem?_eq_getElem hi)] at this
      injection this with this
      rw [← this]; simp
  subst hws
  have hpos : ∀ w ∈ (List.range sc.length).map (runRank sc), 0 < w := by
    intro w hw
    obtain ⟨v, hv, rfl⟩ := List.mem_map.mp hw
    exact runRank_pos (List.mem_range.mp hv)
  rw [hx, Arith.exact_rnd, selectionScoresR_id] at hs
  rw [hx, Arith.exact_rnd] at hp
  have hsum : 0 < ((List.range sc.length).map (runRank sc)).sum := List.sum_pos _ hpos (by simpa using hne)
  refine ⟨sel, hs, ?_, ?_, ?_⟩
  · intro i hi
    obtain ⟨o, e⟩ := C27_width hpos hs (i := i) (w := runRank sc i) (by rw [List.getElem?_map, List.getElem?_range hi]; rfl)
    rw [runRank_sum] at e
    exact ⟨_, _, o, e⟩
  · have hnum : (s.ga.attrs.arith.share s.ga.childrenPercent s.ga.attrs.numIndivid m) = ps.length := by
      rw [hl, numPairs_share]
    rw [hnum]
    have := inPairs_of_copied (P := SpunFrom sel s.ga.population) hpar hc (by rw [hr.next]; exact hal) (by
      intro p hpm
      obtain ⟨a, b, c⟩ := hp p hpm
      exact ⟨a, b, spunFrom hs hsum.ne' c⟩)
    rw [hr.next] at this
    exact this
  · intro i r e
    rw [hc.old r (by rw [hr.next]; exact hal r (List.mem_of_getElem? e))]
    exact hranks' i r e

end

/-! ## RankedSelection -/

theorem hasKeys_score {s : St ℚ} {sc : List ℚ} (hx : s.ga.attrs.arith = .exact)
    (hsc : List.Forall₂ (fun r v => (s.heap r).score = some v) s.ga.population sc) : HasKeys scoreKey (fun _ => True) sc s := by
  refine ⟨hsc.length_eq, ?_, fun _ _ => trivial, by rw [hx]; exact halfExact_id _⟩
  intro i r hr
  have hi := (List.getElem?_eq_some_iff.mp hr).1
  have hi' : i < sc.length := by rw [← hsc.length_eq]; exact hi
  have := (List.forall₂_iff_get.mp hsc).2 i hi hi'
  simp only [List.get_eq_getElem] at this
  rw [List.getElem?_eq_getElem hi] at hr
  injection hr with hr
  rw [hr] at this
  unfold scoreKey
  rw [this, List.getD_eq_getElem?_getD, List.getElem?_eq_getElem hi']
  rfl

/-- C127: `RankedSelection` on a population in any order of scores.  When it returns, member `i` has the mean of the 1-based positions in the run of
equal scores around it as rank, and owns that part of the wheel the pairs of parents are spun from. -/
theorem C127_any_order {s s' : St ℚ} {sc : List ℚ} (hx : s.ga.attrs.arith = .exact) (hal : ∀ r ∈ s.ga.population, r < s.next)
    (hnd : s.ga.population.Nodup) (hsc : List.Forall₂ (fun r v => (s.heap r).score = some v) s.ga.population sc)
    (hne : sc ≠ []) (hsent : sc.head? ≠ some (-1)) (h : rankedExec s = (.ok (), s')) :
    ∃ sel, (∀ i, i < sc.length → ∃ a b, Owns (rouletteIndex sel) i a b ∧ b - a = runRank sc i / ((sc.length : ℚ) * (sc.length + 1) / 2)) ∧
      InPairs (s.ga.attrs.arith.share s.ga.childrenPercent s.ga.attrs.numIndivid 1) s'.ga.parents
        (fun x a => s.next ≤ x ∧ a ∈ s.ga.population ∧ s'.heap x = s'.heap a) (SpunFrom sel s.ga.population) ∧
      ∀ (i r : Nat), s.ga.population[i]? = some r → (s'.heap r).rank = some (.sc (runRank sc i)) := by
  obtain ⟨sel, _, a2, a3, a4⟩ := ranked_round rankOps_score (fun a b h => by unfold scoreKey; rw [h.score]) (fun _ _ h => h) hx hal hnd (hasKeys_score hx hsc)
    hne hsent h
  refine ⟨sel, a2, a3, fun i r e => ?_⟩
  have := a4 i r e
  unfold rankKey at this
  split at this
  · rename_i q hq
    injection this with this
    rw [hq, this]
  · simp at this

/-- C127: a later position never has the smaller rank, whatever the scores are, and has a larger one if the two scores differ. -/
theorem C127_by_position {sc : List ℚ} {i j : Nat} (hij : i < j) (hj : j < sc.length) :
    runRank sc i ≤ runRank sc j ∧ (sc[i]? ≠ sc[j]? → runRank sc i < runRank sc j) := by
  obtain ⟨h1, h2⟩ := runRank_mono hij.le hj
  refine ⟨h1, fun hne => ?_⟩
  have := h2 (by
    intro e
    apply hne
    rw [get_eq_getD hj, get_eq_getD (by omega), e])
  linarith

/-! ## whole runs -/

theorem multiNewGen_nodup {σ : Type} {tr : Transfer} {s s' : St σ} {u : Unit} (hr : Ready s) (h : multiNewGenExec tr s = (.ok u, s')) (hnd : s.ga.population.Nodup) :
    ∃ es, es.Nodup ∧ s'.ga.population = s.ga.children ++ es := by
  unfold multiNewGenExec at h
  obtain ⟨_, s1, h1, h2⟩ := bind_ok.mp h
  obtain rfl := ensurePhenotype_ready hr h1
  obtain ⟨es, s2, h3, h4⟩ := bind_ok.mp h2
  unfold installPop at h4
  rw [modGa_ok] at h4
  unfold chooseFront at h3
  rw [bind_of_ok (getGa_run s1)] at h3
  cases tr with
  | best =>
    simp only [frontPrefix, Prod.mk.injEq, Except.ok.injEq] at h3
    obtain ⟨rfl, rfl⟩ := h3
    exact ⟨_, hnd.sublist (List.takeWhile_sublist _), by rw [h4]⟩
  | random =>
    obtain ⟨⟨t, rfl⟩, _, _, a4, _⟩ := addRandom_ok h3
    exact ⟨es, a4 hnd, by rw [h4]⟩

/-- In a multi-objective run no object is in the population twice. -/
theorem After.multi_nodup {σ : Type} [DecidableEq σ] {fit : Fit σ} {sel : M σ Unit} {op : CrossOp} {mop : MutOp} {tr : Transfer}
    (hops : MultiRun (multiOps fit sel op mop (multiNewGenExec tr)) fit op mop) {s0 s : St σ} {k : Nat} (h0 : Fresh s0)
    (h : After (multiOps fit sel op mop (multiNewGenExec tr)) s0 k s) : s.ga.population.Nodup := by
  induction h with
  | first h1 h2 =>
    rw [hops.fitness] at h1
    rw [hops.update] at h2
    exact (multi_first hops.uniform h0 h1 h2).2.1.nodup_iff.mpr h0.distinct
  | next h1 h2 ih =>
    have hs := h1.multi hops h0
    obtain ⟨_, a0, s1, s2, s3, es, t, _, _, _, _, hB, hready, hng, hes, e2, _, _, _, _, _, hperm, _⟩ := multi_generation hops hs h2
    obtain ⟨es', n1, n2⟩ := multiNewGen_nodup hready (show multiNewGenExec tr s1 = (.ok (), s2) from hng) (by rw [hB.ga]; exact ih)
    rw [show s2.ga.population = s1.ga.children ++ es by rw [e2]] at n2
    obtain rfl := List.append_cancel_left n2
    obtain ⟨n0, hn0, hrange, hn1⟩ := hB.range
    rw [hperm.nodup_iff, List.nodup_append]
    refine ⟨by rw [hrange]; exact List.nodup_range', n1, ?_⟩
    intro x hx y hy e
    have h3 := hs.alive y (hes y hy)
    rw [hrange, List.mem_range'_1] at hx
    omega

/-- A member dominated by fewer members stands further to the left. -/
theorem multi_position {σ : Type} {f : List Val → Except PyErr Ret} {s : St σ} {k i j a b : Nat} (hs : MultiInv f s k) (hnd : s.ga.population.Nodup)
    (hi : s.ga.population[i]? = some a) (hj : s.ga.population[j]? = some b)
    (h : dominators f (s.ga.population.map s.heap) (s.heap a) < dominators f (s.ga.population.map s.heap) (s.heap b)) : i < j := by
  have ha := List.mem_of_getElem? hi
  have hb := List.mem_of_getElem? hj
  have hr : ∀ r ∈ s.ga.population, (s.heap r).rank = some (.sc (1 + (dominators f (s.ga.population.map s.heap) (s.heap r) : ℚ))) := by
    intro r hm
    rw [hs.rank r hm]
    unfold rankIn
    rw [List.count_eq_one_of_mem hnd hm, one_mul]
  obtain ⟨h1, e1⟩ := List.getElem?_eq_some_iff.mp hi
  obtain ⟨h2, e2⟩ := List.getElem?_eq_some_iff.mp hj
  rcases Nat.lt_trichotomy i j with hlt | rfl | hgt
  · exact hlt
  · rw [hi] at hj
    injection hj with hj
    rw [hj] at h
    exact absurd h (lt_irrefl _)
  · have := List.pairwise_iff_getElem.mp hs.order.2 j i h2 h1 hgt _ _ (by rw [e2]; exact hr b hb) (by rw [e1]; exact hr a ha)
    have h3 : ((dominators f (s.ga.population.map s.heap) (s.heap a) : Nat) : ℚ) < (dominators f (s.ga.population.map s.heap) (s.heap b) : Nat) := by exact_mod_cast h
    linarith

theorem multi_parts {σ : Type} {f : List Val → Except PyErr Ret} {s : St σ} {k : Nat} (hs : MultiInv f s k) (hnd : s.ga.population.Nodup) {sc sel : List ℚ}
    (hlen : sc.length = s.ga.population.length) (hne : s.ga.population ≠ [])
    (h : ∀ i, i < sc.length → ∃ a b, Owns (rouletteIndex sel) i a b ∧ b - a = runRank sc i / ((sc.length : ℚ) * (sc.length + 1) / 2)) :
    ∃ part : Nat → ℚ, (∀ i r : Nat, s.ga.population[i]? = some r → ∃ a b, Owns (rouletteIndex sel) i a b ∧ b - a = part r) ∧
      ∀ a ∈ s.ga.population, ∀ b ∈ s.ga.population,
        dominators f (s.ga.population.map s.heap) (s.heap a) < dominators f (s.ga.population.map s.heap) (s.heap b) →
        part a ≤ part b ∧ ∀ i j : Nat, s.ga.population[i]? = some a → s.ga.population[j]? = some b → sc[i]? ≠ sc[j]? → part a < part b := by
  have hat : ∀ {i r : Nat}, s.ga.population[i]? = some r → s.ga.population.idxOf r = i := by
    intro i r e
    obtain ⟨h1, rfl⟩ := List.getElem?_eq_some_iff.mp e
    exact hnd.idxOf_getElem i h1
  refine ⟨fun r => runRank sc (s.ga.population.idxOf r) / ((sc.length : ℚ) * (sc.length + 1) / 2), ?_, ?_⟩
  · intro i r e
    beta_reduce
    rw [hat e]
    exact h i (by rw [hlen]; exact (List.getElem?_eq_some_iff.mp e).1)
  · intro a ha b hb hd
    obtain ⟨i, ea⟩ := List.mem_iff_getElem?.mp ha
    obtain ⟨j, eb⟩ := List.mem_iff_getElem?.mp hb
    have hn : (0 : ℚ) < (sc.length : ℚ) * (sc.length + 1) / 2 := by
      have : (0 : ℚ) < sc.length := by rw [hlen]; exact_mod_cast List.length_pos_of_ne_nil hne
      positivity
    obtain ⟨m1, m2⟩ := C127_by_position (sc := sc) (multi_position hs hnd ea eb hd) (by rw [hlen]; exact (List.getElem?_eq_some_iff.mp eb).1)
    beta_reduce
    rw [hat ea, hat eb]
    refine ⟨(div_le_div_iff_of_pos_right hn).mpr m1, fun i' j' ea' eb' hne' => (div_lt_div_iff_of_pos_right hn).mpr (m2 ?_)⟩
    rw [← hat ea, hat ea', ← hat eb, hat eb']
    exact hne'

/-- Scores of FFGA are positive in every run. -/
theorem ffga_positive {fit : Fit ℚ} {sel : SelOp} {op : CrossOp} {mop : MutOp} {tr : Transfer} {s0 s : St ℚ} {k : Nat} (hv : UniformVecs fit.task.obj1)
    (hsc : fit.task.score = ffgaScore .exact) (h0 : Fresh s0) (h : After (ffgaOps fit sel op mop tr) s0 k s) :
    ∀ r ∈ s.ga.population, ∃ q, (s.heap r).score = some q ∧ 0 < q := by
  have hops := ffgaOps_run hv sel op mop tr
  have hpos : ∀ {q : ℚ}, 1 ≤ q → 0 < 1 / (1 + q) := fun h => by positivity
  induction h with
  | @first s1 s a b =>
    obtain ⟨hI, hperm, hS, hheap, _⟩ := multi_first hv h0 a b
    obtain ⟨_, hnew⟩ := ffga_scored hv hsc a (h0.distinct.sublist (unscored_sublist s0.heap s0.ga.population))
    intro r hr
    have hr0 := hperm.subset hr
    exact ⟨_, by rw [hheap r (h0.alive r hr0)]; exact hnew r hr0 (h0.unscored r hr0), hpos (rankIn_ge _ _ _ _)⟩
  | @next k s s' a b ih =>
    have hs := a.multi hops h0
    obtain ⟨hI', a0, s1, s2, s3, es, t, hsel, hb1, hb2, hb3, hB, hready, hng, hes, e2, hun, hfit, hF, hBU, _, hperm, hheap, _, _, _, _, hcore⟩ :=
      multi_generation hops hs b
    have hp2 : s2.ga.population = s1.ga.children ++ es := by rw [e2]
    obtain ⟨n0, hn0, hrange, hn1⟩ := hB.range
    have hnd : s1.ga.children.Nodup := by rw [hrange]; exact List.nodup_range'
    obtain ⟨_, hnew⟩ := ffga_scored hv hsc hfit (by rw [hun]; exact hnd)
    intro r hr
    rcases List.mem_append.mp (hperm.subset hr) with hc | he
    · have hr2 : r ∈ s2.ga.population := by rw [hp2]; exact List.mem_append_left _ hc
      have hlt : r < s1.next := by
        rw [hrange, List.mem_range'_1] at hc
        omega
      have hnone : (s2.heap r).score = none := by
        have : r ∈ unscored s2.heap s2.ga.population := by rw [hun]; exact hc
        simpa using (List.mem_filter.mp this).2
      exact ⟨_, by rw [hheap r hlt]; exact hnew r hr2 hnone, hpos (rankIn_ge _ _ _ _)⟩
    · obtain ⟨q, e, hq⟩ := ih r (hes r he)
      exact ⟨q, by rw [(hcore r he).score]; exact e, hq⟩

/-- C127: a run of FFGA with `RankedSelection`.  Whenever the selection returns, of two members the one that is dominated by more members never owns
the smaller part of the wheel the parents are spun from, and owns a larger part if their scores differ. -/
theorem C127_ffga {fit : Fit ℚ} {op : CrossOp} {mop : MutOp} {tr : Transfer} {s0 s s' : St ℚ} {k : Nat} (hv : UniformVecs fit.task.obj1)
    (hscore : fit.task.score = ffgaScore .exact) (h0 : Fresh s0) (h : After (ffgaOps fit .ranked op mop tr) s0 k s) (hx : s.ga.attrs.arith = .exact)
    (hsel : rankedExec s = (.ok (), s')) :
    ∃ (sel : List ℚ) (part : Nat → ℚ), (∀ i r : Nat, s.ga.population[i]? = some r → ∃ a b, Owns (rouletteIndex sel) i a b ∧ b - a = part r) ∧
      InPairs (s.ga.attrs.arith.share s.ga.childrenPercent s.ga.attrs.numIndivid 1) s'.ga.parents
        (fun x a => s.next ≤ x ∧ a ∈ s.ga.population ∧ s'.heap x = s'.heap a) (SpunFrom sel s.ga.population) ∧
      ∀ a ∈ s.ga.population, ∀ b ∈ s.ga.population,
        dominators fit.task.obj1 (s.ga.population.map s.heap) (s.heap a) < dominators fit.task.obj1 (s.ga.population.map s.heap) (s.heap b) →
        part a ≤ part b ∧ ((s.heap a).score ≠ (s.heap b).score → part a < part b) := by
  have hops := ffgaOps_run hv .ranked op mop tr
  have hs := h.multi hops h0
  have hnd := After.multi_nodup hops h0 h
  have hp := ffga_positive hv hscore h0 h
  have hlen : (s.ga.population.map fun r => (s.heap r).score.getD 0).length = s.ga.population.length := List.length_map _
  have hget : ∀ {i r : Nat}, s.ga.population[i]? = some r → (s.ga.population.map fun r => (s.heap r).score.getD 0)[i]? = (s.heap r).score := by
    intro i r e
    obtain ⟨q, e1, _⟩ := hp r (List.mem_of_getElem? e)
    rw [List.getElem?_map, e, Option.map_some, e1]
    rfl
  by_cases hne : s.ga.population = []
  · obtain ⟨s1, s2, ws, sel, ps, hb, hpre, hr, hpar, hw, hsl, hl, hc, hp⟩ := balancedWith_ok
      (by
        intro a b u hab
        have := assignRanked_ranked (fun q x => rankOps_score.core q x) hab
        exact ⟨this.1, by rw [this.2.1]⟩) hs.alive hsel
    have hps : ps = [] := by
      cases ps with
      | nil => rfl
      | cons p t => have := (hp p List.mem_cons_self).1; rw [hne] at this; simp at this
    refine ⟨[], fun _ => 0, by rw [hne]; simp, ?_, by rw [hne]; simp⟩
    have : (s.ga.attrs.arith.share s.ga.childrenPercent s.ga.attrs.numIndivid 1) = 0 := by
      rw [← numPairs_share, ← hl, hps]; rfl
    rw [this]
    refine ⟨?_, by omega⟩
    rw [hc.ga, hps, hpar]; rfl
  · obtain ⟨sel, a2, a3, _⟩ := C127_any_order (sc := s.ga.population.map fun r => (s.heap r).score.getD 0) hx hs.alive hnd (by
      rw [List.forall₂_map_right_iff]
      refine List.forall₂_same.mpr fun r hr => ?_
      obtain ⟨q, e, _⟩ := hp r hr
      rw [e]; rfl) (by simpa using hne) (by
      rw [List.head?_map]
      intro e
      obtain ⟨r, e1, e2⟩ := Option.map_eq_some_iff.mp e
      obtain ⟨q, e3, hq⟩ := hp r (List.mem_of_head? e1)
      rw [e3, Option.getD_some] at e2
      linarith) hsel
    obtain ⟨part, p1, p2⟩ := multi_parts hs hnd hlen hne a2
    refine ⟨sel, part, p1, a3, fun a ha b hb hd => ?_⟩
    obtain ⟨m1, m2⟩ := p2 a ha b hb hd
    refine ⟨m1, fun hd' => ?_⟩
    obtain ⟨i, ea⟩ := List.mem_iff_getElem?.mp ha
    obtain ⟨j, eb⟩ := List.mem_iff_getElem?.mp hb
    exact m2 i j ea eb (by rw [hget ea, hget eb]; exact hd')

/-! ## VEGARankedSelection -/

theorem forall₂_at {α β : Type} {R : α → β → Prop} {l : List α} {m : List β} (h : List.Forall₂ R l m) {i : Nat} {a : α} (e : l[i]? = some a) :
    ∃ b, m[i]? = some b ∧ R a b := by
  obtain ⟨hi, rfl⟩ := List.getElem?_eq_some_iff.mp e
  have hi' : i < m.length := by rw [← h.length_eq]; exact hi
  exact ⟨m[i], List.getElem?_eq_getElem hi', (List.forall₂_iff_get.mp h).2 i hi hi'⟩

/-- What every round of `VEGARankedSelection` keeps. -/
structure VegaRound (n : Nat) (s x : St (List ℚ)) : Prop where
  ga : x.ga = { s.ga with parents := x.ga.parents }
  next : s.next ≤ x.next
  score : ∀ r ∈ s.ga.population, (x.heap r).score = (s.heap r).score
  rank : ∀ r ∈ s.ga.population, VecRank n (x.heap r)

theorem VegaRound.step {n i : Nat} {s x y : St (List ℚ)} (hx : s.ga.attrs.arith = .exact) (hal : ∀ r ∈ s.ga.population, r < s.next)
    (hk : ∀ r ∈ s.ga.population, ∃ l, (s.heap r).score = some l ∧ n ≤ l.length) (hi : i < n) (hs : VegaRound n s x)
    (h : balancedWith (assignRanked (scoreAt i) (setRankAt i)) (rankAt i) n x = (.ok (), y)) : VegaRound n s y := by
  have hpx : x.ga.population = s.ga.population := by rw [hs.ga]
  have x4 : ∀ r ∈ x.ga.population, r < x.next := by rw [hpx]; exact fun r hr => (hal r hr).trans_le hs.next
  have hS := ranked_at_selects i n x y _ x4 h
  obtain ⟨z1, z2, _, _, _, b1, b2, hrel, _, _, _, _, hcp, _⟩ := balancedWith_ok (fun _ _ _ hv => vegaRankedPre hv) x4 h
  obtain ⟨hr1, _⟩ := baseSelection_relabelled b1
  have hp : z1.ga.population = x.ga.population := by rw [hr1.ga]
  have hz1 : Rankable (scoreAt i) (VecRank n) z1 := by
    intro r hr
    rw [hp, hpx] at hr
    obtain ⟨l, e, hl⟩ := hk r hr
    obtain ⟨k, ek⟩ := (baseSelection_ok b1).2.2.2.2.2.2.2.2.1 r
    rw [ek]
    refine ⟨⟨l[i]'(by omega), ?_⟩, hs.rank r hr⟩
    unfold scoreAt
    simp only
    rw [hs.score r hr, e]
    simp only
    rw [List.getElem?_eq_getElem (by omega)]
  obtain ⟨z2', e2, _, hrd⟩ := assignRanked_raises (rankOps_at hi) (by rw [hr1.ga]; simp only; rw [hs.ga]; simp only; rw [hx]; exact id_rounding) hz1
  rw [b2] at e2
  obtain rfl := (Prod.mk.inj e2).2
  refine ⟨by rw [hS.ga, hs.ga], hs.next.trans hS.next, fun r hr => ?_, fun r hr => ?_⟩
  · rw [(hS.core r (x4 r (by rw [hpx]; exact hr))).score, hs.score r hr]
  · rw [hcp.old r (by rw [hrel.next]; exact x4 r (by rw [hpx]; exact hr))]
    exact hrd r (by rw [hp, hpx]; exact hr)

theorem VegaRound.loop {n : Nat} {s : St (List ℚ)} (hx : s.ga.attrs.arith = .exact) (hal : ∀ r ∈ s.ga.population, r < s.next)
    (hk : ∀ r ∈ s.ga.population, ∃ l, (s.heap r).score = some l ∧ n ≤ l.length) :
    ∀ {is : List Nat} {x y : St (List ℚ)} {u : Unit}, (∀ i ∈ is, i < n) → VegaRound n s x →
      forEach is (fun i => balancedWith (assignRanked (scoreAt i) (setRankAt i)) (rankAt i) n) x = (.ok u, y) → VegaRound n s y := by
  intro is
  induction is with
  | nil =>
    intro x y u _ hs h
    rw [forEach_nil] at h
    obtain rfl := (Prod.mk.inj h).2
    exact hs
  | cons i is ih =>
    intro x y u hi hs h
    obtain ⟨z, h1, h2⟩ := forEach_cons_ok.mp h
    exact ih (fun j hj => hi j (List.mem_cons_of_mem _ hj)) (hs.step hx hal hk (hi i List.mem_cons_self) h1) h2

/-- C127: `VEGARankedSelection`.  When it returns, the pairs of parents are spun from a wheel on which member `i` owns the part given by its position
and the run of equal scores for the last objective around it. -/
theorem C127_vega_any_order {n : Nat} {s s' : St (List ℚ)} {sc : List ℚ} (hx : s.ga.attrs.arith = .exact) (hal : ∀ r ∈ s.ga.population, r < s.next)
    (hnd : s.ga.population.Nodup) (hsc : List.Forall₂ (fun r v => (s.heap r).score.bind (fun l => l[n]?) = some v) s.ga.population sc)
    (hne : sc ≠ []) (hsent : sc.head? ≠ some (-1)) (h : vegaRankedExec (n + 1) s = (.ok (), s')) :
    ∃ sel, (∀ i, i < sc.length → ∃ a b, Owns (rouletteIndex sel) i a b ∧ b - a = runRank sc i / ((sc.length : ℚ) * (sc.length + 1) / 2)) ∧
      InPairs (s.ga.attrs.arith.share s.ga.childrenPercent s.ga.attrs.numIndivid (n + 1)) s'.ga.parents
        (fun x a => s.next ≤ x ∧ a ∈ s.ga.population ∧ s'.heap x = s'.heap a) (SpunFrom sel s.ga.population) ∧
      ∀ (i r : Nat), s.ga.population[i]? = some r → ∃ l, (s'.heap r).rank = some (.vec l) ∧ l[n]? = some (runRank sc i) := by
  have hk : ∀ r ∈ s.ga.population, ∃ l, (s.heap r).score = some l ∧ n + 1 ≤ l.length := by
    intro r hr
    obtain ⟨i, e⟩ := List.mem_iff_getElem?.mp hr
    obtain ⟨v, _, hv⟩ := forall₂_at hsc e
    obtain ⟨l, e1, e2⟩ := Option.bind_eq_some_iff.mp hv
    exact ⟨l, e1, (List.getElem?_eq_some_iff.mp e2).1⟩
  unfold vegaRankedExec at h
  rw [bind_of_ok (getGa_run s)] at h
  obtain ⟨_, s0, h0, h⟩ := bind_ok.mp h
  obtain ⟨⟨r1, r2, _⟩, hv, _⟩ := clearRanks_ok (fun r hr => hr) h0
  have hs0 : VegaRound (n + 1) s s0 := ⟨by rw [r2], by rw [r1.next], fun r _ => (r1.core r).score, fun r hr => ⟨_, hv r hr, List.length_replicate⟩⟩
  rw [List.range_succ] at h
  obtain ⟨s1, h1, h2⟩ := forEach_append_ok.mp h
  obtain ⟨s2, h3, h4⟩ := forEach_cons_ok.mp h2
  rw [forEach_nil] at h4
  obtain rfl := (Prod.mk.inj h4).2
  have hs1 := VegaRound.loop hx hal hk (fun i hi => by have := List.mem_range.mp hi; omega) hs0 h1
  have hp1 : s1.ga.population = s.ga.population := by rw [hs1.ga]
  have har : s1.ga.attrs = s.ga.attrs := by rw [hs1.ga]
  have hcp : s1.ga.childrenPercent = s.ga.childrenPercent := by rw [hs1.ga]
  have hkeys : HasKeys (scoreAt n) (VecRank (n + 1)) sc s1 := by
    refine ⟨by rw [hp1]; exact hsc.length_eq, fun i r e => ?_, fun r e => hs1.rank r (by rw [← hp1]; exact e), by rw [har, hx]; exact halfExact_id _⟩
    rw [hp1] at e
    obtain ⟨v, e1, hv⟩ := forall₂_at hsc e
    obtain ⟨l, e2, e3⟩ := Option.bind_eq_some_iff.mp hv
    unfold scoreAt
    rw [hs1.score r (List.mem_of_getElem? e), e2]
    simp only
    rw [e3, List.getD_eq_getElem?_getD, e1]
    rfl
  obtain ⟨sel, _, a2, a3, a4⟩ := ranked_round (rankOps_at (by omega : n < n + 1)) (scoreAt_core n) (fun _ _ h => h) (by rw [har]; exact hx)
    (by rw [hp1]; exact fun r hr => (hal r hr).trans_le hs1.next) (by rw [hp1]; exact hnd) hkeys hne hsent h3
  rw [hp1, har, hcp] at a3
  refine ⟨sel, a2, ⟨a3.1, fun k hk => ?_⟩, fun i r e => ?_⟩
  · obtain ⟨x, y, a, b, h1, h2, h3, h4, h5⟩ := a3.2 k hk
    exact ⟨x, y, a, b, h1, h2, ⟨hs1.next.trans h3.1, h3.2⟩, ⟨hs1.next.trans h4.1, h4.2⟩, h5⟩
  · have := a4 i r (by rw [hp1]; exact e)
    unfold rankAt at this
    split at this
    · rename_i l e1
      split at this
      · rename_i v e2
        injection this with this
        exact ⟨l, e1, by rw [e2, this]⟩
      · simp at this
    · simp at this

/-- C127: a run of VEGA with `VEGARankedSelection`, while no object is in the population twice and the first member does not have -1 as last score. -/
theorem C127_vega {fit : Fit (List ℚ)} {n : Nat} {op : CrossOp} {mop : MutOp} {tr : Transfer} {s0 s s' : St (List ℚ)} {k : Nat} {sc : List ℚ}
    (hv : UniformVecs fit.task.obj1) (h0 : Fresh s0) (h : After (vegaOps fit (n + 1) .ranked op mop tr) s0 k s) (hx : s.ga.attrs.arith = .exact)
    (hnd : s.ga.population.Nodup) (hsc : List.Forall₂ (fun r v => (s.heap r).score.bind (fun l => l[n]?) = some v) s.ga.population sc)
    (hne : sc ≠ []) (hsent : sc.head? ≠ some (-1)) (hsel : vegaRankedExec (n + 1) s = (.ok (), s')) :
    ∃ (sel : List ℚ) (part : Nat → ℚ), (∀ i r : Nat, s.ga.population[i]? = some r → ∃ a b, Owns (rouletteIndex sel) i a b ∧ b - a = part r) ∧
      InPairs (s.ga.attrs.arith.share s.ga.childrenPercent s.ga.attrs.numIndivid (n + 1)) s'.ga.parents
        (fun x a => s.next ≤ x ∧ a ∈ s.ga.population ∧ s'.heap x = s'.heap a) (SpunFrom sel s.ga.population) ∧
      ∀ a ∈ s.ga.population, ∀ b ∈ s.ga.population,
        dominators fit.task.obj1 (s.ga.population.map s.heap) (s.heap a) < dominators fit.task.obj1 (s.ga.population.map s.heap) (s.heap b) →
        part a ≤ part b ∧ ((s.heap a).score.bind (fun l => l[n]?) ≠ (s.heap b).score.bind (fun l => l[n]?) → part a < part b) := by
  have hops := vegaOps_run hv (n := n + 1) (by omega) .ranked op mop tr
  have hs := h.multi hops h0
  obtain ⟨sel, a2, a3, _⟩ := C127_vega_any_order hx hs.alive hnd hsc hne hsent hsel
  obtain ⟨part, p1, p2⟩ := multi_parts hs hnd hsc.length_eq.symm (by
    intro e
    have := hsc.length_eq
    rw [e] at this
    exact hne (List.eq_nil_of_length_eq_zero this.symm)) a2
  refine ⟨sel, part, p1, a3, fun a ha b hb hd => ?_⟩
  obtain ⟨m1, m2⟩ := p2 a ha b hb hd
  refine ⟨m1, fun hd' => ?_⟩
  obtain ⟨i, ea⟩ := List.mem_iff_getElem?.mp ha
  obtain ⟨j, eb⟩ := List.mem_iff_getElem?.mp hb
  obtain ⟨v, e1, e2⟩ := forall₂_at hsc ea
  obtain ⟨w, e3, e4⟩ := forall₂_at hsc eb
  refine m2 i j ea eb ?_
  rw [e1, e3, ← e2, ← e4]
  exact hd'

/-! ## what is left of the Pareto set -/

theorem runRank_one {sc : List ℚ} {i : Nat} (hi : i < sc.length) : runRank sc i = 1 ↔ i = 0 ∧ (sc.length = 1 ∨ sc.getD 1 0 ≠ sc.getD 0 0) := by
  obtain ⟨a, b, h, ha, hb⟩ := exists_maxRun hi
  rw [runRank_half h ha hb]
  constructor
  · intro e
    have h1 : ((a + b + 1 : Nat) : ℚ) = ((2 : Nat) : ℚ) := by push_cast at e ⊢; linarith
    have h2 : a + b + 1 = 2 := by exact_mod_cast h1
    have := h.lt
    obtain rfl : a = 0 := by omega
    obtain rfl : b = 1 := by omega
    refine ⟨by omega, ?_⟩
    rcases h.right with e | e
    · exact .inl e.symm
    · exact .inr e
  · rintro ⟨rfl, h2⟩
    have hm : MaxRun sc 0 1 := ⟨by omega, by omega, fun j h1 h2 => by rw [show j = 0 by omega], .inl rfl, h2.imp Eq.symm id⟩
    obtain ⟨rfl, rfl⟩ := h.unique hm ha hb le_rfl (by omega)
    norm_num

/-- C127: FFGA with `RankedSelection` and `transfer_parents` "best".  The selection has written its own ranks over the Pareto ranks by which the members to be
transferred are recognised: the first individual is transferred if the second has another score, or nobody. -/
theorem C127_transferred {fit : Fit ℚ} {op : CrossOp} {mop : MutOp} {s0 s s' : St ℚ} {k : Nat} {sc : List ℚ} (hv : UniformVecs fit.task.obj1)
    (hscore : fit.task.score = ffgaScore .exact) (h0 : Fresh s0) (h : After (ffgaOps fit .ranked op mop .best) s0 k s) (hx : s.ga.attrs.arith = .exact)
    (hsc : List.Forall₂ (fun r v => (s.heap r).score = some v) s.ga.population sc) (hne : sc ≠ [])
    (hg : generation (ffgaOps fit .ranked op mop .best) s = (.ok (), s')) :
    (∀ r ∈ s.ga.population, r ∈ s'.ga.population → s.ga.population.head? = some r ∧ sc[1]? ≠ sc[0]?) ∧
      s'.ga.population.length = s0.ga.attrs.arith.share s0.ga.childrenPercent s0.ga.attrs.numIndivid 1 + (if sc[1]? = sc[0]? then 0 else 1) := by
  have hops := ffgaOps_run hv .ranked op mop .best
  have hs := h.multi hops h0
  have hnd := After.multi_nodup hops h0 h
  have hp := ffga_positive hv hscore h0 h
  obtain ⟨_, a0, s1, s2, s3, es, t, hsel, hb1, hb2, hb3, hB, hready, hng, hes, e2, _, _, _, _, _, hperm, _⟩ := multi_generation hops hs hg
  obtain ⟨es', t', _, hbest, _, e2'⟩ := multiNewGen_ok hready (show multiNewGenExec .best s1 = (.ok (), s2) from hng)
  obtain rfl : es = es' := by
    have h1 : s2.ga.population = s1.ga.children ++ es := by rw [e2]
    rw [show s2.ga.population = s1.ga.children ++ es' by rw [e2']] at h1
    exact (List.append_cancel_left h1).symm
  have hpop1 : s1.ga.population = s.ga.population := by rw [hB.ga]
  have hn : 0 < sc.length := List.length_pos_of_ne_nil hne
  have hlen := hsc.length_eq
  have hsent : sc.head? ≠ some (-1) := by
    intro e
    rw [List.head?_eq_getElem?] at e
    obtain ⟨v, e1, e2⟩ := forall₂_at hsc.flip e
    obtain ⟨q, e3, hq⟩ := hp v (List.mem_of_getElem? e1)
    rw [show (s.heap v).score = some (-1) from e2] at e3
    injection e3 with e3
    linarith
  obtain ⟨_, _, _, hrk⟩ := C127_any_order hx hs.alive hnd hsc hne hsent (show rankedExec s = (.ok (), a0) from hsel)
  have hrank : ∀ i r : Nat, s.ga.population[i]? = some r → ((s1.heap r).rank = some (.sc 1) ↔ i = 0 ∧ sc[1]? ≠ sc[0]?) := by
    intro i r e
    have hi : i < sc.length := by rw [← hlen]; exact (List.getElem?_eq_some_iff.mp e).1
    rw [hb1 r ((hs.alive r (List.mem_of_getElem? e)).trans_le hb2), hrk i r e, Option.some.injEq, Rank.sc.injEq, runRank_one hi, get_eq_getD hn]
    refine and_congr_right fun _ => ?_
    by_cases h1 : sc.length = 1
    · rw [List.getElem?_eq_none (by omega)]
      simp [h1]
    · rw [get_eq_getD (show 1 < sc.length by omega)]
      simp [h1]
  have hees : es = if sc[1]? = sc[0]? then [] else s.ga.population.take 1 := by
    rw [hbest rfl, hpop1]
    cases hpop : s.ga.population with
    | nil => rw [hpop] at hlen; simp at hlen; omega
    | cons x l =>
      have hx0 := hrank 0 x (by rw [hpop]; rfl)
      rw [List.takeWhile_cons]
      by_cases hc : sc[1]? = sc[0]?
      · rw [if_pos hc, if_neg]
        simp only [decide_eq_true_eq]
        rw [hx0]
        exact fun h => h.2 hc
      · rw [if_neg hc, if_pos (by simp only [decide_eq_true_eq]; exact hx0.mpr ⟨rfl, hc⟩)]
        cases l with
        | nil => rfl
        | cons y l =>
          have hy := hrank 1 y (by rw [hpop]; rfl)
          rw [List.takeWhile_cons, if_neg]
          · rfl
          · simp only [decide_eq_true_eq]
            rw [hy]
            exact fun h => absurd h.1 (by omega)
  have hlen2 : s'.ga.population.length = s1.ga.children.length + es.length := by rw [hperm.length_eq, List.length_append]
  obtain ⟨n0, hn0, hrange, hn1⟩ := hB.range
  have hold : ∀ r ∈ s.ga.population, r ∈ s'.ga.population → r ∈ es := by
    intro r hr hr'
    rcases List.mem_append.mp (hperm.subset hr') with hc | he
    · rw [hrange, List.mem_range'_1] at hc
      have := hs.alive r hr
      omega
    · exact he
  refine ⟨fun r hr hr' => ?_, ?_⟩
  · have := hold r hr hr'
    rw [hees] at this
    split at this
    · simp at this
    · rename_i hc
      refine ⟨?_, hc⟩
      cases hpop : s.ga.population with
      | nil => rw [hpop] at hr; simp at hr
      | cons x l => rw [hpop] at this; simp at this; rw [this]; rfl
  · have hch : s1.ga.children.length = s0.ga.attrs.arith.share s0.ga.childrenPercent s0.ga.attrs.numIndivid 1 := by
      have h1 := (selExec_isSelection .ranked s a0 _ hs.alive hsel).2
      have h2 := hB.size
      rw [hb3, h1] at h2
      have hni : s.ga.attrs = s0.ga.attrs := by
        have key : ∀ j x, After (ffgaOps fit .ranked op mop .best) s0 j x → x.ga.attrs = s0.ga.attrs := by
          intro j x hx
          induction hx with
          | first f1 f2 => exact (multi_first hv h0 f1 f2).2.2.2.2.1
          | next f1 f2 ih =>
            obtain ⟨_, _, _, _, _, _, _, _, _, _, _, _, _, _, _, _, _, _, _, _, _, _, _, ha, _⟩ := multi_generation hops (f1.multi hops h0) f2
            rw [ha, ih]
        exact key _ _ h
      obtain ⟨⟨p1, p2, p3⟩, _⟩ := h.keeps sameSetup_frame (ffgaOps_frame sameSetup_frame fit .ranked op mop .best)
      have : numPairs s.ga 1 = s0.ga.attrs.arith.share s0.ga.childrenPercent s0.ga.attrs.numIndivid 1 := by
        rw [numPairs_share, hni, p2]
      omega
    rw [hlen2, hch, hees]
    split
    · rfl
    · rw [List.length_take, hlen]
      omega

/-- C127: so from the second generation on such a run of FFGA has at most one member more than it has children per generation. -/
theorem C127_shrinks {fit : Fit ℚ} {op : CrossOp} {mop : MutOp} {s0 s : St ℚ} {k : Nat} (hv : UniformVecs fit.task.obj1)
    (hscore : fit.task.score = ffgaScore .exact) (h0 : Fresh s0) (hx : s0.ga.attrs.arith = .exact)
    (h : After (ffgaOps fit .ranked op mop .best) s0 (k + 2) s) :
    s.ga.population.length ≤ s0.ga.attrs.arith.share s0.ga.childrenPercent s0.ga.attrs.numIndivid 1 + 1 := by
  cases h with
  | @next _ x _ h1 hg =>
    have hops := ffgaOps_run hv .ranked op mop .best
    have hp := ffga_positive hv hscore h0 h1
    have hxa : x.ga.attrs = s0.ga.attrs := by
      clear hg
      generalize k + 1 = j at h1
      clear hp
      induction h1 with
      | first f1 f2 => exact (multi_first hv h0 f1 f2).2.2.2.2.1
      | next f1 f2 ih =>
        obtain ⟨_, _, _, _, _, _, _, _, _, _, _, _, _, _, _, _, _, _, _, _, _, _, _, ha, _⟩ := multi_generation hops (f1.multi hops h0) f2
        rw [ha, ih]
    by_cases hne : x.ga.population = []
    · obtain ⟨es, e1, e2, _, _, e5⟩ := ffga_sizes_all hv h0 h1 hg
      have := e5 rfl
      rw [hne] at this
      simp only [List.length_nil] at this
      omega
    · have := (C127_transferred (sc := x.ga.population.map fun r => (x.heap r).score.getD 0) hv hscore h0 h1 (by rw [hxa]; exact hx) (by
        rw [List.forall₂_map_right_iff]
        refine List.forall₂_same.mpr fun r hr => ?_
        obtain ⟨q, e, _⟩ := hp r hr
        rw [e]; rfl) (by simpa using hne) hg).2
      split at this <;> omega

/-! ## examples -/

set_option maxRecDepth 100000 in
/-- CollectorGA with the parts of FFGA and `RankedSelection`, six individuals, three children: nobody survives any generation. -/
example : (collectorFfga { exPairCfg with transfer := "best", numIndivid := 6, numGenerations := 4 } (.binary true [⟨0, 3, 1⟩, ⟨-1, 1, 1 / 2⟩]) .ranked .twoPoint
    .shift { tape := exDraws 900 (exSeed 1) }).2.snaps.map List.length = [6, 3, 3, 3] := by decide +kernel

/-- The run of the examples: five individuals, four of them not dominated, one dominated by three. -/
def exReverse : St ℚ :=
  { tape := exDraws 100 5
    heap := fun r => { genotype := some [.num (([0, 1, 5, 3, 3] : List ℚ).getD r 0)], phenotype := some [.num (([0, 1, 5, 3, 3] : List ℚ).getD r 0)] }
    next := 5
    ga := { population := [0, 1, 2, 3, 4], childrenPercent := 3 / 5, attrs := { numIndivid := 5 } } }

def exReverseFit : Fit ℚ := ⟨exRankTask, false, [], []⟩

theorem exReverse_fresh : Fresh exReverse :=
  ⟨by decide, by decide, fun _ _ => rfl, rfl, rfl, rfl, rfl, rfl, rfl, rfl, rfl, rfl⟩

set_option maxRecDepth 100000 in
/-- After the first generation the four members of the Pareto set have rank 5/2 and the dominated one rank 5: it owns a third of the wheel, each member of the
Pareto set a sixth. -/
theorem C127_dominated_preferred : ∃ s s', After (ffgaOps exReverseFit .ranked .onePoint .binString .best) exReverse 1 s ∧ rankedExec s = (.ok (), s') ∧
    (s.ga.population.map fun r => (s.heap r).rank) = [some (.sc 1), some (.sc 1), some (.sc 1), some (.sc 1), some (.sc 4)] ∧
    (s.ga.population.map fun r => (s'.heap r).rank) = [some (.sc (5 / 2)), some (.sc (5 / 2)), some (.sc (5 / 2)), some (.sc (5 / 2)), some (.sc 5)] :=
  ⟨(multiUpdate (multiFitnessExec exReverseFit exReverse).2).2, (rankedExec (multiUpdate (multiFitnessExec exReverseFit exReverse).2).2).2,
    .first (Prod.ext (show (multiFitnessExec exReverseFit exReverse).1 = .ok () by decide +kernel) rfl)
      (Prod.ext (show (multiUpdate (multiFitnessExec exReverseFit exReverse).2).1 = .ok () by decide +kernel) rfl),
    Prod.ext (show (rankedExec (multiUpdate (multiFitnessExec exReverseFit exReverse).2).2).1 = .ok () by decide +kernel) rfl,
    by decide +kernel, by decide +kernel⟩

example : UniformVecs exReverseFit.task.obj1 ∧ exReverseFit.task.score = ffgaScore .exact := ⟨exTwo_uniform, rfl⟩

/-- Equal scores that are not neighbours are not averaged. -/
example : (List.range 6).map (runRank [1 / 2, 1 / 2, 1 / 3, 1 / 2, 1 / 4, 1 / 4]) = [3 / 2, 3 / 2, 3, 4, 11 / 2, 11 / 2] := by decide +kernel

/-- `VEGARankedSelection` on six individuals with last scores 6, .., 1: the lowest last score has the highest rank. -/
example : exVegaState.ga.population.Nodup ∧
    List.Forall₂ (fun r v => (exVegaState.heap r).score.bind (fun l => l[1]?) = some v) exVegaState.ga.population [6, 5, 4, 3, 2, 1] ∧
    (exVegaState.ga.population.map fun r => ((vegaRankedExec 2 exVegaState).2.heap r).rank) =
      [some (.vec [1, 1]), some (.vec [2, 2]), some (.vec [3, 3]), some (.vec [4, 4]), some (.vec [5, 5]), some (.vec [6, 6])] := by
  refine ⟨by decide, ?_, by decide +kernel⟩
  repeat' constructor

end BaumEva
