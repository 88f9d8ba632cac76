import Verif.Proofs.Sure
import Verif.Props.Convergence
/-!
# C108: runs return, and find what there is to find, with probability one
-/
namespace BaumEva
open Spec

theorem SingleFacade.sure {f : SingleFacade} {c : Cfg} {ov : Option ℚ} {s : St ℚ} (ha : Admissible f c s.conds)
    (hseed : s.seed = none) (hc : c.tournamentSize ≤ (c.children : Int)) {B : Nat} (hb : max c.numIndivid c.children < B) :
    Sure B (f.optimize c ov) s := by
  have hB : 0 < B := by omega
  have hsafe : ∀ u, Safe (f.optimize c ov) (s.more u) := fun u e s' h => C65_no_exception (s := s.more u) ha h
  rw [f.optimize_eq] at hsafe ⊢
  have htame := startUp_tame c f.spec (hyperbolaTask c.obj1 c.obj2 c.inputTruthy c.penalty ov c.arith) f.mutOp
  refine Sure.bind hB hseed htame.ext ?_ ?_
  · refine Sure.of_tame hseed htame fun u e s' hx => hsafe u e s' (bind_of_err hx)
  intro u p s0 e1
  obtain ⟨sa, sb, a1, a2, _, a4, a5, a6, a7⟩ := startUp_ok e1
  have hset := run_safe (s0 := s0) (ov := ov) (sa := sa) (by rw [a2]; exact ha) a1 a4 a6 a7
  have n0 : s0.seed = none := a5.trans hseed
  obtain ⟨hlen, hnum, _⟩ := a7.cells
  have hpairs : numPairs s0.ga 1 = c.children := numPairs_children hnum a7.percent a7.arith
  have hk : ∀ w s1, evolve (f.ops c p) (s0.more w) = (.ok (), s1) → s1.seed = none ∧ ∃ b g, s1.ga.best = some (.single b g) := by
    intro w s1 e2
    obtain ⟨_, k, _, _, _, hk, _⟩ := evolve_after e2
    obtain ⟨b, g, v, r, t1, _⟩ := (hk.inv (singleOps_run p.1 (.tournament c.tournamentSize) f.cross f.mutOp p.2) (hset.more w).fresh).top
    exact ⟨(hk.more (by exact n0) []).2, b, g, t1⟩
  refine Sure.bind hB n0 (evolve_ext _ _ _ _ _) (evolve_sure hset n0 (hlen.trans hnum.symm) (by rw [hpairs]; exact hc) ha.size
    (by rw [hnum]; exact ha.size_lt) hB (by rw [hnum, hpairs]; exact hb)) ?_
  intro w _ s1 e2
  obtain ⟨n1, b, g, t1⟩ := hk w s1 e2
  split
  · refine Sure.of_ok (a := ()) (s' := s1) n1 ?_ ?_
    · exact Tame.printBest.ext
    · unfold printBest
      rw [bind_of_ok (getS_run s1), t1]
      rfl
  · exact Sure.of_ok n1 (Tame.pure ()).ext rfl

/-- C108: let the random numbers be independent and uniform among `0, …, B - 1`, where `B` exceeds the size of the
population.  If a generation has at least `tournament_size` children, an admissible call returns with probability one: the
chance that `L` random numbers are enough tends to 1 with `L`. -/
theorem C108_returns {f : SingleFacade} {c : Cfg} {ov : Option ℚ} {s : St ℚ} (ha : Admissible f c s.conds)
    (hseed : s.seed = none) (hc : c.tournamentSize ≤ (c.children : Int)) {B : Nat} (hb : max c.numIndivid c.children < B) {ε : ℚ}
    (hε : 0 < ε) :
    ∃ N, ∀ L, N ≤ L → 1 - ε ≤ chance B L (fun t => ∃ s', f.optimize c ov { s with tape := t } = (.ok (), s')) := by
  obtain ⟨N, hN⟩ := SingleFacade.sure (s := { s with tape := [] }) (ov := ov) ha hseed hc hb ε hε
  refine ⟨N, fun L hL => ?_⟩
  have h1 := chance_compl (L := L) (p := fun t => ∃ s', f.optimize c ov { s with tape := t } = (.ok (), s')) (show 0 < B by omega)
  have h2 : chance B L (fun t => ¬ ∃ s', f.optimize c ov { s with tape := t } = (.ok (), s')) ≤ ε := by
    refine le_trans (chance_mono ?_) (hN L hL)
    rintro t hno ⟨a, s', h⟩
    exact hno ⟨s', h⟩
  linarith

/-- Chances of two events. -/
theorem chance_and {B L : Nat} (hB : 0 < B) {p q : List Nat → Prop} {a b : ℚ} (h1 : 1 - a ≤ chance B L p)
    (h2 : chance B L (fun t => p t ∧ ¬ q t) ≤ b) : 1 - a - b ≤ chance B L fun t => p t ∧ q t := by
  have h3 : chance B L p ≤ chance B L (fun t => p t ∧ q t) + chance B L (fun t => p t ∧ ¬ q t) := by
    unfold chance
    rw [← add_div]
    refine div_le_div_of_nonneg_right ?_ (by positivity)
    norm_cast
    induction tapes B L with
    | nil => simp
    | cons t l ih =>
      simp only [List.countP_cons] at ih ⊢
      by_cases hp : p t <;> by_cases hq : q t <;> simp only [hp, hq] <;> simp <;> omega
  linarith

/-- C108: without early stop, `num_generations` generations find a given point with probability at least
`1 - (1 - δ) ^ (num_generations - 1)`. -/
theorem C108_found {f : SingleFacade} {c : Cfg} {ov : Option ℚ} {s : St ℚ} (ha : Admissible f c s.conds)
    (hxa : c.arith = .exact) (hseed : s.seed = none) (hc : c.tournamentSize ≤ (c.children : Int)) (hun : f.Uncertain c.mutationLvl)
    (hes : c.earlyStop = none) {B : Nat} (hb : max c.numIndivid c.children < B) {δ : ℚ} (hδ : f.Odds B δ) {x : List Val}
    (hx : f.Point x) {ε : ℚ} (hε : 0 < ε) :
    ∃ N, ∀ L, N ≤ L → 1 - ε - (1 - δ) ^ (c.numGenerations - 1) ≤
      chance B L (fun t => ∃ s', f.optimize c ov { s with tape := t } = (.ok (), s') ∧ x ∈ evaluated s s') := by
  have h2 := ha.size
  obtain ⟨N, hN⟩ := C108_returns (ov := ov) ha hseed hc hb hε
  refine ⟨N, fun L hL => ?_⟩
  refine (chance_and (show 0 < B by omega) (q := fun t => ∃ s', f.optimize c ov { s with tape := t } = (.ok (), s') ∧ x ∈ evaluated s s')
    (hN L hL) (le_trans (chance_mono ?_) (C107_missed (ov := ov) ha hxa hseed (by omega) hun (by omega) hδ hx c.numGenerations L))).trans
    (chance_mono fun t h => h.2)
  rintro t ⟨⟨s', h⟩, hno⟩
  refine ⟨s', h, ?_, fun hm => hno ⟨s', h, hm⟩⟩
  rw [(C46_facades h).2.2.1 hes]
  exact le_max_right _ _

/-- C108: and, in an unconstrained task, return a best solution at least as good as the point. -/
theorem C108_optimum {f : SingleFacade} {c : Cfg} {ov : Option ℚ} {s : St ℚ} (ha : Admissible f c s.conds)
    (hxa : c.arith = .exact) (hu : ¬ Constrained c s.conds) (hseed : s.seed = none) (hc : c.tournamentSize ≤ (c.children : Int))
    (hun : f.Uncertain c.mutationLvl) (hes : c.earlyStop = none) {B : Nat} (hb : max c.numIndivid c.children < B) {δ : ℚ}
    (hδ : f.Odds B δ) {x : List Val} (hx : f.Point x) {o : ℚ} (ho : c.objective x = .ok (.sc o)) {ε : ℚ} (hε : 0 < ε) :
    ∃ N, ∀ L, N ≤ L → 1 - ε - (1 - δ) ^ (c.numGenerations - 1) ≤
      chance B L (fun t => ∃ s', f.optimize c ov { s with tape := t } = (.ok (), s') ∧
        ∃ b g y ob, s'.ga.best = some (.single b g) ∧ argument f.spec.hasPhenotype (s'.heap b) = some y ∧
          c.objective y = .ok (.sc ob) ∧ cost ov ob ≤ cost ov o) := by
  obtain ⟨N, hN⟩ := C108_found (ov := ov) ha hxa hseed hc hun hes hb hδ hx hε
  refine ⟨N, fun L hL => (hN L hL).trans (chance_mono ?_)⟩
  rintro t ⟨s', h, hmem⟩
  refine ⟨s', h, ?_⟩
  obtain ⟨b, g, y, ob, b1, b2, _, b4, _, b6⟩ := C72_best_of_all (s := { s with tape := t }) hxa hu h
  obtain ⟨o', o1, o2⟩ := b6 x hmem
  rw [ho] at o1
  injection o1 with o1
  injection o1 with o1
  subst o1
  exact ⟨b, g, y, ob, b1, b2, b4, o2⟩

/-- C108: the number of generations that finds a point with a given probability below one depends on the search space
only. -/
theorem C108_enough {f : SingleFacade} {B : Nat} {δ : ℚ} (hδ : f.Odds B δ) {ε : ℚ} (hε : 0 < ε) :
    ∃ n, ∀ {c : Cfg} {ov : Option ℚ} {s : St ℚ} {x : List Val}, Admissible f c s.conds → c.arith = .exact → s.seed = none →
      c.tournamentSize ≤ (c.children : Int) → f.Uncertain c.mutationLvl → f.Point x → c.earlyStop = none →
      max c.numIndivid c.children < B → n ≤ c.numGenerations →
      ∃ N, ∀ L, N ≤ L → 1 - ε ≤
        chance B L (fun t => ∃ s', f.optimize c ov { s with tape := t } = (.ok (), s') ∧ x ∈ evaluated s s') := by
  by_cases hB : 0 < B
  · obtain ⟨n, hn⟩ := C107_vanishes hB hδ (show 0 < ε / 2 by linarith)
    refine ⟨n, fun {c ov s x} ha hxa hseed hc hun hx hes hb hlen => ?_⟩
    have h2 := ha.size
    obtain ⟨N, hN⟩ := C108_returns (ov := ov) ha hseed hc hb (show 0 < ε / 2 by linarith)
    refine ⟨N, fun L hL => ?_⟩
    have := (chance_and hB (q := fun t => ∃ s', f.optimize c ov { s with tape := t } = (.ok (), s') ∧ x ∈ evaluated s s')
      (hN L hL) (le_trans (chance_mono ?_) (hn (ov := ov) ha hxa hseed (by omega) hun hx hes hlen L))).trans
      (chance_mono fun t h => h.2)
    · linarith
    · rintro t ⟨⟨s', h⟩, hno⟩
      exact ⟨s', h, fun hm => hno ⟨s', h, hm⟩⟩
  · exact ⟨0, fun {c ov s x} _ _ _ _ _ _ _ hb => by omega⟩

/-! ## A concrete case -/

/-- Two runs in three of so many generations find the minimum of the sum of two numbers from `{0, 1, 2, 3}` and
`{-1, -5/7, …, 1}`. -/
example : ∃ m N, ∀ L, N ≤ L → 2 / 3 ≤ chance 1000 L (fun t => ∃ s', (SingleFacade.binary true [⟨0, 3, 1⟩, ⟨-1, 1, 1 / 2⟩]).optimize
      { exSumCfg with numGenerations := m, earlyStop := none } none { tape := t } = (.ok (), s') ∧
      [.num 0, .num (-1)] ∈ evaluated {} s') := by
  obtain ⟨m, h⟩ := C108_enough exSum_odds (show (0 : ℚ) < 1 / 3 by norm_num)
  obtain ⟨N, hN⟩ := h (c := { exSumCfg with numGenerations := m, earlyStop := none }) (ov := none) (s := {}) (exSum_longer m) rfl rfl
    (show exSumCfg.tournamentSize ≤ (exSumCfg.children : Int) by decide +kernel) exSum_uncertain exSum_point rfl
    (show max exSumCfg.numIndivid exSumCfg.children < 1000 by decide +kernel) le_rfl
  exact ⟨m, N, fun L hL => by have := hN L hL; norm_num at this ⊢; exact this⟩

end BaumEva
