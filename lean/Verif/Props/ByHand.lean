import Verif.Props.PenaltyFloat
import Verif.Props.Resume
import Verif.Props.Assembled
import Verif.Props.Modes
/-!
# C110: programs assembled by hand keep the promises of the ready-made classes
-/
namespace BaumEva
open Spec

/-- `s'` is the state after `k` generations of a single-objective program with the given components, started in `s`; `stop` is
the limit stored in `GaData`. -/
structure HandRun (c : Cfg) (spec : PopSpec) (sel : SelOp) (op : CrossOp) (mop : MutOp) (ov : Option ℚ) (stop : Option Int)
    (s : St ℚ) (fit : Fit ℚ) (tr : Transfer) (s0 : St ℚ) (k : Nat) (s' : St ℚ) : Prop where
  fitness : ∃ sb, newFitness (hyperbolaTask c.obj1 c.obj2 c.inputTruthy c.penalty ov c.arith) s = (.ok fit, sb)
  started : Started spec c.numIndivid c.numGenerations c.input c.childrenPercent stop c.arith s0
  calls : s0.calls = s.calls
  after : After (singleOps fit sel op mop tr) s0 k s'

section
variable {c : Cfg} {spec : PopSpec} {sel : SelOp} {op : CrossOp} {mop : MutOp} {ov : Option ℚ} {stop : Option Int} {s s0 s' : St ℚ}
  {fit : Fit ℚ} {tr : Transfer} {k : Nat}

theorem HandRun.ledger (h : HandRun c spec sel op mop ov stop s fit tr s0 k s') {T : Ind ℚ → Prop}
    (hT : Verdict spec.hasPhenotype T) (hJ : Judges fit spec.hasPhenotype T) : Ledger T spec.hasPhenotype s0 s' k := by
  obtain ⟨_, _, hb, hfe⟩ := h.started.cells
  exact BaumEva.ledger h.started.fresh hfe hb hT hJ h.after

theorem HandRun.idx (h : HandRun c spec sel op mop ov stop s fit tr s0 k s') : s'.ga.idxGeneration = k :=
  (h.after.inv (singleOps_run fit sel op mop tr) h.started.fresh).hist.idx

theorem HandRun.budget (h : HandRun c spec sel op mop ov stop s fit tr s0 k s') :
    s'.calls = s.calls ++ evaluated s s' ∧
    (evaluated s s').length = c.numIndivid + (k - 1) * c.children ∧
    (∀ g ∈ evaluated s s', ∃ l ∈ generationsOf s', ∃ x ∈ l, argument spec.hasPhenotype x = some g) ∧
    (∀ l ∈ generationsOf s', ∀ x ∈ l, ∃ g ∈ evaluated s s', argument spec.hasPhenotype x = some g) := by
  obtain ⟨hlen, hnum, _, _⟩ := h.started.cells
  obtain ⟨_, _, _, ⟨gs, l1, l2, l3, _, l4⟩, _⟩ := h.ledger (evaluated_verdict _) (evaluated_judges _ _)
  have he : evaluated s s' = gs := by unfold evaluated; rw [l1, h.calls, List.drop_left]
  rw [he]
  refine ⟨by rw [l1, h.calls], ?_, l3, l4⟩
  rw [l2, hlen, numPairs_children hnum h.started.percent h.started.arith]

theorem HandRun.truthful (h : HandRun c spec sel op mop ov stop s fit tr s0 k s') (hn : ¬ Constrained c s.conds) :
    ∀ l ∈ generationsOf s', ∀ x ∈ l, Truthful c ov spec.hasPhenotype x := by
  obtain ⟨sb, hf⟩ := h.fitness
  exact (h.ledger (truthful_verdict _ _ _) (truthful_judges hf hn _)).snaps

theorem HandRun.best (h : HandRun c spec sel op mop ov stop s fit tr s0 k s') :
    ∃ b gen v, s'.ga.best = some (.single b gen) ∧ (s'.heap b).score = some v ∧ (∃ l ∈ s'.snaps, s'.heap b ∈ l) ∧
      ∀ l ∈ s'.snaps, ∀ x ∈ l, ∃ w, x.score = some w ∧ w ≤ v := by
  have hops := singleOps_run fit sel op mop tr
  have h0 := h.started.fresh
  obtain ⟨b, gen, v, h1, h2, h3, ⟨l, h4, h5⟩, h6⟩ := C42_best_of_history h0 h.after
  refine ⟨b, gen, v, h1, h2, ⟨l, List.mem_of_getElem? ((snap_generations hops h0 h.after h3 l).mp h4), h5⟩, ?_⟩
  intro l' hl' x hx
  obtain ⟨i, hi⟩ := List.getElem?_of_mem hl'
  have hik : i < k := by
    have := (List.getElem?_eq_some_iff.mp hi).1
    rw [(h.after.inv hops h0).hist.snaps] at this
    exact this
  obtain ⟨w, e1, e2, _⟩ := h6 i l' hik ((snap_generations hops h0 h.after hik l').mpr hi) x hx
  exact ⟨w, e1, e2⟩

theorem HandRun.best_earned (h : HandRun c spec sel op mop ov stop s fit tr s0 k s') (hn : ¬ Constrained c s.conds) :
    ∃ b gen g o, s'.ga.best = some (.single b gen) ∧ argument spec.hasPhenotype (s'.heap b) = some g ∧
      g ∈ evaluated s s' ∧ c.objective g = .ok (.sc o) ∧ (s'.heap b).objScore = some (.sc o) ∧
      ∀ g' ∈ evaluated s s', ∃ o', c.objective g' = .ok (.sc o') ∧ earned c.arith ov o' 0 ≤ earned c.arith ov o 0 := by
  obtain ⟨_, _, m1, m2⟩ := h.budget
  have htr := h.truthful hn
  obtain ⟨b, gen, v, h1, h2, ⟨l, h3, h4⟩, h5⟩ := h.best
  obtain ⟨g, o, a1, a2, a3, a4⟩ := htr l h3 _ h4
  obtain ⟨g1, a5, a6⟩ := m2 l h3 _ h4
  rw [a1] at a6
  injection a6 with a6
  subst a6
  refine ⟨b, gen, g, o, h1, a1, a5, a2, a3, ?_⟩
  intro g' hg'
  obtain ⟨l', hl', x, hxl, e1⟩ := m1 g' hg'
  obtain ⟨g2, o', b1, b2, _, b4⟩ := htr l' hl' x hxl
  rw [e1] at b1
  injection b1 with b1
  subst b1
  refine ⟨o', b2, ?_⟩
  obtain ⟨w, e2, e3⟩ := h5 l' hl' x hxl
  rw [b4] at e2
  rw [h2] at a4
  injection e2 with e2
  injection a4 with a4
  rw [← e2, a4] at e3
  exact e3

theorem HandRun.best_of_all (h : HandRun c spec sel op mop ov stop s fit tr s0 k s') (hx : c.arith = .exact)
    (hn : ¬ Constrained c s.conds) :
    ∃ b gen g o, s'.ga.best = some (.single b gen) ∧ argument spec.hasPhenotype (s'.heap b) = some g ∧
      g ∈ evaluated s s' ∧ c.objective g = .ok (.sc o) ∧ (s'.heap b).objScore = some (.sc o) ∧
      ∀ g' ∈ evaluated s s', ∃ o', c.objective g' = .ok (.sc o') ∧ cost ov o ≤ cost ov o' := by
  obtain ⟨b, gen, g, o, h1, h2, h3, h4, h5, h6⟩ := h.best_earned hn
  refine ⟨b, gen, g, o, h1, h2, h3, h4, h5, fun g' hg' => ?_⟩
  obtain ⟨o', e1, e2⟩ := h6 g' hg'
  rw [hx] at e2
  have := (earned_le le_rfl le_rfl).mp e2
  exact ⟨o', e1, by linarith⟩

/-- The scores of the points decide up to what rounding hides. -/
theorem not_visibly_better {ar : Arith} {o o' pen : ℚ} (R : Rounding ar.rnd) (hm : ov = none → Machine ar.rnd o ∧ Machine ar.rnd o')
    (hp : 0 ≤ pen) (h : earned ar ov o' 0 ≤ earned ar ov o pen) : NotVisiblyBetter ov o' o := by
  unfold NotVisiblyBetter
  cases ov with
  | none =>
    obtain ⟨mv, mv'⟩ := hm rfl
    simp only [earned, add_zero] at h
    rw [mv'] at h
    have := R.mono (show o ≤ o + pen by linarith)
    rw [mv] at this
    change o ≤ o'
    linarith
  | some t =>
    obtain ⟨y, y', z1, z2, _, _, _, _, z3⟩ := C95_float_score_partial R (t := t) (o := o') (o' := o) (pen := 0) (pen' := pen) le_rfl hp
    rw [← hyperbolaR_earned z1, ← hyperbolaR_earned z2] at h
    by_contra hc
    have := z3 (by have := not_lt.mp hc; rw [add_zero]; linarith)
    linarith

theorem HandRun.judged {p : Penalty} {cs : List Cond} (h : HandRun c spec sel op mop ov stop s fit tr s0 k s') (hp : c.penalty = some p)
    (hcs : s.conds = some cs) (hlen : 2 ≤ cs.length) (hone : cs.count .optimize = 1) :
    ∀ l ∈ generationsOf s', ∀ x ∈ l, Judged c cs p ov spec.hasPhenotype x := by
  obtain ⟨sb, hf⟩ := h.fitness
  exact (h.ledger (judged_verdict _ _ _ _ _) (judged_judges hf hp hcs hlen hone _)).snaps

theorem HandRun.best_of_feasible {p : Penalty} {cs : List Cond} (h : HandRun c spec sel op mop ov stop s fit tr s0 k s')
    (R : Rounding c.arith.rnd) (hp : c.penalty = some p) (hpos : PositivePenalty p) (hcs : s.conds = some cs) (hlen : 2 ≤ cs.length)
    (hone : cs.count .optimize = 1) (hk : KnownSigns (cs.filter fun k => k ≠ .optimize)) :
    ∃ b gen g vs v, s'.ga.best = some (.single b gen) ∧ argument spec.hasPhenotype (s'.heap b) = some g ∧
      g ∈ evaluated s s' ∧ c.objective g = .ok (.tup vs) ∧ vs[cs.idxOf .optimize]? = some v ∧ (s'.heap b).objScore = some (.sc v) ∧
      ((s'.heap b).feasible = true ↔ Satisfies cs vs) ∧
      ∀ g' ∈ evaluated s s', ∃ vs', c.objective g' = .ok (.tup vs') ∧
        (Satisfies cs vs' → ∃ v' pen, vs'[cs.idxOf .optimize]? = some v' ∧ 0 ≤ pen ∧ earned c.arith ov v' 0 ≤ earned c.arith ov v pen) := by
  obtain ⟨_, _, m1, m2⟩ := h.budget
  have htr := h.judged hp hcs hlen hone
  obtain ⟨b, gen, w, h1, h2, ⟨l, h3, h4⟩, h5⟩ := h.best
  obtain ⟨g, vs, v, pen, a1, a2, a3, a4, a5, a6, a7⟩ := htr l h3 _ h4
  obtain ⟨g1, c5, c6⟩ := m2 l h3 _ h4
  rw [a1] at c6
  injection c6 with c6
  subst c6
  refine ⟨b, gen, g, vs, v, h1, a1, c5, a2, a3, a4, a5, ?_⟩
  intro g' hg'
  obtain ⟨l', hl', x, hx, e1⟩ := m1 g' hg'
  obtain ⟨g2, vs', v', pen', b1, b2, b3, b4, b5, b6, b7⟩ := htr l' hl' x hx
  rw [e1] at b1
  injection b1 with b1
  subst b1
  refine ⟨vs', b2, fun hsat => ⟨v', pen, b3, (a7 R hpos hk).1, ?_⟩⟩
  obtain ⟨w', e2, e3⟩ := h5 l' hl' x hx
  rw [b6] at e2
  rw [h2] at a6
  injection e2 with e2
  injection a6 with a6
  rw [← e2, a6] at e3
  obtain ⟨_, q4⟩ := b7 R hpos hk
  rw [q4 (b5.mpr hsat)] at e3
  exact e3

end

/-! ## programs in collector mode -/

section
variable {c : Cfg} {spec : PopSpec} {sel : SelOp} {op : CrossOp} {mop : MutOp} {ov : Option ℚ} {s s' : St ℚ}

/-- A finished program in collector mode. -/
theorem collectorGA_run (h : collectorGA c spec sel op mop ov s = (.ok (), s')) : ∃ fit tr s0 k,
    HandRun c spec sel op mop ov (some c.stop) s fit tr s0 k s' ∧ evolve (singleOps fit sel op mop tr) s0 = (.ok (), s') := by
  unfold collectorGA collector at h
  obtain ⟨fit, s1, h1, h2⟩ := bind_ok.mp h
  obtain ⟨l, s2, h3, h4⟩ := bind_ok.mp h2
  obtain ⟨_, rfl⟩ := liftE_ok.mp h3
  rw [bind_of_ok (modifyS_run _ _)] at h4
  obtain ⟨tr, s3, h5, h6⟩ := bind_ok.mp h4
  obtain ⟨_, rfl⟩ := liftE_ok.mp h5
  obtain ⟨_, s0, h7, h8⟩ := bind_ok.mp h6
  unfold collectorOptimize at h8
  obtain ⟨_, s9, h9, h10⟩ := bind_ok.mp h8
  obtain rfl := printBest_state h10
  obtain ⟨_, k, _, _, _, hk, _⟩ := evolve_after h9
  refine ⟨fit, tr, s0, k, ⟨⟨_, h1⟩, collectorSetPopulation_ok h7, ?_, hk⟩, h9⟩
  rw [collectorSetPopulation_calls h7]
  change s2.calls = s.calls
  rw [(newFitness_local h1).1]

/-- C110: a program put together from components makes at least one and at most `num_generations` generations, exactly that many
without `early_stop`, and fewer only after `early_stop + 1` generations without improvement. -/
theorem C110_stops (h : collectorGA c spec sel op mop ov s = (.ok (), s')) :
    1 ≤ s'.ga.idxGeneration ∧ s'.ga.idxGeneration ≤ max 1 c.numGenerations ∧
    (c.earlyStop = none → s'.ga.idxGeneration = max 1 c.numGenerations) ∧
    (∀ e : Nat, c.earlyStop = some (e : Int) → s'.ga.idxGeneration < max 1 c.numGenerations → s'.ga.noImprove = e + 1) := by
  obtain ⟨fit, tr, s0, k, hr, hev⟩ := collectorGA_run h
  have hst := hr.started
  have hops := singleOps_run fit sel op mop tr
  obtain ⟨k', ak, k1, k2, k3, k4⟩ := C46_stopping_rule (singleOps_keep _ _ _ _ _) hst.gens hst.stop hev
  have hidx := (ak.inv hops hst.fresh).hist.idx
  refine ⟨by omega, by omega, ?_, ?_⟩
  · intro hn
    have hs : c.stop = (c.numGenerations : Int) := by unfold Cfg.stop; rw [hn]; rfl
    have := C46_never_early hst.fresh hst.gens hst.stop (by rw [hs]; omega) hev
    exact (this.inv hops hst.fresh).hist.idx
  · intro e he hlt
    have hs : c.stop = (e : Int) := by unfold Cfg.stop; rw [he]; rfl
    have hstop := hst.stop
    rw [hs] at hstop
    exact (C46_early_exact hst.fresh hst.gens hstop hev ak (by omega)).1

/-- C110: it has called the objective once for each of the `num_individ` initial individuals and once for each child of each later
generation, and not otherwise; every argument of a call belongs to an individual of some generation and every individual of every
generation was evaluated. -/
theorem C110_budget (h : collectorGA c spec sel op mop ov s = (.ok (), s')) :
    s'.calls = s.calls ++ evaluated s s' ∧
    (evaluated s s').length = c.numIndivid + (s'.ga.idxGeneration - 1) * c.children ∧
    (∀ g ∈ evaluated s s', ∃ l ∈ generationsOf s', ∃ x ∈ l, argument spec.hasPhenotype x = some g) ∧
    (∀ l ∈ generationsOf s', ∀ x ∈ l, ∃ g ∈ evaluated s s', argument spec.hasPhenotype x = some g) := by
  obtain ⟨fit, tr, s0, k, hr, _⟩ := collectorGA_run h
  rw [hr.idx]
  exact hr.budget

/-- C110: without constraints every individual of every generation carries the objective value of its own point and the score that
belongs to it. -/
theorem C110_truthful (hn : ¬ Constrained c s.conds) (h : collectorGA c spec sel op mop ov s = (.ok (), s')) :
    ∀ l ∈ generationsOf s', ∀ x ∈ l, Truthful c ov spec.hasPhenotype x := by
  obtain ⟨fit, tr, s0, k, hr, _⟩ := collectorGA_run h
  exact hr.truthful hn

/-- C110: without constraints `best_solution` is a point the objective was called with, `obj_score` is the value it has there, and no
point evaluated in the run is better. -/
theorem C110_best_of_all (hx : c.arith = .exact) (hn : ¬ Constrained c s.conds)
    (h : collectorGA c spec sel op mop ov s = (.ok (), s')) :
    ∃ b gen g o, s'.ga.best = some (.single b gen) ∧ argument spec.hasPhenotype (s'.heap b) = some g ∧
      g ∈ evaluated s s' ∧ c.objective g = .ok (.sc o) ∧ (s'.heap b).objScore = some (.sc o) ∧
      ∀ g' ∈ evaluated s s', ∃ o', c.objective g' = .ok (.sc o') ∧ cost ov o ≤ cost ov o' := by
  obtain ⟨fit, tr, s0, k, hr, _⟩ := collectorGA_run h
  exact hr.best_of_all hx hn

/-- C110: in any arithmetic no evaluated point is better by more than rounding hides. -/
theorem C110_float_best (R : Rounding c.arith.rnd) (hm : ov = none → ∀ x o, c.objective x = .ok (.sc o) → Machine c.arith.rnd o)
    (hn : ¬ Constrained c s.conds) (h : collectorGA c spec sel op mop ov s = (.ok (), s')) :
    ∃ b gen g o, s'.ga.best = some (.single b gen) ∧ argument spec.hasPhenotype (s'.heap b) = some g ∧
      g ∈ evaluated s s' ∧ c.objective g = .ok (.sc o) ∧ (s'.heap b).objScore = some (.sc o) ∧
      ∀ g' ∈ evaluated s s', ∃ o', c.objective g' = .ok (.sc o') ∧ NotVisiblyBetter ov o' o := by
  obtain ⟨fit, tr, s0, k, hr, _⟩ := collectorGA_run h
  obtain ⟨b, gen, g, o, h1, h2, h3, h4, h5, h6⟩ := hr.best_earned hn
  refine ⟨b, gen, g, o, h1, h2, h3, h4, h5, fun g' hg' => ?_⟩
  obtain ⟨o', e1, e2⟩ := h6 g' hg'
  exact ⟨o', e1, not_visibly_better R (fun h => ⟨hm h _ _ h4, hm h _ _ e1⟩) le_rfl e2⟩

/-- C110: with constraints the flag `feasible` of `best_solution` tells whether its point satisfies them, and no feasible point
evaluated in the run is better. -/
theorem C110_best_of_feasible {p : Penalty} {cs : List Cond} (hx : c.arith = .exact)
    (hp : c.penalty = some p) (hpos : PositivePenalty p) (hcs : s.conds = some cs) (hlen : 2 ≤ cs.length)
    (hone : cs.count .optimize = 1) (hk : KnownSigns (cs.filter fun k => k ≠ .optimize))
    (h : collectorGA c spec sel op mop ov s = (.ok (), s')) :
    ∃ b gen g vs v, s'.ga.best = some (.single b gen) ∧ argument spec.hasPhenotype (s'.heap b) = some g ∧
      g ∈ evaluated s s' ∧ c.objective g = .ok (.tup vs) ∧ vs[cs.idxOf .optimize]? = some v ∧ (s'.heap b).objScore = some (.sc v) ∧
      ((s'.heap b).feasible = true ↔ Satisfies cs vs) ∧
      ∀ g' ∈ evaluated s s', ∃ vs', c.objective g' = .ok (.tup vs') ∧
        (Satisfies cs vs' → ∃ v', vs'[cs.idxOf .optimize]? = some v' ∧ cost ov v ≤ cost ov v') := by
  obtain ⟨fit, tr, s0, k, hr, _⟩ := collectorGA_run h
  obtain ⟨b, gen, g, vs, v, h1, h2, h3, h4, h5, h6, h7, h8⟩ :=
    hr.best_of_feasible (by rw [hx]; exact id_rounding) hp hpos hcs hlen hone hk
  refine ⟨b, gen, g, vs, v, h1, h2, h3, h4, h5, h6, h7, fun g' hg' => ?_⟩
  obtain ⟨vs', e1, e2⟩ := h8 g' hg'
  refine ⟨vs', e1, fun hs => ?_⟩
  obtain ⟨v', pen, e3, e4, e5⟩ := e2 hs
  rw [hx] at e5
  have := (earned_le e4 le_rfl).mp e5
  exact ⟨v', e3, by linarith⟩

/-- C110: the same in any arithmetic, up to what rounding hides. -/
theorem C110_float_feasible {p : Penalty} {cs : List Cond} (R : Rounding c.arith.rnd)
    (hm : ov = none → ∀ x vs v, c.objective x = .ok (.tup vs) → v ∈ vs → Machine c.arith.rnd v)
    (hp : c.penalty = some p) (hpos : PositivePenalty p) (hcs : s.conds = some cs) (hlen : 2 ≤ cs.length)
    (hone : cs.count .optimize = 1) (hk : KnownSigns (cs.filter fun k => k ≠ .optimize))
    (h : collectorGA c spec sel op mop ov s = (.ok (), s')) :
    ∃ b gen g vs v, s'.ga.best = some (.single b gen) ∧ argument spec.hasPhenotype (s'.heap b) = some g ∧
      g ∈ evaluated s s' ∧ c.objective g = .ok (.tup vs) ∧ vs[cs.idxOf .optimize]? = some v ∧ (s'.heap b).objScore = some (.sc v) ∧
      ((s'.heap b).feasible = true ↔ Satisfies cs vs) ∧
      ∀ g' ∈ evaluated s s', ∃ vs', c.objective g' = .ok (.tup vs') ∧
        (Satisfies cs vs' → ∃ v', vs'[cs.idxOf .optimize]? = some v' ∧ NotVisiblyBetter ov v' v) := by
  obtain ⟨fit, tr, s0, k, hr, _⟩ := collectorGA_run h
  obtain ⟨b, gen, g, vs, v, h1, h2, h3, h4, h5, h6, h7, h8⟩ := hr.best_of_feasible R hp hpos hcs hlen hone hk
  refine ⟨b, gen, g, vs, v, h1, h2, h3, h4, h5, h6, h7, fun g' hg' => ?_⟩
  obtain ⟨vs', e1, e2⟩ := h8 g' hg'
  refine ⟨vs', e1, fun hs => ?_⟩
  obtain ⟨v', pen, e3, e4, e5⟩ := e2 hs
  exact ⟨v', e3, not_visibly_better R
    (fun h => ⟨hm h _ _ _ h4 (List.mem_of_getElem? h5), hm h _ _ _ e1 (List.mem_of_getElem? e3)⟩) e4 e5⟩

end

/-! ## runs that meet the hypotheses -/

/-- Routes, the roulette, order crossover and inversion, exact arithmetic. -/
def exByHand : Except PyErr Unit × St ℚ := collectorGA exCfg (.orderCat 1 6 5) .balanced .order .inversion (some 2) exHand

set_option maxRecDepth 100000 in
theorem exByHand_ok : exByHand.1 = .ok () ∧ exByHand.2.ga.idxGeneration = exCfg.numGenerations ∧ 2 ≤ exByHand.2.ga.idxGeneration ∧
    0 < exCfg.children := by
  decide +kernel

theorem exByHand_run : collectorGA exCfg (.orderCat 1 6 5) .balanced .order .inversion (some 2) exHand = (.ok (), exByHand.2) := by
  rw [← exByHand_ok.1]; rfl

example : (evaluated exHand exByHand.2).length = exCfg.numIndivid + (exCfg.numGenerations - 1) * exCfg.children := by
  rw [← exByHand_ok.2.1]
  exact (C110_budget exByHand_run).2.1

example : exByHand.2.ga.idxGeneration ≤ max 1 exCfg.numGenerations := (C110_stops exByHand_run).2.1

example : ∃ b gen g o, exByHand.2.ga.best = some (.single b gen) ∧ argument false (exByHand.2.heap b) = some g ∧
    g ∈ evaluated exHand exByHand.2 ∧ exCfg.objective g = .ok (.sc o) ∧ (exByHand.2.heap b).objScore = some (.sc o) ∧
    ∀ g' ∈ evaluated exHand exByHand.2, ∃ o', exCfg.objective g' = .ok (.sc o') ∧ cost (some 2) o ≤ cost (some 2) o' :=
  C110_best_of_all rfl (by unfold Constrained; decide) exByHand_run

example : ∀ l ∈ generationsOf exByHand.2, ∀ x ∈ l, Truthful exCfg (some 2) false x :=
  C110_truthful (by unfold Constrained; decide) exByHand_run

/-- Digits in binary64 with a constraint, ranks, one-point crossover. -/
def exByRank : Except PyErr Unit × St ℚ :=
  collectorGA exTenthCfg exFacade.spec .ranked .onePoint .categorical none { exHand with conds := some [.optimize, .le] }

set_option maxRecDepth 100000 in
theorem exByRank_ok : exByRank.1 = .ok () := by decide +kernel

example : ∃ b gen g vs v, exByRank.2.ga.best = some (.single b gen) ∧ argument false (exByRank.2.heap b) = some g ∧
    g ∈ evaluated { exHand with conds := some [.optimize, .le] } exByRank.2 ∧ exTenthCfg.objective g = .ok (.tup vs) ∧ vs[0]? = some v ∧
    (exByRank.2.heap b).objScore = some (.sc v) ∧ ((exByRank.2.heap b).feasible = true ↔ Satisfies [.optimize, .le] vs) ∧
    ∀ g' ∈ evaluated { exHand with conds := some [.optimize, .le] } exByRank.2, ∃ vs', exTenthCfg.objective g' = .ok (.tup vs') ∧
      (Satisfies [.optimize, .le] vs' → ∃ v', vs'[0]? = some v' ∧ NotVisiblyBetter none v' v) :=
  C110_float_feasible (c := exTenthCfg) (spec := exFacade.spec) (sel := .ranked) (op := .onePoint) (mop := .categorical) (ov := none)
    (s := { exHand with conds := some [.optimize, .le] }) (s' := exByRank.2) fl_rounding (by
    intro _ x vs v hx hv
    have hx : Except.ok (Ret.tup [fl (sumNums x / 10), fl (8 / 10 - sumNums x / 10)]) = (.ok (.tup vs) : Except PyErr Ret) := hx
    injection hx with hx
    injection hx with hx
    subst hx
    simp only [List.mem_cons, List.not_mem_nil, or_false] at hv
    rcases hv with rfl | rfl <;> exact fl_idem _) rfl
    (.inl ⟨1, 1, 1, 2, by norm_num, by norm_num, positive_nat le_rfl, positive_nat (by norm_num), rfl⟩) rfl (by simp) (by decide)
    (by unfold KnownSigns; decide) (by rw [← exByRank_ok]; rfl)

end BaumEva
