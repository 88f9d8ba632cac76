import Verif.Proofs.Liveness
import Verif.Props.Independent
/-!
# C70: can a run always be completed?
-/
namespace BaumEva
open BaumEva.Spec
variable {σ : Type}

/-- What a facade does before its first generation. -/
def startUp (c : Cfg) (spec : PopSpec) (task : Task σ) (mutOp : MutOp) : M σ (Fit σ × Transfer) := do
  newGaData c.numGenerations c.childrenPercent (some c.stop) c.arith
  newPopulation
  setParams spec c.numIndivid c.input
  let fit ← newFitness task
  newMutation mutOp c.mutationLvl
  let tr ← liftE (checkTransfer c.transfer)
  fill c.input
  pure (fit, tr)

theorem startUp_tame (c : Cfg) (spec : PopSpec) (task : Task σ) (mutOp : MutOp) : Tame (startUp c spec task mutOp) := by
  unfold startUp newGaData
  refine Tame.bind (Tame.modifyS (fun _ _ => rfl) (fun _ => rfl)) fun _ => ?_
  exact Tame.newPopulation.bind fun _ => (Tame.setParams _ _ _).bind fun _ =>
    (Tame.newFitness _).bind fun _ => (Tame.newMutation _ _).bind fun _ => (Tame.liftE _).bind fun _ =>
    (Tame.fill _).bind fun _ => Tame.pure _

/-- `optimize` of a facade with plain notation. -/
theorem facade_eq (c : Cfg) (spec : PopSpec) (task : Task σ) (fitExec : Fit σ → M σ Unit) (update selection : M σ Unit)
    (cross : CrossOp) (mutOp : MutOp) (newGen : Transfer → M σ Unit) :
    facade c spec task fitExec update selection cross mutOp newGen = startUp c spec task mutOp >>= fun p =>
      evolve { fitness := fitExec p.1, update := update, selection := selection, crossover := crossExec cross,
               mutation := mutExec mutOp, newGen := newGen p.2 } >>= fun _ => if c.isPrint then printBest else pure () := by
  unfold facade startUp
  simp only [bind_assoc_at]
  rfl

/-- The state before the first generation. -/
theorem startUp_ok {c : Cfg} {spec : PopSpec} {task : Task σ} {mutOp : MutOp} {s s0 : St σ} {p : Fit σ × Transfer}
    (h : startUp c spec task mutOp s = (.ok p, s0)) :
    ∃ sa sb, newFitness task sa = (.ok p.1, sb) ∧ sa.conds = s.conds ∧ sb.conds = s0.conds ∧
      checkTransfer c.transfer = .ok p.2 ∧ s0.seed = s.seed ∧ (∃ l, checkMutation mutOp c.mutationLvl = .ok l ∧ s0.mutLvl = l.stored c.arith) ∧
      Started spec c.numIndivid c.numGenerations c.input c.childrenPercent (some c.stop) c.arith s0 := by
  unfold startUp at h
  unfold newGaData at h
  rw [bind_of_ok (modifyS_run _ _)] at h
  obtain ⟨_, s2, h2, h3⟩ := bind_ok.mp h
  obtain ⟨t, e2⟩ : ∃ t, s2 = { s with
      ga := { numGenerations := c.numGenerations, childrenPercent := c.childrenPercent, earlyStop := some c.stop, attrs := { arith := c.arith } }
      snaps := []
      tape := t } := by
    unfold newPopulation at h2
    obtain ⟨t, ht⟩ := reseed_ok h2
    exact ⟨t, ht⟩
  obtain ⟨_, s3, h4, h5⟩ := bind_ok.mp h3
  unfold setParams at h4
  rw [ite_run] at h4
  split at h4
  · rw [throwE_ok] at h4; exact h4.elim
  rename_i hlen
  rw [modGa_ok] at h4
  obtain ⟨fit, s4, h6, h7⟩ := bind_ok.mp h5
  have e4 : s4 = { s3 with conds := s4.conds } := by
    rcases (newFitness_ok h6).2 with ⟨_, _, e, _⟩ | ⟨_, _, cs, _, _, ⟨_, _, _, e⟩ | ⟨_, _, _, _, e⟩⟩
    · rw [e]
    · rw [e]
    · rw [e]
  obtain ⟨_, s5, h8, h9⟩ := bind_ok.mp h7
  unfold newMutation at h8
  obtain ⟨l, s5', g1, g2⟩ := bind_ok.mp h8
  obtain ⟨g3, rfl⟩ := liftE_ok.mp g1
  rw [bind_of_ok (getGa_run _), modifyS_ok] at g2
  obtain ⟨tr, s6, h10, h11⟩ := bind_ok.mp h9
  obtain ⟨htr, rfl⟩ := liftE_ok.mp h10
  obtain ⟨_, s0, h12, h13⟩ := bind_ok.mp h11
  obtain ⟨rfl, rfl⟩ := pure_ok.mp h13
  have hst : Started spec c.numIndivid c.numGenerations c.input c.childrenPercent (some c.stop) c.arith s0 := by
    refine started_of_fill hlen ?_ ?_ h12
    · rw [g2, e4, h4, e2]
    · rw [g2, e4, h4, e2]
  have hs6 : s6.ga.population = [] ∧ s6.ga.attrs.numIndivid = c.numIndivid := by
    rw [g2, e4, h4, e2]; exact ⟨rfl, rfl⟩
  obtain ⟨_, _, _, _, _, _, _, _, _, b1, b2, b3, b4, b5, _⟩ := fill_ok hs6.1 (by rw [hs6.2]; omega) h12
  refine ⟨s3, s5', h6, by rw [h4, e2], ?_, htr, ?_, ?_, hst⟩
  · rw [b3, g2]
  · rw [b1, g2, e4, h4, e2]
  · refine ⟨l, g3, ?_⟩
    rw [b2, g2]
    simp only
    rw [e4, h4, e2]

/-- The components of a run of a single-objective facade. -/
def SingleFacade.ops (f : SingleFacade) (c : Cfg) (p : Fit ℚ × Transfer) : Ops ℚ :=
  singleOps p.1 (.tournament c.tournamentSize) f.cross f.mutOp p.2

theorem SingleFacade.optimize_eq (f : SingleFacade) (c : Cfg) (ov : Option ℚ) :
    f.optimize c ov = startUp c f.spec (hyperbolaTask c.obj1 c.obj2 c.inputTruthy c.penalty ov c.arith) f.mutOp >>= fun p =>
      evolve (f.ops c p) >>= fun _ => if c.isPrint then printBest else pure () := by
  cases f <;> exact facade_eq _ _ _ _ _ _ _ _ _

/-- C70, as far as it is true: if a generation has at least `tournament_size` children, an admissible run can always be
completed.  Whatever has been drawn so far (`s.tape`), some further draws let `optimize()` return. -/
theorem C70_completable_partial {f : SingleFacade} {c : Cfg} {ov : Option ℚ} {s : St ℚ} (ha : Admissible f c s.conds)
    (hseed : s.seed = none) (hc : c.tournamentSize ≤ (c.children : Int)) :
    ∃ (u : List Nat) (s' : St ℚ), f.optimize c ov { s with tape := s.tape ++ u } = (.ok (), s') := by
  have hsafe : ∀ u, Safe (f.optimize c ov) (s.more u) := fun u e s' h => C65_no_exception (s := s.more u) ha h
  rw [f.optimize_eq] at hsafe ⊢
  suffices h : Poss _ s by
    obtain ⟨u, a, s', h⟩ := h
    exact ⟨u, s', h⟩
  have htame := startUp_tame c f.spec (hyperbolaTask c.obj1 c.obj2 c.inputTruthy c.penalty ov c.arith) f.mutOp
  refine Poss.bind hseed htame.ext ?_ ?_
  · refine Poss.of_tame hseed htame fun u e s' hx => hsafe u e s' (bind_of_err hx)
  intro u p s0 e1
  obtain ⟨sa, sb, a1, a2, _, a4, a5, a6, a7⟩ := startUp_ok e1
  have hset := run_safe (s0 := s0) (ov := ov) (sa := sa) (by rw [a2]; exact ha) a1 a4 a6 a7
  have n0 : s0.seed = none := a5.trans hseed
  have hnum : s0.ga.attrs.numIndivid = c.numIndivid := by
    obtain ⟨s1, hcr⟩ := a7.created
    obtain ⟨_, hd, _⟩ := createPopulation_ok hcr
    exact hd.num
  have hsz : c.tournamentSize ≤ numPairs s0.ga 1 := by
    have h2 := ha.size
    rw [numPairs_share, a7.percent, hnum, a7.arith]
    exact hc
  refine Poss.bind n0 (evolve_ext _ _ _ _ _) (evolve_poss hset n0 hsz ha.size (by rw [hnum]; exact ha.size_lt)) ?_
  intro w _ s1 e2
  have hk : ∃ k, After (f.ops c p) (s0.more w) k s1 := by
    obtain ⟨_, k, _, _, _, hk, _⟩ := evolve_after e2
    exact ⟨k, hk⟩
  obtain ⟨k, hk⟩ := hk
  obtain ⟨b, g, v, r, t1, _⟩ := (hk.inv (singleOps_run p.1 (.tournament c.tournamentSize) f.cross f.mutOp p.2) (hset.more w).fresh).top
  split
  · refine Poss.of_ok (a := ()) (s' := s1) ?_
    unfold printBest
    rw [bind_of_ok (getS_run s1), t1]
    rfl
  · exact Poss.of_ok rfl

/-- The hypotheses of `C70_completable_partial` can be met. -/
example (t : List Nat) : ∃ (u : List Nat) (s' : St ℚ),
    (SingleFacade.binary true [⟨0, 3, 1⟩, ⟨-1, 1, 1 / 2⟩]).optimize exSumCfg none { tape := t ++ u } = (.ok (), s') :=
  C70_completable_partial (s := { tape := t }) exSum_admissible rfl (by decide +kernel)

/-! ## a run that cannot be completed -/

/-- If all places a tournament can be won from hold one and the same individual, the selection cannot succeed. -/
theorem tournamentExec_stuck [LinearOrder σ] {size : Int} {s : St σ} {v : Nat → σ} {w : Nat}
    (hal : ∀ r ∈ s.ga.population, r < s.next) (hsc : ∀ r ∈ s.ga.population, (s.heap r).score = some (v r))
    (hall : ∀ a ∈ s.ga.population, (size ≤ s.ga.population.countP fun p => v p ≤ v a) → a = w)
    (hp : 1 ≤ numPairs s.ga 1) (s' : St σ) : tournamentExec size s ≠ (.ok (), s') := by
  intro h
  unfold tournamentExec at h
  obtain ⟨_, s1, h1, h2⟩ := bind_ok.mp h
  have e1 : s1 = s := by
    unfold checkTournament at h1
    rw [bind_of_ok (getGa_run s), ite_run] at h1
    split at h1
    · rw [throwE_ok] at h1; exact h1.elim
    · exact (pure_ok.mp h1).2
  subst e1
  obtain ⟨_, s2, h3, h4⟩ := bind_ok.mp h2
  obtain ⟨hr, _⟩ := baseSelection_relabelled h3
  have hpop : s2.ga.population = s1.ga.population := by rw [hr.ga]
  unfold tournament at h4
  rw [bind_of_ok (getGa_run s2)] at h4
  obtain ⟨n, hn⟩ : ∃ n, numPairs s2.ga 1 = n + 1 := by
    have : numPairs s2.ga 1 = numPairs s1.ga 1 := by rw [hr.ga]; rfl
    exact ⟨numPairs s1.ga 1 - 1, by omega⟩
  rw [hn, List.range_succ_eq_map, BaumEva.forEach] at h4
  obtain ⟨_, s3, h5, _⟩ := bind_ok.mp h4
  refine tournamentPair_stuck (v := v) ?_ ?_ ?_ s3 _ h5
  · rw [hpop, hr.next]; exact hal
  · rw [hpop]
    intro r h
    unfold scoreKey
    rw [(hr.core r).score, hsc r h]
  · rw [hpop]
    intro a ha ca b hb cb
    rw [hall a ha ca, hall b hb cb]

/-- Four individuals, one child per generation and tournaments of three. -/
def exHangCfg : Cfg :=
  { numGenerations := 4, numIndivid := 4, obj1 := fun x => .ok (.sc (sumNums x)), childrenPercent := 1 / 4, tournamentSize := 3,
    mutationLvl := .float 1, input := some [[.num 1], [.num 1], [.num 1], [.num 5]] }

@[inherit_doc exHangCfg]
def exHangFacade : SingleFacade := .categorical [.range 0 9 1]

/-- The draws of the first two generations after the initial one. -/
def exHangTape : List Nat := [0, 0, 0, 3, 1, 0, 0, 0, 0, 8, 3, 0, 0, 0, 3, 0, 0, 0, 0, 0, 8, 2]

/-- The start of the run and its state after the initial generation and `n` further ones. -/
def exHang (n : Nat) : Except PyErr (Fit ℚ × Transfer) × St ℚ :=
  (startUp exHangCfg exHangFacade.spec (hyperbolaTask exHangCfg.obj1 exHangCfg.obj2 exHangCfg.inputTruthy exHangCfg.penalty none)
    exHangFacade.mutOp >>= fun p => match n with
      | 0 => pure p
      | n + 1 => do
        (exHangFacade.ops exHangCfg p).fitness
        (exHangFacade.ops exHangCfg p).update
        forEach (List.range n) fun _ => generation (exHangFacade.ops exHangCfg p)
        pure p) { tape := exHangTape }

theorem exHang_ok : ∃ p s0 s1 s2 s3, startUp exHangCfg exHangFacade.spec (hyperbolaTask exHangCfg.obj1 exHangCfg.obj2
      exHangCfg.inputTruthy exHangCfg.penalty none) exHangFacade.mutOp { tape := exHangTape } = (.ok p, s0) ∧
    After (exHangFacade.ops exHangCfg p) s0 1 s1 ∧ After (exHangFacade.ops exHangCfg p) s0 2 s2 ∧
    After (exHangFacade.ops exHangCfg p) s0 3 s3 ∧ (exHang 1).2 = s1 ∧ (exHang 2).2 = s2 ∧ (exHang 3).2 = s3 := by
  have hs : succeeded (exHang 3) = true := by
    set_option maxRecDepth 100000 in decide +kernel
  rcases hx : exHang 3 with ⟨o, s3⟩
  rw [hx] at hs
  cases o with
  | error e => cases hs
  | ok q =>
    have hx' := hx
    unfold exHang at hx
    obtain ⟨p, s0, h0, h⟩ := bind_ok.mp hx
    simp only at h
    obtain ⟨_, sa, h1, h⟩ := bind_ok.mp h
    obtain ⟨_, s1, h2, h⟩ := bind_ok.mp h
    obtain ⟨_, sb, h3, h⟩ := bind_ok.mp h
    obtain ⟨_, rfl⟩ := pure_ok.mp h
    rw [show List.range 2 = [0, 1] from rfl, BaumEva.forEach] at h3
    obtain ⟨_, s2, h4, h5⟩ := bind_ok.mp h3
    rw [BaumEva.forEach] at h5
    obtain ⟨_, s3', h6, h7⟩ := bind_ok.mp h5
    rw [BaumEva.forEach] at h7
    obtain ⟨_, rfl⟩ := pure_ok.mp h7
    refine ⟨p, s0, s1, s2, _, h0, .first h1 h2, .next (.first h1 h2) h4, .next (.next (.first h1 h2) h4) h6, ?_, ?_, rfl⟩
    · unfold exHang
      rw [bind_of_ok h0]
      simp only
      rw [bind_of_ok h1, bind_of_ok h2]
      rfl
    · unfold exHang
      rw [bind_of_ok h0]
      simp only
      rw [bind_of_ok h1, bind_of_ok h2, show List.range 1 = [0] from rfl, BaumEva.forEach, bind_assoc_at, bind_of_ok h4]
      rfl

set_option maxRecDepth 100000 in
/-- What happened so far: nothing stops the loop, and three of five places hold object 2, which wins every tournament
of three. -/
theorem exHang_facts : (exHang 1).2.ga.numGenerations = 4 ∧
    ¬ (exHang 2).2.ga.earlyStop.getD 0 < (exHang 2).2.ga.noImprove ∧
    ¬ (exHang 3).2.ga.earlyStop.getD 0 < (exHang 3).2.ga.noImprove ∧
    (∀ r ∈ (exHang 3).2.ga.population, r < (exHang 3).2.next ∧
      ((exHang 3).2.heap r).score = some ((((exHang 3).2.heap r).score).getD 0)) ∧
    (∀ a ∈ (exHang 3).2.ga.population, (3 ≤ ((exHang 3).2.ga.population.countP fun p =>
      (((exHang 3).2.heap p).score).getD 0 ≤ (((exHang 3).2.heap a).score).getD 0)) → a = 2) ∧
    numPairs (exHang 3).2.ga 1 = 1 := by decide +kernel

theorem exHang_admissible : Admissible exHangFacade exHangCfg none where
  genes := by
    intro g hg
    simp only [List.mem_cons, List.not_mem_nil, or_false] at hg
    subst hg
    exact ⟨⟨.num 0, 0, by norm_num, .inl (by norm_num)⟩, fun l h => by cases h⟩
  input := by
    simp only [exHangCfg, Option.getD_some, List.mem_cons, List.not_mem_nil, or_false]
    have one : IsTuple [.range 0 9 1] [.num 1] := .cons ⟨1, by norm_num, .inl (by norm_num)⟩ .nil
    have five : IsTuple [.range 0 9 1] [.num 5] := .cons ⟨5, by norm_num, .inl (by norm_num)⟩ .nil
    rintro x (rfl | rfl | rfl | rfl)
    exacts [one, one, one, five]
  room := by simp [exHangCfg]
  size := by simp [exHangCfg]
  size_lt := by simp [exHangCfg]
  level := .inl ⟨1, rfl, by norm_num, by norm_num⟩
  transfer := .inl rfl
  objective := .inl ⟨.inl rfl, fun x _ => ⟨_, rfl⟩⟩
  arith := .inl rfl

/-- C70 fails without the hypothesis on the number of children: an admissible call, and draws after which no further
draws whatsoever let `optimize()` return.  The `while` loop of the tournament looks for a second parent forever. -/
theorem C70_hang_refuted : ∃ (f : SingleFacade) (c : Cfg) (s : St ℚ), Admissible f c s.conds ∧ s.seed = none ∧
    ∀ u : List Nat, (f.optimize c none { s with tape := s.tape ++ u }).1 = .error .exhausted := by
  refine ⟨exHangFacade, exHangCfg, { tape := exHangTape }, exHang_admissible, rfl, fun u => ?_⟩
  rcases hx : exHangFacade.optimize exHangCfg none (({ tape := exHangTape } : St ℚ).more u) with ⟨o, s'⟩
  cases o with
  | error e =>
    have := (C65_no_exception (s := ({ tape := exHangTape } : St ℚ).more u) exHang_admissible hx).1
    show (exHangFacade.optimize exHangCfg none (({ tape := exHangTape } : St ℚ).more u)).1 = _
    rw [hx, this]
  | ok _ =>
    exfalso
    obtain ⟨p, s0, s1, s2, s3, h0, a1, a2, a3, e1, e2, e3⟩ := exHang_ok
    rw [SingleFacade.optimize_eq] at hx
    obtain ⟨h0', n0⟩ := (startUp_tame _ _ _ _).ext _ _ _ u rfl h0
    rw [show exHangCfg.arith = .exact from rfl, bind_of_ok h0'] at hx
    obtain ⟨_, se, hx, _⟩ := bind_ok.mp hx
    obtain ⟨t1, k, b1, b2, b3, b4, b5, _⟩ := evolve_after hx
    have m1 := (a1.more n0 u).1
    have m2 := (a2.more n0 u).1
    have m3 := (a3.more n0 u).1
    cases m1.unique b1
    obtain ⟨g1, g2, g3, hs, hw, hn⟩ := exHang_facts
    rw [e1] at g1
    rw [e2] at g2
    rw [e3] at g3 hs hw hn
    clear e1 e2 e3 h0'
    rw [show (s1.more u).ga.numGenerations = 4 from g1] at b3 b5
    have hk : k = 4 := by
      by_contra hne
      obtain ⟨c1, e, c2, c3⟩ := b5 (by omega)
      rcases (by omega : k = 2 ∨ k = 3) with rfl | rfl
      · cases m2.unique b4
        rw [show s2.ga.earlyStop = some e from c2] at g2
        exact g2 c3
      · cases m3.unique b4
        rw [show s3.ga.earlyStop = some e from c2] at g3
        exact g3 c3
    subst hk
    cases b4 with
    | next d1 d2 =>
      cases m3.unique d1
      obtain ⟨_, sf, d3, _⟩ := bind_ok.mp d2
      exact tournamentExec_stuck (s := s3.more u) (v := fun r => ((s3.heap r).score).getD 0) (w := 2)
        (fun r h => (hs r h).1) (fun r h => (hs r h).2) (fun a h c => hw a h (Int.ofNat_le.mp c)) (le_of_eq hn.symm) sf d3
end BaumEva
