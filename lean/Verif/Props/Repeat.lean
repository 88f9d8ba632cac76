import Verif.Props.Seed
/-!
# C41: calling `optimize()` again
-/
namespace BaumEva
variable {σ : Type}

theorem setParams_conds {spec : PopSpec} {n : Nat} {input : Option (List (List Val))} {s : St σ} (h : ¬ n < (input.getD []).length) :
    ∃ s', setParams spec n input s = (.ok (), s') ∧ s'.conds = s.conds := by
  unfold setParams
  rw [ite_run, if_neg h]
  exact ⟨_, rfl, rfl⟩

/-- What `optimize()` does to the user's list of conditions: only the construction of the fitness object can
change it. -/
theorem facade_conds {c : Cfg} {spec : PopSpec} {task : Task σ} {fitExec : Fit σ → M σ Unit} {update selection : M σ Unit}
    {cross : CrossOp} {mutOp : MutOp} {newGen : Transfer → M σ Unit} {s s' : St σ} {u : Unit}
    (hk : ∀ fit tr, OpsKeep SameSetup ⟨fitExec fit, update, selection, crossExec cross, mutExec mutOp, newGen tr⟩)
    (h : facade c spec task fitExec update selection cross mutOp newGen s = (.ok u, s')) :
    ∃ fit sa sb, newFitness task sa = (.ok fit, sb) ∧ sa.conds = s.conds ∧ sb.conds = s'.conds := by
  obtain ⟨fit, tr, s0, sa, sb, a1, a2, a3, a4, a5, a6, a7, a8, a9⟩ := facade_ok h
  exact ⟨fit, sa, sb, a1, a2, a3.trans ((evolve_frame sameSetup_frame (hk fit tr)).ok a8).2.2.symm⟩

/-- A facade whose conditions (more than one) no longer contain `'optimize'` raises `ValueError`. -/
theorem facade_raises {c : Cfg} {spec : PopSpec} {task : Task σ} {fitExec : Fit σ → M σ Unit} {update selection : M σ Unit}
    {cross : CrossOp} {mutOp : MutOp} {newGen : Transfer → M σ Unit} {s : St σ} {p : Penalty} {l : List Cond}
    (hlen : ¬ c.numIndivid < (c.input.getD []).length) (hp : task.penalty = some p) (hm : task.multi = false)
    (hc : s.conds = some l) (hl : 2 ≤ l.length) (hno : .optimize ∉ l) :
    (facade c spec task fitExec update selection cross mutOp newGen s).1 = .error .valueError := by
  unfold facade newGaData newPopulation
  rw [bind_of_ok (modifyS_run _ _)]
  obtain ⟨s1, h1, t, e1⟩ := reseed_drew ({ s with
    ga := { numGenerations := c.numGenerations, childrenPercent := c.childrenPercent, earlyStop := some c.stop, attrs := { arith := c.arith } }
    snaps := [] } : St σ)
  rw [bind_of_ok h1]
  obtain ⟨s2, h2, e2⟩ := setParams_conds (spec := spec) (s := s1) hlen
  rw [bind_of_ok h2]
  have hc2 : s2.conds = some l := by rw [e2, e1]; exact hc
  have h3 : newFitness task s2 = (.error .valueError, s2) := by
    unfold newFitness
    rw [bind_of_ok (getS_run _), hp, hc2]
    simp only [Option.getD_some]
    rw [ite_run, if_neg (by omega), ite_run, if_neg (by simp [hm]), ite_run, if_neg hno]
    rfl
  rw [bind_of_err h3]

theorem facade_length {c : Cfg} {spec : PopSpec} {task : Task σ} {fitExec : Fit σ → M σ Unit} {update selection : M σ Unit}
    {cross : CrossOp} {mutOp : MutOp} {newGen : Transfer → M σ Unit} {s s' : St σ} {u : Unit}
    (h : facade c spec task fitExec update selection cross mutOp newGen s = (.ok u, s')) :
    ¬ c.numIndivid < (c.input.getD []).length := by
  obtain ⟨_, _, _, _, _, _, _, _, _, _, _, a7, _⟩ := facade_ok h
  obtain ⟨s1, hc⟩ := a7.created
  intro hlt
  unfold createPopulation setParams at hc
  rw [bind_run, ite_run, if_pos hlt] at hc
  cases (Prod.mk.inj hc).1

theorem erase_optimize {l : List Cond} (h : l.count .optimize = 1) : Cond.optimize ∉ l.erase .optimize := by
  intro hm
  have := List.count_pos_iff.mpr hm
  rw [List.count_erase_self] at this
  omega

/-- The fitness object of the single-objective facades. -/
theorem single_conds {f : SingleFacade} {c : Cfg} {ov : Option ℚ} {s s' : St ℚ} (h : f.optimize c ov s = (.ok (), s')) :
    ∃ fit sa sb, newFitness (hyperbolaTask c.obj1 c.obj2 c.inputTruthy c.penalty ov c.arith) sa = (.ok fit, sb) ∧ sa.conds = s.conds ∧
      sb.conds = s'.conds := by
  cases f <;> exact facade_conds (fun fit tr => singleOps_keep _ (.tournament c.tournamentSize) _ _ _) h

/-- C41 is false of the code: for a single-objective task with at least two constraints, after a successful
`optimize()` the next call on the same conditions list raises `ValueError`, whatever happened in between
(`'optimize'` was removed from the user's list). -/
theorem C41_repeat_refuted {f : SingleFacade} {c : Cfg} {ov : Option ℚ} {s s' s2 : St ℚ} {p : Penalty} {l : List Cond}
    (hp : c.penalty = some p) (hl : s.conds = some l) (hlen : 3 ≤ l.length) (hone : l.count .optimize = 1)
    (h : f.optimize c ov s = (.ok (), s')) (h2 : s2.conds = s'.conds) :
    (f.optimize c ov s2).1 = .error .valueError := by
  obtain ⟨fit, sa, sb, a1, a2, a3⟩ := single_conds h
  have hs2 : s2.conds = some (l.erase .optimize) := by
    rw [h2, ← a3]
    rcases (newFitness_ok a1).2 with ⟨_, _, _, e | e⟩ | ⟨_, _, cs, e1, _, ⟨e, _⟩ | ⟨_, _, _, _, e⟩⟩
    · simp [hyperbolaTask, hp] at e
    · rw [a2, hl] at e; simp at e; omega
    · simp [hyperbolaTask] at e
    · rw [a2, hl] at e1
      injection e1 with e1
      rw [e, e1]
  have hmem : Cond.optimize ∈ l := List.count_pos_iff.mp (by omega)
  have hle : 2 ≤ (l.erase .optimize).length := by rw [List.length_erase_of_mem hmem]; omega
  cases f with
  | binary g gs => exact facade_raises (facade_length h) hp rfl hs2 hle (erase_optimize hone)
  | combinatory a b k => exact facade_raises (facade_length h) hp rfl hs2 hle (erase_optimize hone)
  | categorical gs => exact facade_raises (facade_length h) hp rfl hs2 hle (erase_optimize hone)

/-- With exactly one constraint the second call treats the task as unconditional and so never succeeds, because
the objective returns two values. -/
theorem C41_one_constraint {f : SingleFacade} {c : Cfg} {ov : Option ℚ} {s s' s2 s3 : St ℚ} {p : Penalty} {l : List Cond}
    (hp : c.penalty = some p) (hl : s.conds = some l) (hlen : l.length = 2) (hone : l.count .optimize = 1) (hn : 0 < c.numIndivid)
    (hobj : ∀ g v, (if c.inputTruthy then c.obj2 else c.obj1) g = .ok v → ∃ vs, v = .tup vs ∧ vs.length = 2)
    (h : f.optimize c ov s = (.ok (), s')) (h2 : s2.conds = s'.conds) : f.optimize c ov s2 ≠ (.ok (), s3) := by
  intro hbad
  obtain ⟨fit, sa, sb, a1, a2, a3⟩ := single_conds h
  have hs2 : s2.conds = some (l.erase .optimize) := by
    rw [h2, ← a3]
    rcases (newFitness_ok a1).2 with ⟨_, _, _, e | e⟩ | ⟨_, _, cs, e1, _, ⟨e, _⟩ | ⟨_, _, _, _, e⟩⟩
    · simp [hyperbolaTask, hp] at e
    · rw [a2, hl] at e; simp at e; omega
    · simp [hyperbolaTask] at e
    · rw [a2, hl] at e1
      injection e1 with e1
      rw [e, e1]
  have hmem : Cond.optimize ∈ l := List.count_pos_iff.mp (by omega)
  have hle : (l.erase .optimize).length = 1 := by rw [List.length_erase_of_mem hmem]; omega
  -- the second run evaluates its first individual
  have key : ∀ (fit : Fit ℚ) (s0 s1 : St ℚ) (sa sb : St ℚ), newFitness (hyperbolaTask c.obj1 c.obj2 c.inputTruthy c.penalty ov c.arith) sa = (.ok fit, sb) →
      sa.conds = s2.conds → Started f.spec c.numIndivid c.numGenerations c.input c.childrenPercent (some c.stop) c.arith s0 →
      baseFitnessExec fit s0 = (.ok (), s1) → False := by
    intro fit s0 s1 sa sb n1 n2 hst hf
    obtain ⟨ht, hcase⟩ := newFitness_ok n1
    have hnc : fit.isCond = false := by
      rcases hcase with ⟨e, _⟩ | ⟨_, _, cs, e1, e2, _⟩
      · exact e
      · rw [n2, hs2] at e1
        injection e1 with e1
        rw [← e1, hle] at e2; omega
    have hnm : unscored s0.heap s0.ga.population = s0.ga.population := by
      unfold unscored
      rw [List.filter_eq_self]
      intro r hr
      simp [hst.fresh.unscored r hr]
    have hlenp : s0.ga.population.length = c.numIndivid := by
      obtain ⟨sc, hc⟩ := hst.created
      rw [(createPopulation_ok hc).2.2.1, List.length_range']
    obtain ⟨_, _, _, _, b5⟩ := baseFitness_ok hf (by
      rw [hnm]; exact hst.fresh.distinct)
    obtain ⟨r, hr⟩ : ∃ r, r ∈ s0.ga.population := by
      cases hpp : s0.ga.population with
      | nil => rw [hpp] at hlenp; simp at hlenp; omega
      | cons r _ => exact ⟨r, by simp⟩
    obtain ⟨m, best, _, _, hev⟩ := b5 r (by
      rw [hnm]; exact hr)
    have hshape : ∀ g a b, EvalTo fit s0.ga.idxGeneration best g a b → False := by
      rintro g a b ⟨ret, v, os, feas, pen, sc, d1, d2, _⟩
      rw [ht] at d1 d2
      obtain ⟨vs, rfl, hvs⟩ := hobj _ _ d1
      rw [hnc] at d2
      simp [checkInput, hyperbolaTask, hvs] at d2
    obtain ⟨g, _, e2⟩ := hev
    split at e2
    · exact hshape _ _ _ e2
    · exact hshape _ _ _ e2
  cases f <;> (
    obtain ⟨fit, tr, s0, sa, sb, b1, b2, b3, b4, b5, b6, b7, b8, b9⟩ := facade_ok hbad
    unfold evolve at b8
    obtain ⟨_, s1, b10, _⟩ := bind_ok.mp b8
    exact key fit s0 s1 sa sb b1 b2 b7 b10)

/-- The fitness object depends on the task and the conditions list alone. -/
theorem newFitness_conds (t : Task σ) {s s' : St σ} (h : s'.conds = s.conds) : (newFitness t s').1 = (newFitness t s).1 := by
  unfold newFitness
  rw [bind_of_ok (getS_run _), bind_of_ok (getS_run _), h]
  cases t.penalty with
  | none => rfl
  | some p =>
    simp only
    simp only [ite_run]
    split
    · rfl
    split
    · rfl
    split <;> rfl

/-- C41, the part that holds (single objective): an unconditional task leaves the conditions as they were, so the
next call builds the same fitness object.  The full statement is refuted above. -/
theorem C41_unconditional_partial {f : SingleFacade} {c : Cfg} {ov : Option ℚ} {s s' : St ℚ}
    (hc : c.penalty = none ∨ (s.conds.getD [.optimize]).length ≤ 1) (h : f.optimize c ov s = (.ok (), s')) :
    s'.conds = s.conds ∧ ∀ t : Task ℚ, (newFitness t s').1 = (newFitness t s).1 := by
  have hk : s'.conds = s.conds := by
    obtain ⟨fit, sa, sb, a1, a2, a3⟩ := single_conds h
    rw [← a3, ← a2]
    rcases (newFitness_ok a1).2 with ⟨_, _, e, _⟩ | ⟨_, ⟨p, e2⟩, cs, e1, e3, _⟩
    · rw [e]
    · rcases hc with hc | hc
      · simp [hyperbolaTask, hc] at e2
      · rw [← a2, e1] at hc
        simp at hc; omega
  exact ⟨hk, fun t => newFitness_conds t hk⟩

/-- C41, the part that holds (several objectives): `FFGA` never changes the conditions. -/
theorem C41_ffga_partial {c : Cfg} {gray : Bool} {gens : List BinGene} {s s' : St ℚ} (h : ffga c gray gens s = (.ok (), s')) :
    s'.conds = s.conds ∧ ∀ t : Task ℚ, (newFitness t s').1 = (newFitness t s).1 := by
  have hk : s'.conds = s.conds := by
    obtain ⟨fit, sa, sb, a1, a2, a3⟩ := facade_conds (fun fit tr => ffgaOps_frame sameSetup_frame fit .balanced .onePoint .binString tr) h
    rw [← a3, ← a2]
    rcases (newFitness_ok a1).2 with ⟨_, _, e, _⟩ | ⟨_, _, cs, _, _, ⟨_, _, _, e⟩ | ⟨e, _⟩⟩
    · rw [e]
    · rw [e]
    · simp [ffgaTask] at e
  exact ⟨hk, fun t => newFitness_conds t hk⟩

/-- C41, the part that holds (several objectives): nor does `VEGA`. -/
theorem C41_vega_partial {c : Cfg} {gray : Bool} {gens : List BinGene} {ov : Option (List ℚ)} {s s' : St (List ℚ)}
    (h : vega c gray gens ov s = (.ok (), s')) :
    s'.conds = s.conds ∧ ∀ t : Task (List ℚ), (newFitness t s').1 = (newFitness t s).1 := by
  have hk : s'.conds = s.conds := by
    unfold vega at h
    obtain ⟨m, s1, h1, h2⟩ := bind_ok.mp h
    have e1 : s1.conds = s.conds := by
      unfold vegaNumObjectives at h1
      rw [bind_of_ok (getS_run _)] at h1
      cases hc : s.conds with
      | none =>
        simp only [hc] at h1
        obtain ⟨v, s2, g1, g2⟩ := bind_ok.mp h1
        obtain ⟨_, rfl⟩ := callObj_ok.mp g1
        cases v with
        | sc q => simp only [throwE_ok] at g2
        | tup l =>
          obtain ⟨_, rfl⟩ := pure_ok.mp g2
          exact hc
      | some l =>
        simp only [hc] at h1
        obtain ⟨_, rfl⟩ := pure_ok.mp h1
        exact hc
    obtain ⟨fit, sa, sb, a1, a2, a3⟩ := facade_conds (fun fit tr => vegaOps_frame sameSetup_frame fit m (.tournament 3) .onePoint .binString tr) h2
    rw [← a3, ← e1, ← a2]
    rcases (newFitness_ok a1).2 with ⟨_, _, e, _⟩ | ⟨_, _, cs, _, _, ⟨_, _, _, e⟩ | ⟨e, _⟩⟩
    · rw [e]
    · rw [e]
    · simp [vegaTask] at e
  exact ⟨hk, fun t => newFitness_conds t hk⟩

/-! ## Concrete case -/

def exCondObj (l : List Val) : Except PyErr Ret :=
  .ok (.tup [l.foldl (fun a v => match v with | .num q => a + q | .str _ => a) 0, -1, 0])

def exCondCfg : Cfg := { exCfg with obj1 := exCondObj, penalty := some (newDynamic 1 1 1 1) }

def exCondRun : Except PyErr Unit × St ℚ :=
  exFacade.optimize exCondCfg none { tape := exTape, conds := some [.optimize, .le, .ne] }

set_option maxRecDepth 100000 in
theorem exCondRun_ok : exCondRun.1 = .ok () := by decide +kernel

/-- The hypotheses of the refutation are met by a run that succeeds the first time. -/
example (s2 : St ℚ) (h : s2.conds = exCondRun.2.conds) : (exFacade.optimize exCondCfg none s2).1 = .error .valueError :=
  C41_repeat_refuted (f := exFacade) (c := exCondCfg) (ov := none) (s := { tape := exTape, conds := some [.optimize, .le, .ne] })
    (s' := exCondRun.2) rfl rfl (by decide) (by decide) (by rw [← exCondRun_ok]; rfl) h

end BaumEva
