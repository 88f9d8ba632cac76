import Verif.Props.Run
import Verif.Props.Independent
/-!
# C103: a ready-made class does what the same components do in collector mode
-/
namespace BaumEva

section
variable {σ : Type}

/-- The state in which the first generation is created (`conds`, `lvl`: what the constructors of fitness and mutation leave). -/
def setUp (c : Cfg) (spec : PopSpec) (conds : Option (List Cond)) (lvl : MutLvl) (s : St σ) : St σ :=
  { s with
    ga := { attrs := { arith := c.arith, numIndivid := c.numIndivid, spec := spec, isPhenotype := spec.hasPhenotype },
            numGenerations := c.numGenerations, childrenPercent := c.childrenPercent, earlyStop := some c.stop }
    snaps := [], conds := conds, mutLvl := lvl, tape := s.seed.getD s.tape }

theorem newFitness_local {task : Task σ} {s s1 : St σ} {fit : Fit σ} (h : newFitness task s = (.ok fit, s1)) :
    s1 = { s with conds := s1.conds } ∧ ∀ sa : St σ, sa.conds = s.conds → newFitness task sa = (.ok fit, { sa with conds := s1.conds }) := by
  refine ⟨by
    rcases (newFitness_ok h).2 with ⟨_, _, e, _⟩ | ⟨_, _, cs, _, _, ⟨_, _, _, e⟩ | ⟨_, _, _, _, e⟩⟩
    all_goals rw [e], fun sa hc => ?_⟩
  unfold newFitness at h ⊢
  rw [bind_of_ok (getS_run _)] at h ⊢
  rw [hc]
  cases hp : task.penalty with
  | none =>
    simp only [hp] at h ⊢
    obtain ⟨rfl, rfl⟩ := pure_ok.mp h
    rw [← hc]; rfl
  | some p =>
    simp only [hp, ite_run] at h ⊢
    split at h
    · obtain ⟨rfl, rfl⟩ := pure_ok.mp h
      rename_i h1
      rw [if_pos h1, ← hc]; rfl
    · rename_i h1
      rw [if_neg h1]
      split at h
      · obtain ⟨rfl, rfl⟩ := pure_ok.mp h
        rename_i h2
        rw [if_pos h2, ← hc]; rfl
      · rename_i h2
        rw [if_neg h2]
        split at h
        · rename_i h3
          rw [if_pos h3]
          rw [bind_of_ok (modifyS_run _ _)] at h ⊢
          obtain ⟨rfl, rfl⟩ := pure_ok.mp h
          rw [pure_run, hc]
        · cases h

theorem reseed_run (s : St σ) : reseed s = (.ok (), { s with tape := s.seed.getD s.tape }) := by
  unfold reseed
  cases s with
  | mk tape seed => cases seed <;> rfl

theorem facade_from {c : Cfg} {spec : PopSpec} {task : Task σ} {fitExec : Fit σ → M σ Unit} {update selection : M σ Unit}
    {cross : CrossOp} {mutOp : MutOp} {newGen : Transfer → M σ Unit} {s s1 : St σ} {fit : Fit σ} {l : MutLvl} {tr : Transfer}
    (hlen : (c.input.getD []).length ≤ c.numIndivid) (hf : newFitness task s = (.ok fit, s1))
    (hl : checkMutation mutOp c.mutationLvl = .ok l) (htr : checkTransfer c.transfer = .ok tr) :
    facade c spec task fitExec update selection cross mutOp newGen s = (do
      fill c.input
      evolve { fitness := fitExec fit, update := update, selection := selection, crossover := crossExec cross,
               mutation := mutExec mutOp, newGen := newGen tr }
      if c.isPrint then printBest else pure ()) (setUp c spec s1.conds (l.stored c.arith) s) := by
  unfold facade newGaData newPopulation setParams newMutation
  rw [bind_of_ok (modifyS_run _ _), bind_of_ok (reseed_run _), if_neg (by omega), bind_of_ok (modGa_run _ _)]
  refine (bind_of_ok ((newFitness_local hf).2 _ ?_)).trans ?_
  · rfl
  rw [hl, htr]
  refine (bind_of_ok (s' := setUp c spec s1.conds (l.stored c.arith) s) (a := ()) ?_).trans ?_
  · rw [bind_of_ok (liftE_run_ok _ _), bind_of_ok (getGa_run _), modifyS_run]
    rfl
  · rw [bind_of_ok (liftE_run_ok _ _)]

theorem collector_from {c : Cfg} {spec : PopSpec} {task : Task σ} {mutOp : MutOp} {ops : Fit σ → Transfer → Ops σ}
    {s s1 : St σ} {fit : Fit σ} {l : MutLvl} {tr : Transfer}
    (hlen : (c.input.getD []).length ≤ c.numIndivid) (hf : newFitness task s = (.ok fit, s1))
    (hl : checkMutation mutOp c.mutationLvl = .ok l) (htr : checkTransfer c.transfer = .ok tr) :
    collector c spec task mutOp ops s = (do
      fill c.input
      evolve (ops fit tr)
      printBest) (setUp c spec s1.conds (l.stored c.arith) s) := by
  unfold collector collectorSetPopulation collectorOptimize newGaData newPopulation setParams
  rw [bind_of_ok hf, hl, htr, bind_of_ok (liftE_run_ok _ _), bind_of_ok (modifyS_run _ _), bind_of_ok (liftE_run_ok _ _)]
  rw [bind_assoc_at, bind_of_ok (modifyS_run _ _), bind_assoc_at, bind_of_ok (reseed_run _), bind_assoc_at, if_neg (by omega),
    bind_of_ok (modGa_run _ _), (newFitness_local hf).1]
  rfl

/-- No constructor raises and the first generation of the user is not too large. -/
structure Constructible (c : Cfg) (task : Task σ) (mutOp : MutOp) (s : St σ) : Prop where
  room : (c.input.getD []).length ≤ c.numIndivid
  fitness : ∃ fit s1, newFitness task s = (.ok fit, s1)
  mutation : ∃ l, checkMutation mutOp c.mutationLvl = .ok l
  transfer : ∃ tr, checkTransfer c.transfer = .ok tr

theorem facade_constructible {c : Cfg} {spec : PopSpec} {task : Task σ} {fitExec : Fit σ → M σ Unit} {update selection : M σ Unit}
    {cross : CrossOp} {mutOp : MutOp} {newGen : Transfer → M σ Unit} {s s' : St σ}
    (h : facade c spec task fitExec update selection cross mutOp newGen s = (.ok (), s')) : Constructible c task mutOp s := by
  obtain ⟨fit, tr, s0, sa, sb, a1, a2, a3, a4, a5, ⟨l, a6, _⟩, a7, a8, a9⟩ := facade_ok h
  refine ⟨?_, ⟨fit, _, (newFitness_local a1).2 s a2.symm⟩, ⟨l, a6⟩, ⟨tr, a4⟩⟩
  by_contra hc
  unfold facade newGaData newPopulation setParams at h
  rw [bind_of_ok (modifyS_run _ _), bind_of_ok (reseed_run _), if_pos (by omega), bind_of_err (throwE_run _ _)] at h
  cases h

theorem collector_constructible {c : Cfg} {spec : PopSpec} {task : Task σ} {mutOp : MutOp} {ops : Fit σ → Transfer → Ops σ}
    {s s' : St σ} (h : collector c spec task mutOp ops s = (.ok (), s')) : Constructible c task mutOp s := by
  unfold collector at h
  obtain ⟨fit, s1, h1, h2⟩ := bind_ok.mp h
  obtain ⟨l, s2, h3, h4⟩ := bind_ok.mp h2
  obtain ⟨_, s3, h5, h6⟩ := bind_ok.mp h4
  obtain ⟨tr, s4, h7, h8⟩ := bind_ok.mp h6
  refine ⟨?_, ⟨fit, s1, h1⟩, ⟨l, (liftE_ok.mp h3).1⟩, ⟨tr, (liftE_ok.mp h7).1⟩⟩
  by_contra hc
  unfold collectorSetPopulation newGaData newPopulation setParams at h8
  obtain ⟨_, s5, h9, _⟩ := bind_ok.mp h8
  rw [bind_of_ok (modifyS_run _ _), bind_of_ok (reseed_run _), if_pos (by omega), bind_of_err (throwE_run _ _)] at h9
  cases h9

theorem facade_eq_collector {c : Cfg} {spec : PopSpec} {task : Task σ} {fitExec : Fit σ → M σ Unit} {update selection : M σ Unit}
    {cross : CrossOp} {mutOp : MutOp} {newGen : Transfer → M σ Unit} {s : St σ} (hp : c.isPrint = true)
    (h : Constructible c task mutOp s) :
    facade c spec task fitExec update selection cross mutOp newGen s = collector c spec task mutOp
      (fun fit tr => ⟨fitExec fit, update, selection, crossExec cross, mutExec mutOp, newGen tr⟩) s := by
  obtain ⟨hr, ⟨fit, s1, hf⟩, ⟨l, hl⟩, ⟨tr, htr⟩⟩ := h
  rw [facade_from hr hf hl htr, collector_from hr hf hl htr, if_pos hp]

theorem facade_iff_collector {c : Cfg} {spec : PopSpec} {task : Task σ} {fitExec : Fit σ → M σ Unit} {update selection : M σ Unit}
    {cross : CrossOp} {mutOp : MutOp} {newGen : Transfer → M σ Unit} {s s' : St σ} (hp : c.isPrint = true) :
    facade c spec task fitExec update selection cross mutOp newGen s = (.ok (), s') ↔ collector c spec task mutOp
      (fun fit tr => ⟨fitExec fit, update, selection, crossExec cross, mutExec mutOp, newGen tr⟩) s = (.ok (), s') :=
  ⟨fun h => facade_eq_collector hp (facade_constructible h) ▸ h, fun h => (facade_eq_collector hp (collector_constructible h)).trans h⟩

end

/-! ## C103 -/

/-- The components the ready-made class `f` is documented to use, in collector mode. -/
def SingleFacade.byHand (f : SingleFacade) (c : Cfg) (ov : Option ℚ) : M ℚ Unit :=
  collectorGA c f.spec (.tournament c.tournamentSize) f.cross f.mutOp ov

theorem SingleFacade.optimize_facade (f : SingleFacade) (c : Cfg) (ov : Option ℚ) : f.optimize c ov =
    facade c f.spec (hyperbolaTask c.obj1 c.obj2 c.inputTruthy c.penalty ov c.arith) baseFitnessExec gaUpdate
      (tournamentExec c.tournamentSize) f.cross f.mutOp newGenExec := by
  cases f <;> rfl

/-- C103: if the parameters are accepted by the constructors, the ready-made class and the collector with its components do
the same thing, whatever it is: the same result with the same recorded data, or the same exception in the same state. -/
theorem C103_same_program (f : SingleFacade) {c : Cfg} {ov : Option ℚ} {s : St ℚ} (hp : c.isPrint = true)
    (h : Constructible c (hyperbolaTask c.obj1 c.obj2 c.inputTruthy c.penalty ov c.arith) f.mutOp s) :
    f.optimize c ov s = f.byHand c ov s := by
  rw [f.optimize_facade]
  exact facade_eq_collector hp h

/-- C103: one of the two finishes if and only if the other does, with the same result; printing plays no role. -/
theorem C103_same_result (f : SingleFacade) {c : Cfg} {ov : Option ℚ} {s s' : St ℚ} :
    f.optimize c ov s = (.ok (), s') ↔ f.byHand c ov s = (.ok (), s') := by
  cases hp : c.isPrint with
  | true => rw [f.optimize_facade]; exact facade_iff_collector hp
  | false =>
    have key : f.optimize c ov s = (.ok (), s') ↔ f.optimize { c with isPrint := true } ov s = (.ok (), s') := by
      constructor
      · intro h
        have h' := h
        rw [f.optimize_facade] at h'
        have hc := facade_constructible h'
        obtain ⟨hr, ⟨fit, s1, hf⟩, ⟨l, hl⟩, ⟨tr, htr⟩⟩ := hc
        rw [facade_from hr hf hl htr, hp] at h'
        rw [f.optimize_facade]
        refine (facade_from (c := { c with isPrint := true }) hr hf hl htr).trans ?_
        obtain ⟨_, s0, g1, g2⟩ := bind_ok.mp h'
        obtain ⟨_, s2, g3, g4⟩ := bind_ok.mp g2
        obtain ⟨_, rfl⟩ := pure_ok.mp g4
        rw [if_pos rfl]
        refine bind_ok.mpr ⟨_, s0, g1, bind_ok.mpr ⟨_, _, g3, ?_⟩⟩
        obtain ⟨_, _, _, k, hst, _, hk, _⟩ := SingleFacade.run h
        obtain ⟨b, g, v, r, t1, _⟩ := (hk.inv (singleOps_run _ _ _ _ _) hst.fresh).top
        unfold printBest
        rw [bind_of_ok (getS_run _), t1]
        rfl
      · intro h
        have h' := h
        rw [f.optimize_facade] at h'
        have hc := facade_constructible h'
        obtain ⟨hr, ⟨fit, s1, hf⟩, ⟨l, hl⟩, ⟨tr, htr⟩⟩ := hc
        rw [facade_from (c := { c with isPrint := true }) hr hf hl htr, if_pos rfl] at h'
        rw [f.optimize_facade]
        refine (facade_from (c := c) hr hf hl htr).trans ?_
        rw [hp]
        obtain ⟨_, s0, g1, g2⟩ := bind_ok.mp h'
        obtain ⟨_, s2, g3, g4⟩ := bind_ok.mp g2
        refine bind_ok.mpr ⟨_, s0, g1, bind_ok.mpr ⟨_, s2, g3, ?_⟩⟩
        unfold printBest at g4
        rw [bind_of_ok (getS_run _)] at g4
        rcases hb : s2.ga.best with _ | (⟨_, _⟩ | ⟨_, _ | _⟩) <;> simp only [hb] at g4
        · cases g4
        · exact g4
        · cases g4
        · rw [ite_run] at g4
          split at g4
          · exact g4
          · cases g4
    rw [key, f.optimize_facade]
    exact facade_iff_collector rfl

/-- C103 for `VEGA`: after the number of objectives is known the class does what the collector does with
`VEGATournamentSelection` of that number of objectives and of size 3. -/
theorem C103_vega {c : Cfg} {gray : Bool} {gens : List BinGene} {ov : Option (List ℚ)} {s s1 : St (List ℚ)} {m : Nat}
    (hp : c.isPrint = true) (hm : vegaNumObjectives c gens.length s = (.ok m, s1))
    (h : Constructible c (vegaTask c.obj1 c.obj2 c.inputTruthy c.penalty ov c.arith) .binString s1) :
    vega c gray gens ov s = collectorVega c (.binary gray gens) m (.tournament 3) .onePoint .binString ov s1 := by
  unfold vega
  rw [bind_of_ok hm]
  exact facade_eq_collector hp h

/-- C103 for `VEGA` with conditions: the number of objectives is the number of `'optimize'` and the state is the given one. -/
theorem C103_vega_conditions {c : Cfg} {gray : Bool} {gens : List BinGene} {ov : Option (List ℚ)} {s : St (List ℚ)} {l : List Cond}
    (hp : c.isPrint = true) (hc : s.conds = some l)
    (h : Constructible c (vegaTask c.obj1 c.obj2 c.inputTruthy c.penalty ov c.arith) .binString s) :
    vega c gray gens ov s = collectorVega c (.binary gray gens) (l.count .optimize) (.tournament 3) .onePoint .binString ov s := by
  refine C103_vega hp ?_ h
  unfold vegaNumObjectives
  rw [bind_of_ok (getS_run _), hc]
  rfl

/-- C103 for `FFGA`: the collector with `FFGAFitness`, `BalancedSelection` and `MultiNewGeneration`. -/
theorem C103_ffga {c : Cfg} {gray : Bool} {gens : List BinGene} {s : St ℚ} (hp : c.isPrint = true)
    (h : Constructible c (ffgaTask c.obj1 c.obj2 c.inputTruthy c.penalty c.arith) .binString s) :
    ffga c gray gens s = collectorFfga c (.binary gray gens) .balanced .onePoint .binString s :=
  facade_eq_collector hp h

/-! ## examples -/

/-- The constructors accept the parameters of the examples used elsewhere. -/
theorem exCfg_constructible : Constructible exCfg (hyperbolaTask exCfg.obj1 exCfg.obj2 exCfg.inputTruthy exCfg.penalty none exCfg.arith)
    exFacade.mutOp { tape := exTape } where
  room := by simp [exCfg]
  fitness := ⟨_, _, rfl⟩
  mutation := ⟨.float (1 / 100), by decide +kernel⟩
  transfer := ⟨_, rfl⟩

/-- The collector finishes with the result of `exRun`. -/
example : exFacade.byHand exCfg none { tape := exTape } = (.ok (), exRun.2) := (C103_same_result exFacade).mp exRun_eq

set_option maxRecDepth 100000 in
/-- It does not when a component is another one: with `RankedSelection` a run on the same draws is still looking for a
second parent. -/
theorem C103_other_component : ∃ s : St ℚ, (exFacade.optimize exCfg none s).1 = .ok () ∧
    (collectorGA exCfg exFacade.spec .ranked exFacade.cross exFacade.mutOp none s).1 ≠ .ok () :=
  ⟨{ tape := exTape }, exRun_ok, by decide +kernel⟩

end BaumEva
