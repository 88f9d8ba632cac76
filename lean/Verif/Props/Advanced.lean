import Verif.Model.Advanced
import Verif.Proofs.ImageRanked
import Verif.Props.Anytime
import Verif.Props.Assembled
import Verif.Props.Modes
import Verif.Props.ByHand
/-!
# C109: programs in advanced mode
-/
namespace BaumEva
open Spec

section
variable {σ : Type}

/-! ## Other limits -/

/-- Everything stays, except for the number of generations and the stop limit, which are changed by `f` and `g`. -/
def Ren.limitsBy (spec : PopSpec) (ar : Arith) (f : Nat → Nat) (g : Option Int → Option Int) : Ren σ :=
  { source := spec, target := spec, arith := ar, rounds := f, stop := g }

section
variable (spec : PopSpec) (ar : Arith) (f : Nat → Nat) (g : Option Int → Option Int)

theorem Ren.limitsBy_ind (x : Ind σ) : (Ren.limitsBy (σ := σ) spec ar f g).ind x = x := by
  have hg : (Ren.limitsBy (σ := σ) spec ar f g).geno = id := by funext g; exact List.map_id _
  unfold Ren.ind
  rw [hg]
  cases x
  simp [Ren.limitsBy]

theorem Ren.limitsBy_st {s : St σ} (hs : s.ga.attrs.tag = (spec, ar)) :
    (Ren.limitsBy (σ := σ) spec ar f g).st s =
      { s with ga := { s.ga with numGenerations := f s.ga.numGenerations, earlyStop := g s.ga.earlyStop } } := by
  have hg : (Ren.limitsBy (σ := σ) spec ar f g).geno = id := by funext g; exact List.map_id _
  have hp : (Ren.limitsBy (σ := σ) spec ar f g).par = id := by funext p; simp [Ren.par, Ren.limitsBy]
  have hi : (Ren.limitsBy (σ := σ) spec ar f g).ind = id := by funext x; exact Ren.limitsBy_ind spec ar f g x
  have ha : (Ren.limitsBy (σ := σ) spec ar f g).attrs s.ga.attrs = s.ga.attrs := by
    unfold Ren.attrs
    rw [hp, List.map_id]
    show ({ s.ga.attrs with spec := spec } : Attrs) = _
    rw [← show s.ga.attrs.spec = spec from congrArg Prod.fst hs]
  unfold Ren.st Ren.ga Ren.heap
  rw [hg, hi, ha]
  simp [Ren.limitsBy]

theorem Ren.limitsBy_coding : (Ren.limitsBy (σ := σ) spec ar f g).Coding := Ren.coding_same rfl rfl rfl

theorem Ren.limitsBy_input (i : Option (List (List Val))) : (Ren.limitsBy (σ := σ) spec ar f g).input i = i := by
  have hg : (Ren.limitsBy (σ := σ) spec ar f g).geno = id := by funext g; exact List.map_id _
  unfold Ren.input; rw [hg]
  cases i <;> simp

theorem Ren.limitsBy_fits (fit : Fit σ) : (Ren.limitsBy (σ := σ) spec ar f g).Fits id fit fit := by
  have hg : ∀ x, (Ren.limitsBy (σ := σ) spec ar f g).geno x = x := fun g => List.map_id _
  have hid : ∀ {α : Type} (x : Except PyErr α), x.map id = x := fun x => by cases x <;> rfl
  refine ⟨rfl, rfl, rfl, rfl, rfl, rfl, fun x => by rw [hg, hid], fun v => by rw [Option.map_id, hid]; rfl, fun _ => rfl,
    fun _ => ⟨fun q => ⟨q, rfl⟩, fun vs => ⟨vs, rfl, id, ?_, fun r _ => rfl⟩⟩, ?_⟩
  · cases popAll fit.idxOpt vs <;> rfl
  · intro x pen _
    rw [Ren.limitsBy_ind]
    exact (hid _).symm

theorem Ren.limitsBy_ranks (t : Task σ) : (Ren.limitsBy (σ := σ) spec ar f g).Ranks id t t := by
  have hg : ∀ x, (Ren.limitsBy (σ := σ) spec ar f g).geno x = x := fun g => List.map_id _
  have hid : ∀ {α : Type} (x : Except PyErr α), x.map id = x := fun x => by cases x <;> rfl
  exact ⟨fun x => by rw [hg, hid], ⟨id, fun _ => rfl, fun _ _ _ _ _ _ => rfl⟩, fun q => ⟨q, rfl⟩⟩

end

/-- No component looks at the limits. -/
def Ops.Blind (ops : Ops σ) : Prop := ∀ spec ar f g, ops.Imgs (Ren.limitsBy spec ar f g) ops

theorem single_blind (fit : Fit ℚ) (sel : SelOp) (op : CrossOp) (mop : MutOp) (tr : Transfer) : (singleOps fit sel op mop tr).Blind :=
  fun spec ar f g =>
  have hC := Ren.limitsBy_coding (σ := ℚ) spec ar f g
  ⟨Img.baseFitnessExec hC (Ren.limitsBy_fits spec ar f g fit), Img.gaUpdate strictMono_id,
    Img.selExec (Ren.limitsBy_ind spec ar f g) strictMono_id sel, Img.crossExec hC op, Img.mutExec hC mop,
    Img.newGenExec hC strictMono_id tr⟩

theorem ffga_blind (fit : Fit ℚ) (sel : SelOp) (op : CrossOp) (mop : MutOp) (tr : Transfer) :
    (multiOps fit (selExec sel) op mop (multiNewGenExec tr)).Blind :=
  fun spec ar f g =>
  have hC := Ren.limitsBy_coding (σ := ℚ) spec ar f g
  ⟨Img.multiFitnessExec hC (Ren.limitsBy_fits _ _ _ _ fit) (Ren.limitsBy_ranks _ _ _ _ fit.task),
    Img.multiUpdate hC Function.injective_id Function.injective_id,
    Img.selExec (Ren.limitsBy_ind spec ar f g) strictMono_id sel, Img.crossExec hC op, Img.mutExec hC mop,
    Img.multiNewGenExec hC tr⟩

theorem vega_blind (fit : Fit (List ℚ)) (m : Nat) (sel : VegaSelOp) (op : CrossOp) (mop : MutOp) (tr : Transfer) :
    (vegaOps fit m sel op mop tr).Blind :=
  fun spec ar f g =>
  have hC := Ren.limitsBy_coding (σ := List ℚ) spec ar f g
  ⟨Img.multiFitnessExec hC (Ren.limitsBy_fits _ _ _ _ fit) (Ren.limitsBy_ranks _ _ _ _ fit.task),
    Img.multiUpdate hC Function.injective_id Function.injective_id,
    Img.vegaSelExec (Ren.limitsBy_ind spec ar f g) m sel, Img.crossExec hC op, Img.mutExec hC mop,
    Img.newGenExec hC strictMono_id tr⟩

/-! ## The loop of the README is that of `CollectorGA` with other limits -/

/-- One generation more, patience for one generation less. -/
def Ren.readme (spec : PopSpec) (ar : Arith) : Ren σ := Ren.limitsBy spec ar (· + 1) (Option.map (· - 1))

theorem advancedLoop_img {spec : PopSpec} {ar : Arith} {ops : Ops σ} (hb : ops.Blind) :
    ∀ n, Img (Ren.readme spec ar) id (advancedLoop ops none n) (mainLoop ops n)
  | 0 => Img.unit
  | n + 1 => by
    rw [advancedLoop, mainLoop]
    refine Img.bind (Img.generation (hb _ _ _ _)) fun _ => Img.getGa_bind fun ga _ => ?_
    rw [show ((Ren.readme spec ar : Ren σ).ga ga).earlyStop = ga.earlyStop.map (· - 1) from rfl,
      show ((Ren.readme spec ar : Ren σ).ga ga).noImprove = ga.noImprove from rfl]
    cases ga.earlyStop with
    | none => exact Img.throwE _
    | some e => exact Img.ite (by simp only []; omega) (fun _ => Img.unit) fun _ => advancedLoop_img hb n

/-- The part of a program in advanced mode after the constructors. -/
def advancedRun (c : Cfg) (ops : Ops σ) (goal : Option ℚ) : M σ Unit := do
  fill c.input
  ops.fitness
  ops.update
  let ga ← getGa
  advancedLoop ops goal ga.numGenerations
  if c.isPrint then printBest else pure ()

theorem advancedRun_img {c : Cfg} {spec : PopSpec} {ar : Arith} {ops : Ops σ} (hb : ops.Blind) (hp : c.isPrint = true) :
    Img (Ren.readme spec ar) id (advancedRun c ops none) (do
      fill c.input
      evolve ops
      printBest) := by
  have hi := hb spec ar (· + 1) (Option.map (· - 1))
  unfold advancedRun
  rw [hp, if_pos rfl]
  refine Img.bind (v := id) ?_ fun _ => ?_
  · have := Img.fill (R := Ren.readme (σ := σ) spec ar) (Ren.limitsBy_coding _ _ _ _) c.input
    rwa [show (Ren.readme (σ := σ) spec ar).input c.input = c.input from Ren.limitsBy_input _ _ _ _ _] at this
  · intro s hs
    unfold evolve
    rw [bind_assoc_at]
    refine Img.bind hi.fitness (fun _ => ?_) s hs
    intro s hs
    rw [bind_assoc_at]
    refine Img.bind hi.update (fun _ => ?_) s hs
    intro s hs
    rw [bind_assoc_at]
    refine Img.getGa_bind (fun ga _ => ?_) s hs
    exact Img.bind (advancedLoop_img hb _) fun _ => Img.printBest

theorem advanced_from {c : Cfg} {spec : PopSpec} {task : Task σ} {mutOp : MutOp} {ops : Fit σ → Transfer → Ops σ} {goal : Option ℚ}
    {s s1 : St σ} {fit : Fit σ} {l : MutLvl} {tr : Transfer} {e : Int} (he : c.earlyStop = some e)
    (hlen : (c.input.getD []).length ≤ c.numIndivid) (hf : newFitness task s = (.ok fit, s1))
    (hl : checkMutation mutOp c.mutationLvl = .ok l) (htr : checkTransfer c.transfer = .ok tr) :
    advanced c spec task mutOp ops goal s = advancedRun c (ops fit tr) goal (setUp c spec s1.conds (l.stored c.arith) s) := by
  have hstop : c.earlyStop = some c.stop := by rw [Cfg.stop, he]; rfl
  unfold advanced advancedRun collectorSetPopulation newGaData newPopulation setParams
  rw [bind_of_ok hf, hl, htr, bind_of_ok (liftE_run_ok _ _), bind_of_ok (modifyS_run _ _), bind_of_ok (liftE_run_ok _ _)]
  rw [bind_assoc_at, bind_of_ok (modifyS_run _ _), bind_assoc_at, bind_of_ok (reseed_run _), bind_assoc_at, if_neg (by omega),
    bind_of_ok (modGa_run _ _), (newFitness_local hf).1, hstop]
  rfl

/-- Two states agree in everything except for the limits of the run. -/
def UpToLimits (s s' : St σ) : Prop :=
  s' = { s with ga := { s.ga with numGenerations := s'.ga.numGenerations, earlyStop := s'.ga.earlyStop } }

/-- One generation more, patience for one generation less. -/
def Cfg.readme (c : Cfg) : Cfg := { c with numGenerations := c.numGenerations + 1, earlyStop := c.earlyStop.map (· - 1) }

theorem Ren.readme_limits {spec : PopSpec} {ar : Arith} {s : St σ} (hs : s.ga.attrs.tag = (spec, ar)) :
    UpToLimits s ((Ren.readme spec ar).st s) := by
  unfold UpToLimits Ren.readme
  rw [Ren.limitsBy_st _ _ _ _ hs]

theorem advanced_collector {c : Cfg} {spec : PopSpec} {task : Task σ} {mutOp : MutOp} {ops : Fit σ → Transfer → Ops σ}
    (hb : ∀ fit tr, (ops fit tr).Blind) {s : St σ} {e : Int} (he : c.earlyStop = some e) (hp : c.isPrint = true)
    (h : Constructible c task mutOp s) :
    (collector c.readme spec task mutOp ops s).1 = (advanced c spec task mutOp ops none s).1 ∧
    UpToLimits (advanced c spec task mutOp ops none s).2 (collector c.readme spec task mutOp ops s).2 := by
  obtain ⟨hr, ⟨fit, s1, hf⟩, ⟨l, hl⟩, ⟨tr, htr⟩⟩ := h
  rw [advanced_from he hr hf hl htr, collector_from (c := c.readme) hr hf hl htr]
  have hs : (setUp c spec s1.conds (l.stored c.arith) s).ga.attrs.tag = (spec, c.arith) := rfl
  obtain ⟨h1, h2⟩ := advancedRun_img (c := c) (spec := spec) (ar := c.arith) (hb fit tr) hp _ hs
  have hst : setUp c.readme spec s1.conds (l.stored c.readme.arith) s =
      (Ren.readme spec c.arith).st (setUp c spec s1.conds (l.stored c.arith) s) := by
    unfold Ren.readme
    rw [Ren.limitsBy_st _ _ _ _ hs]
    have h1 : c.stop = e := by rw [Cfg.stop, he]; rfl
    have h2 : c.readme.stop = e - 1 := by rw [Cfg.stop, Cfg.readme, he]; rfl
    unfold setUp
    rw [h1, h2]
    rfl
  rw [hst]
  refine ⟨(congrArg Prod.fst h1).trans (by cases (advancedRun c (ops fit tr) none (setUp c spec s1.conds (l.stored c.arith) s)).1 <;> rfl), ?_⟩
  have h4 := congrArg Prod.snd h1
  have h3 := Ren.readme_limits h2
  exact (congrArg (UpToLimits _) h4).mpr h3

/-! ## How long the loop runs -/

/-- `best_solution['obj_score']` is the goal. -/
def Achieved (goal : Option ℚ) (s : St σ) : Prop :=
  ∃ g b gen, goal = some g ∧ s.ga.best = some (.single b gen) ∧ (s.heap b).objScore = some (.sc g)

theorem goalReached_ok {g : ℚ} {s s' : St σ} {hit : Bool} (h : goalReached g s = (.ok hit, s')) :
    s' = s ∧ (hit = true ↔ Achieved (some g) s) := by
  unfold goalReached at h
  rw [bind_of_ok (getGa_run s)] at h
  cases hb : s.ga.best with
  | none => simp only [hb, throwE_ok] at h
  | some b =>
    cases b with
    | pareto f g => simp only [hb, throwE_ok] at h
    | single b gen =>
      simp only [hb] at h
      obtain ⟨x, s1, h1, h2⟩ := bind_ok.mp h
      obtain ⟨rfl, rfl⟩ := getInd_ok.mp h1
      obtain ⟨rfl, rfl⟩ := pure_ok.mp h2
      refine ⟨rfl, ?_⟩
      rw [decide_eq_true_iff]
      constructor
      · intro e
        exact ⟨g, b, gen, rfl, hb, e⟩
      · rintro ⟨g', b', gen', e1, e2, e3⟩
        injection e1 with e1
        rw [hb] at e2
        injection e2 with e2
        injection e2 with e2 _
        rw [e1, e2]
        exact e3

theorem advancedLoop_succ (ops : Ops σ) (goal : Option ℚ) (n : Nat) : advancedLoop ops goal (n + 1) = (do
    generation ops
    let ga ← getGa
    match ga.earlyStop with
    | none => throwE .typeError
    | some e =>
      if e ≤ ga.noImprove then pure ()
      else
        match goal with
        | none => advancedLoop ops goal n
        | some g => do
          let hit ← goalReached g
          if hit then pure () else advancedLoop ops goal n) := by
  cases goal <;> rfl

theorem advancedLoop_after {ops : Ops σ} {goal : Option ℚ} {s0 : St σ} : ∀ {n k : Nat} {s s' : St σ} {u : Unit}, After ops s0 k s →
    advancedLoop ops goal n s = (.ok u, s') → ∃ j, k ≤ j ∧ j ≤ k + n ∧ After ops s0 j s' ∧ (0 < n → k < j) ∧
      (j < k + n → (∃ e, s'.ga.earlyStop = some e ∧ e ≤ s'.ga.noImprove) ∨ Achieved goal s') ∧
      (∀ i si, k < i → i < j → After ops s0 i si → (∃ e, si.ga.earlyStop = some e ∧ ¬ e ≤ si.ga.noImprove) ∧ ¬ Achieved goal si) := by
  intro n
  induction n with
  | zero =>
    intro k s s' u hk h
    rw [advancedLoop] at h
    obtain ⟨_, rfl⟩ := pure_ok.mp h
    exact ⟨k, le_rfl, le_rfl, hk, fun h => absurd h (lt_irrefl _), fun h => absurd h (lt_irrefl _), fun i si h1 h2 => by omega⟩
  | succ n ih =>
    intro k s s' u hk h
    rw [advancedLoop_succ] at h
    obtain ⟨_, s1, h1, h2⟩ := bind_ok.mp h
    have hk1 : After ops s0 (k + 1) s1 := .next hk h1
    rw [bind_of_ok (getGa_run s1)] at h2
    cases he : s1.ga.earlyStop with
    | none => simp only [he, throwE_ok] at h2
    | some e =>
      simp only [he] at h2
      rw [ite_run] at h2
      split at h2
      · rename_i hlt
        obtain ⟨_, rfl⟩ := pure_ok.mp h2
        exact ⟨k + 1, by omega, by omega, hk1, fun _ => by omega, fun _ => .inl ⟨e, he, hlt⟩, fun i si h1 h2 => by omega⟩
      rename_i hlt
      have hgo : ¬ Achieved goal s1 → advancedLoop ops goal n s1 = (.ok u, s') → ∃ j, k ≤ j ∧ j ≤ k + (n + 1) ∧ After ops s0 j s' ∧
          (0 < n + 1 → k < j) ∧
          (j < k + (n + 1) → (∃ e, s'.ga.earlyStop = some e ∧ e ≤ s'.ga.noImprove) ∨ Achieved goal s') ∧
          (∀ i si, k < i → i < j → After ops s0 i si → (∃ e, si.ga.earlyStop = some e ∧ ¬ e ≤ si.ga.noImprove) ∧ ¬ Achieved goal si) := by
        intro hna h3
        obtain ⟨j, j1, j2, j3, j4, j5, j6⟩ := ih hk1 h3
        refine ⟨j, by omega, by omega, j3, fun _ => by omega, fun hj => j5 (by omega), ?_⟩
        intro i si hi1 hi2 hi3
        by_cases hik : i = k + 1
        · subst hik
          rw [hk1.unique hi3]
          exact ⟨⟨e, he, hlt⟩, hna⟩
        · exact j6 i si (by omega) hi2 hi3
      cases goal with
      | none =>
        refine hgo ?_ h2
        rintro ⟨g, _, _, e1, _⟩
        cases e1
      | some g =>
        obtain ⟨hit, s2, h3, h4⟩ := bind_ok.mp h2
        obtain ⟨rfl, hh⟩ := goalReached_ok h3
        cases hit with
        | true =>
          obtain ⟨_, rfl⟩ := pure_ok.mp (show (pure () : M σ Unit) s2 = _ from h4)
          exact ⟨k + 1, by omega, by omega, hk1, fun _ => by omega, fun _ => .inr (hh.mp rfl), fun i si h1 h2 => by omega⟩
        | false => exact hgo (fun h => by cases hh.mpr h) h4

end

/-! ## Single-objective programs in advanced mode -/

section
variable {c : Cfg} {spec : PopSpec} {sel : SelOp} {op : CrossOp} {mop : MutOp} {ov goal : Option ℚ} {s s' : St ℚ}

/-- A finished program in advanced mode. -/
theorem advancedGA_run (h : advancedGA c spec sel op mop ov goal s = (.ok (), s')) : ∃ fit tr s0 k,
    HandRun c spec sel op mop ov c.earlyStop s fit tr s0 k s' ∧ 1 ≤ k ∧ k ≤ 1 + c.numGenerations ∧ (0 < c.numGenerations → 1 < k) ∧
      (k < 1 + c.numGenerations → (∃ e, c.earlyStop = some e ∧ e ≤ s'.ga.noImprove) ∨ Achieved goal s') ∧
      (∀ i si, 1 < i → i < k → After (singleOps fit sel op mop tr) s0 i si →
        (∃ e, c.earlyStop = some e ∧ ¬ e ≤ si.ga.noImprove) ∧ ¬ Achieved goal si) := by
  unfold advancedGA advanced at h
  obtain ⟨fit, s1, h1, h2⟩ := bind_ok.mp h
  obtain ⟨l, s2, h3, h4⟩ := bind_ok.mp h2
  obtain ⟨_, rfl⟩ := liftE_ok.mp h3
  rw [bind_of_ok (modifyS_run _ _)] at h4
  obtain ⟨tr, s3, h5, h6⟩ := bind_ok.mp h4
  obtain ⟨_, rfl⟩ := liftE_ok.mp h5
  obtain ⟨_, s0, h7, h8⟩ := bind_ok.mp h6
  obtain ⟨_, s4, h9, h10⟩ := bind_ok.mp h8
  obtain ⟨_, s5, h11, h12⟩ := bind_ok.mp h10
  rw [bind_of_ok (getGa_run s5)] at h12
  obtain ⟨_, s6, h13, h14⟩ := bind_ok.mp h12
  have e6 : s6 = s' := by
    split at h14
    · exact (printBest_state h14).symm
    · exact (pure_ok.mp h14).2.symm
  subst e6
  have hst := collectorSetPopulation_ok h7
  have ha : After (singleOps fit sel op mop tr) s0 1 s5 := .first h9 h11
  have hp : ∀ i si, After (singleOps fit sel op mop tr) s0 i si →
      si.ga.numGenerations = c.numGenerations ∧ si.ga.earlyStop = c.earlyStop := by
    intro i si hi
    obtain ⟨⟨p1, _, p3⟩, _⟩ := hi.keeps sameSetup_frame (singleOps_keep _ _ _ _ _)
    exact ⟨p1.trans hst.gens, p3.trans hst.stop⟩
  rw [(hp 1 s5 ha).1] at h13
  obtain ⟨k, k1, k2, k3, k4, k5, k6⟩ := advancedLoop_after ha h13
  refine ⟨fit, tr, s0, k, ⟨⟨_, h1⟩, hst, ?_, k3⟩, k1, k2, k4, ?_, ?_⟩
  · rw [collectorSetPopulation_calls h7]
    change s2.calls = s.calls
    rw [(newFitness_local h1).1]
  · intro hk
    rw [← (hp k s6 k3).2]
    exact k5 hk
  · intro i si i1 i2 i3
    rw [← (hp i si i3).2]
    exact k6 i si i1 i2 i3

/-- C109: a program in advanced mode makes `num_generations` generations after the first one, and fewer only if `early_stop`
generations in a row brought no improvement or the best solution has the value looked for. -/
theorem C109_stops (h : advancedGA c spec sel op mop ov goal s = (.ok (), s')) :
    1 ≤ s'.ga.idxGeneration ∧ s'.ga.idxGeneration ≤ c.numGenerations + 1 ∧ (0 < c.numGenerations → 2 ≤ s'.ga.idxGeneration) ∧
    (s'.ga.idxGeneration < c.numGenerations + 1 → (∃ e, c.earlyStop = some e ∧ e ≤ s'.ga.noImprove) ∨ Achieved goal s') := by
  obtain ⟨fit, tr, s0, k, hr, k1, k2, k3, k4, _⟩ := advancedGA_run h
  rw [hr.idx]
  exact ⟨k1, by omega, k3, fun hk => k4 (by omega)⟩

/-- C109: `GaData(early_stop=None)` is of no use in advanced mode: no program with at least one generation returns. -/
theorem C109_needs_limit (hn : 0 < c.numGenerations) (he : c.earlyStop = none) :
    advancedGA c spec sel op mop ov goal s ≠ (.ok (), s') := by
  intro h
  unfold advancedGA advanced at h
  obtain ⟨fit, s1, h1, h2⟩ := bind_ok.mp h
  obtain ⟨l, s2, h3, h4⟩ := bind_ok.mp h2
  obtain ⟨_, rfl⟩ := liftE_ok.mp h3
  rw [bind_of_ok (modifyS_run _ _)] at h4
  obtain ⟨tr, s3, h5, h6⟩ := bind_ok.mp h4
  obtain ⟨_, rfl⟩ := liftE_ok.mp h5
  obtain ⟨_, s0, h7, h8⟩ := bind_ok.mp h6
  obtain ⟨_, s4, h9, h10⟩ := bind_ok.mp h8
  obtain ⟨_, s5, h11, h12⟩ := bind_ok.mp h10
  rw [bind_of_ok (getGa_run s5)] at h12
  obtain ⟨_, s6, h13, h14⟩ := bind_ok.mp h12
  have hst := collectorSetPopulation_ok h7
  have ha : After (singleOps fit sel op mop tr) s0 1 s5 := .first h9 h11
  have hp : ∀ i si, After (singleOps fit sel op mop tr) s0 i si →
      si.ga.numGenerations = c.numGenerations ∧ si.ga.earlyStop = c.earlyStop := by
    intro i si hi
    obtain ⟨⟨p1, _, p3⟩, _⟩ := hi.keeps sameSetup_frame (singleOps_keep _ _ _ _ _)
    exact ⟨p1.trans hst.gens, p3.trans hst.stop⟩
  rw [(hp 1 s5 ha).1] at h13
  obtain ⟨n, hn⟩ := Nat.exists_eq_succ_of_ne_zero (Nat.pos_iff_ne_zero.mp hn)
  rw [hn, Nat.succ_eq_add_one, advancedLoop_succ] at h13
  obtain ⟨_, s7, g1, g2⟩ := bind_ok.mp h13
  rw [bind_of_ok (getGa_run s7), (hp 2 s7 (.next ha g1)).2, he] at g2
  exact (throwE_ok.mp g2).elim

/-- C109: the objective is called once for each initial individual and once for each child of each later generation. -/
theorem C109_budget (h : advancedGA c spec sel op mop ov goal s = (.ok (), s')) :
    s'.calls = s.calls ++ evaluated s s' ∧
    (evaluated s s').length = c.numIndivid + (s'.ga.idxGeneration - 1) * c.children ∧
    (∀ g ∈ evaluated s s', ∃ l ∈ generationsOf s', ∃ x ∈ l, argument spec.hasPhenotype x = some g) ∧
    (∀ l ∈ generationsOf s', ∀ x ∈ l, ∃ g ∈ evaluated s s', argument spec.hasPhenotype x = some g) := by
  obtain ⟨fit, tr, s0, k, hr, _⟩ := advancedGA_run h
  rw [hr.idx]
  exact hr.budget

/-- C109: without constraints `best_solution` is a point the objective was called with, `obj_score` is the value it has there, and no
point evaluated in the run is better. -/
theorem C109_best_of_all (hx : c.arith = .exact) (hn : ¬ Constrained c s.conds)
    (h : advancedGA c spec sel op mop ov goal s = (.ok (), s')) :
    ∃ b gen g o, s'.ga.best = some (.single b gen) ∧ argument spec.hasPhenotype (s'.heap b) = some g ∧
      g ∈ evaluated s s' ∧ c.objective g = .ok (.sc o) ∧ (s'.heap b).objScore = some (.sc o) ∧
      ∀ g' ∈ evaluated s s', ∃ o', c.objective g' = .ok (.sc o') ∧ cost ov o ≤ cost ov o' := by
  obtain ⟨fit, tr, s0, k, hr, _⟩ := advancedGA_run h
  exact hr.best_of_all hx hn

/-- If a point with the value looked for was evaluated, the best solution has it. -/
theorem HandRun.found {stop : Option Int} {fit : Fit ℚ} {tr : Transfer} {s0 : St ℚ} {k : Nat} {t : ℚ}
    (h : HandRun c spec sel op mop (some t) stop s fit tr s0 k s') (hx : c.arith = .exact) (hn : ¬ Constrained c s.conds)
    {x : List Val} (hm : x ∈ evaluated s s') (ho : c.objective x = .ok (.sc t)) : Achieved (some t) s' := by
  obtain ⟨b, gen, g, o, h1, h2, h3, h4, h5, h6⟩ := h.best_of_all hx hn
  obtain ⟨o', e1, e2⟩ := h6 x hm
  rw [ho] at e1
  injection e1 with e1
  injection e1 with e1
  subst e1
  have e3 : cost (some t) t = 0 := by unfold cost; simp
  rw [e3] at e2
  have e4 : o = t := by
    unfold cost at e2
    simp only at e2
    have := abs_nonpos_iff.mp e2
    linarith
  rw [e4] at h5
  exact ⟨t, b, gen, rfl, h1, h5⟩

/-- C109: a program that looks for the value `t` (`obj_value` is `t`, and the loop ends when `best_solution` has it) stops in the
generation where a point with this value is found: all points evaluated before the last generation miss it, except that the loop
is always entered once.  If it is found at all, `best_solution` has it. -/
theorem C109_goal {t : ℚ} (hx : c.arith = .exact) (hn : ¬ Constrained c s.conds)
    (h : advancedGA c spec sel op mop (some t) (some t) s = (.ok (), s')) :
    ((∃ x ∈ evaluated s s', c.objective x = .ok (.sc t)) ↔ Achieved (some t) s') ∧
    (3 ≤ s'.ga.idxGeneration → ∀ x ∈ (evaluated s s').take (c.numIndivid + (s'.ga.idxGeneration - 2) * c.children),
      c.objective x ≠ .ok (.sc t)) := by
  obtain ⟨fit, tr, s0, k, hr, k1, k2, k3, k4, k5⟩ := advancedGA_run h
  rw [hr.idx]
  refine ⟨⟨fun ⟨x, hm, ho⟩ => hr.found hx hn hm ho, ?_⟩, ?_⟩
  · rintro ⟨g, b, gen, e1, e2, e3⟩
    obtain ⟨b', gen', x, o, h1, h2, h3, h4, h5, _⟩ := hr.best_of_all hx hn
    rw [e2] at h1
    injection h1 with h1
    injection h1 with h1 _
    subst h1
    rw [e3] at h5
    injection h5 with h5
    injection h5 with h5
    injection e1 with e1
    rw [← h5, ← e1] at h4
    exact ⟨x, h3, h4⟩
  · intro hk x hm ho
    obtain ⟨j, rfl⟩ : ∃ j, k = j + 1 := ⟨k - 1, by omega⟩
    cases hr.after with
    | first _ _ => omega
    | @next _ sj _ ha hg =>
      have hj : HandRun c spec sel op mop (some t) c.earlyStop s fit tr s0 j sj := ⟨hr.fitness, hr.started, hr.calls, ha⟩
      obtain ⟨b1, b2, _, _⟩ := hj.budget
      obtain ⟨f1, _, _, _⟩ := hr.budget
      have hpre : sj.calls <+: s'.calls :=
        (generation_keeps grows_steady.toStill.step (single_grows fit sel op mop tr) |>.ok hg).calls
      refine (k5 j sj (by omega) (by omega) ha).2 (hj.found hx hn (x := x) ?_ ho)
      rw [b1, f1] at hpre
      rw [List.prefix_append_right_inj] at hpre
      rw [show j + 1 - 2 = j - 1 by omega, ← b2] at hm
      rw [← List.prefix_iff_eq_take.mp hpre] at hm
      exact hm

/-! ## Exceptions -/

theorem advancedLoop_safe {fit : Fit ℚ} {tr : Transfer} {P : List Val → Prop} {s0 : St ℚ} (h0 : SafeCore fit op mop tr P s0)
    (hsel : ∀ {k : Nat} {s : St ℚ}, After (singleOps fit sel op mop tr) s0 k s → Safe (selExec sel) s) : ∀ {n k : Nat} {s : St ℚ},
    After (singleOps fit sel op mop tr) s0 k s → Safe (advancedLoop (singleOps fit sel op mop tr) goal n) s := by
  intro n
  induction n with
  | zero => intro k s _; exact Safe.pure _ _
  | succ n ih =>
    intro k s h
    rw [advancedLoop_succ]
    refine Safe.bind (h0.generation h (hsel h)) ?_
    intro u s1 h1
    have h' := After.next h h1
    refine Safe.bind_ok (getGa_run s1) ?_
    cases he : s1.ga.earlyStop with
    | none => exact absurd ((h0.inv h').stop.symm.trans he) h0.stop
    | some e =>
      refine Safe.ite (fun _ => Safe.pure _ _) fun _ => ?_
      cases goal with
      | none => exact ih h'
      | some g =>
        refine Safe.bind ?_ ?_
        · obtain ⟨b, gen, v, r, t1, _⟩ := (h'.inv (singleOps_run fit sel op mop tr) h0.fresh).top
          unfold goalReached
          refine Safe.bind_ok (getGa_run s1) ?_
          rw [t1]
          exact Safe.bind_ok (getInd_run _ _) (Safe.pure _ _)
        · intro hit s2 h2
          obtain ⟨rfl, _⟩ := goalReached_ok h2
          exact Safe.ite (fun _ => Safe.pure _ _) fun _ => ih h'

/-- C109: a program in advanced mode with an `early_stop` and components that fit together raises no exception: the only way to stop
early is that the list of draws is finite. -/
theorem C109_no_exception {f : SingleFacade} {e : Int} {x : PyErr} (he : c.earlyStop = some e) (ha : Assembled f c sel op mop ov s)
    (h : advancedGA c f.spec sel op mop ov goal s = (.error x, s')) : x = .exhausted ∧ s'.tape = [] := by
  suffices hs : Safe (advancedGA c f.spec sel op mop ov goal) s from hs x s' h
  clear h
  have hstop : c.earlyStop = some c.stop := by rw [Cfg.stop, he]; rfl
  obtain ⟨l, hlvl⟩ := level_check_all ha.level
  obtain ⟨tr, htr⟩ : ∃ tr, checkTransfer c.transfer = .ok tr := by
    rcases ha.transfer with h | h
    · rw [h]; exact ⟨_, rfl⟩
    · rw [h.1]; exact ⟨_, rfl⟩
  have hlen : ¬ c.numIndivid < (c.input.getD []).length := by have := ha.room; omega
  unfold advancedGA advanced
  refine Safe.bind (newFitness_safe (Space := f.Points c.arith) ha.objective) ?_
  intro fit s1 h1
  have e1 : s1 = { s with conds := s1.conds } := (newFitness_local h1).1
  refine Safe.bind_ok (liftE_ok.mpr ⟨hlvl, rfl⟩) (Safe.bind_ok (modifyS_run _ _) (Safe.bind_ok (liftE_ok.mpr ⟨htr, rfl⟩) ?_))
  rw [hstop]
  refine Safe.bind ?_ ?_
  · unfold collectorSetPopulation newGaData newPopulation setParams
    refine Safe.bind_ok (modifyS_run _ _) (Safe.bind (Safe.reseed _) ?_)
    intro _ s2 h2
    obtain ⟨t, e2⟩ := reseed_ok h2
    rw [if_neg hlen]
    refine Safe.bind_ok (modGa_run _ _) ?_
    rw [e2]
    refine fill_safe (prepare_safe ha.genes rfl ha.arith) ?_ ?_ rfl
    · intro at_ hat har' hprep
      exact ⟨fun x hx => adopt_safe ha.genes (by rw [har']; exact ha.arith) hat hprep (ha.input x hx),
        fun s' => generate_safe ha.genes hat hprep s'⟩
    · intro hp
      cases f with
      | binary gray gens => exact ⟨gray, gens, rfl⟩
      | combinatory a b k => cases hp
      | categorical gens => cases hp
  intro _ s0 h2
  have hst := collectorSetPopulation_ok h2
  have hmod : ∀ D, Modest D s → Modest D s0 := by
    intro D hD
    refine collectorSetPopulation_modest h2 ?_
    rw [e1]
    exact hD
  have hcore := assembled_core ha.toComposed h1 htr ⟨l, hlvl, by rw [collectorSetPopulation_mutLvl h2]⟩ hst
  have hops := singleOps_run fit sel op mop tr
  refine Safe.bind ?_ ?_
  · show Safe (baseFitnessExec fit) s0
    exact hcore.fitness (b := s0.ga.attrs.isSorted) rfl (hcore.fresh.distinct.sublist (unscored_sublist _ _))
      (fun r hr => .inr (hcore.first r hr)) (.inl hcore.fresh.idx)
  intro u s3 h3
  have hF := hops.fitness s0 s3 u (hcore.fresh.distinct.sublist (unscored_sublist _ _)) h3
  refine Safe.bind ?_ ?_
  · show Safe gaUpdate s3
    refine gaUpdate_safe ?_ ?_ (.inl ?_)
    · rw [hF.ga]
      intro he
      have h1 := hcore.full
      have h2 := hcore.two
      rw [he] at h1
      simp at h1
      omega
    · rw [hF.ga]; exact hF.done
    · rw [hF.ga]; exact hcore.fresh.best
  intro u2 s4 h4
  refine Safe.bind_ok (getGa_run s4) ?_
  have ha4 : After (singleOps fit sel op mop tr) s0 1 s4 := After.first h3 h4
  refine Safe.bind (advancedLoop_safe hcore (fun h => assembled_selects ha h1 hst hmod hcore h) ha4) ?_
  intro u5 s5 h5
  obtain ⟨k, _, _, hk, _⟩ := advancedLoop_after ha4 h5
  refine Safe.ite (fun _ => ?_) fun _ => Safe.pure _ _
  obtain ⟨b, g, v, r, t1, _⟩ := (hk.inv hops hst.fresh).top
  unfold printBest
  refine Safe.bind_ok (getS_run s5) ?_
  rw [t1]
  exact Safe.pure _ _

end

/-! ## The loop of the README and `CollectorGA` -/

/-- C109: the loop of the README is `CollectorGA` with one generation more and patience for one generation less: the same exceptions,
the same generations, the same calls, the same best solution and the same generator state afterwards. -/
theorem C109_collector {c : Cfg} {spec : PopSpec} {sel : SelOp} {op : CrossOp} {mop : MutOp} {ov : Option ℚ} {s : St ℚ} {e : Int}
    (he : c.earlyStop = some e) (hp : c.isPrint = true)
    (h : Constructible c (hyperbolaTask c.obj1 c.obj2 c.inputTruthy c.penalty ov c.arith) mop s) :
    (collectorGA c.readme spec sel op mop ov s).1 = (advancedGA c spec sel op mop ov none s).1 ∧
    UpToLimits (advancedGA c spec sel op mop ov none s).2 (collectorGA c.readme spec sel op mop ov s).2 :=
  advanced_collector (fun fit tr => single_blind fit sel op mop tr) he hp h

theorem C109_ffga {c : Cfg} {spec : PopSpec} {sel : SelOp} {op : CrossOp} {mop : MutOp} {s : St ℚ} {e : Int}
    (he : c.earlyStop = some e) (hp : c.isPrint = true)
    (h : Constructible c (ffgaTask c.obj1 c.obj2 c.inputTruthy c.penalty c.arith) mop s) :
    (collectorFfga c.readme spec sel op mop s).1 = (advancedFfga c spec sel op mop s).1 ∧
    UpToLimits (advancedFfga c spec sel op mop s).2 (collectorFfga c.readme spec sel op mop s).2 :=
  advanced_collector (fun fit tr => ffga_blind fit sel op mop tr) he hp h

theorem C109_vega {c : Cfg} {spec : PopSpec} {m : Nat} {sel : VegaSelOp} {op : CrossOp} {mop : MutOp} {ov : Option (List ℚ)}
    {s : St (List ℚ)} {e : Int} (he : c.earlyStop = some e) (hp : c.isPrint = true)
    (h : Constructible c (vegaTask c.obj1 c.obj2 c.inputTruthy c.penalty ov c.arith) mop s) :
    (collectorVega c.readme spec m sel op mop ov s).1 = (advancedVega c spec m sel op mop ov s).1 ∧
    UpToLimits (advancedVega c spec m sel op mop ov s).2 (collectorVega c.readme spec m sel op mop ov s).2 :=
  advanced_collector (fun fit tr => vega_blind fit m sel op mop tr) he hp h

/-! ## programs that meet the hypotheses -/

/-- Three digits; the program looks for a sum, as the README looks for a word. -/
def exReadmeCfg : Cfg :=
  { exCfg with numGenerations := 9, earlyStop := some 6, mutationLvl := .float (1 / 3), obj1 := fun x => .ok (.sc (sumNums x)) }

def exReadme (t : ℚ) (goal : Option ℚ) : Except PyErr Unit × St ℚ :=
  advancedGA exReadmeCfg exFacade.spec (.tournament 2) .onePoint .categorical (some t) goal exHand

set_option maxRecDepth 100000 in
/-- The sum 12 is found in the seventh generation, and the loop stops there; 10 is there from the start, but the loop is entered
once; 14 is not found, and the loop is left after six generations without improvement. -/
theorem exReadme_values : (exReadme 12 (some 12)).1 = .ok () ∧ (exReadme 12 (some 12)).2.ga.idxGeneration = 7 ∧
    ((evaluated exHand (exReadme 12 (some 12)).2).map sumNums).count 12 = 1 ∧
    (exReadme 12 none).1 = .ok () ∧ (exReadme 12 none).2.ga.idxGeneration = 10 ∧
    (exReadme 10 (some 10)).1 = .ok () ∧ (exReadme 10 (some 10)).2.ga.idxGeneration = 2 ∧
    (exReadme 14 (some 14)).1 = .ok () ∧ (exReadme 14 (some 14)).2.ga.idxGeneration = 7 ∧
    (exReadme 14 (some 14)).2.ga.noImprove = 6 := by decide +kernel

theorem exReadme_run : advancedGA exReadmeCfg exFacade.spec (.tournament 2) .onePoint .categorical (some 12) (some 12) exHand =
    (.ok (), (exReadme 12 (some 12)).2) := by
  rw [← exReadme_values.1]; rfl

/-- Nothing evaluated in the first six generations has the sum 12. -/
example : ∀ x ∈ (evaluated exHand (exReadme 12 (some 12)).2).take 14, sumNums x ≠ 12 := by
  have h := (C109_goal (c := exReadmeCfg) rfl (by unfold Constrained; decide) exReadme_run).2
  rw [exReadme_values.2.1] at h
  intro x hx e
  refine h (by norm_num) x ?_ ?_
  · rw [show exReadmeCfg.numIndivid + (7 - 2) * exReadmeCfg.children = 14 by decide +kernel]
    exact hx
  · change Except.ok (Ret.sc (sumNums x)) = _
    rw [e]

example : (∃ e, exReadmeCfg.earlyStop = some e ∧ e ≤ (exReadme 12 (some 12)).2.ga.noImprove) ∨
    Achieved (some 12) (exReadme 12 (some 12)).2 :=
  (C109_stops exReadme_run).2.2.2 (by rw [exReadme_values.2.1]; decide)

example : (evaluated exHand (exReadme 12 (some 12)).2).length = 4 + 6 * exReadmeCfg.children := by
  rw [(C109_budget exReadme_run).2.1, exReadme_values.2.1]
  rfl

theorem exReadme_assembled (l : List Nat) :
    Assembled exFacade exReadmeCfg (.tournament 2) .onePoint .categorical (some 12) { tape := l } where
  genes := exWheel_assembled.genes
  operators := ⟨.inl rfl, rfl, fun _ => by simp, fun _ => by simp⟩
  selection := ⟨by norm_num, by norm_num [exReadmeCfg, exCfg]⟩
  input := by simp [exReadmeCfg, exCfg]
  room := by simp [exReadmeCfg, exCfg]
  two := by simp [exReadmeCfg, exCfg]
  level := .inl ⟨_, rfl, by norm_num, by norm_num⟩
  transfer := .inl rfl
  objective := .inl ⟨.inl rfl, fun x _ => ⟨_, rfl⟩⟩
  arith := .inl rfl

/-- On every list of draws. -/
example (l : List Nat) {x : PyErr} {s' : St ℚ} (h : advancedGA exReadmeCfg exFacade.spec (.tournament 2) .onePoint .categorical (some 12)
    (some 12) { tape := l } = (.error x, s')) : x = .exhausted :=
  (C109_no_exception (f := exFacade) (c := exReadmeCfg) (e := 6) rfl (exReadme_assembled l) h).1

/-- `CollectorGA` with ten generations and `early_stop=5` does the same as the loop of the README with nine and `early_stop=6`; with
the same numbers it makes one generation less. -/
example : (collectorGA exReadmeCfg.readme exFacade.spec (.tournament 2) .onePoint .categorical (some 12) exHand).1 = .ok () ∧
    UpToLimits (exReadme 12 none).2
      (collectorGA exReadmeCfg.readme exFacade.spec (.tournament 2) .onePoint .categorical (some 12) exHand).2 := by
  have h := C109_collector (c := exReadmeCfg) (spec := exFacade.spec) (sel := .tournament 2) (op := .onePoint) (mop := .categorical)
    (ov := some 12) (s := exHand) (e := 6) rfl rfl ⟨by simp [exReadmeCfg, exCfg], ⟨_, _, rfl⟩, level_check_all (exReadme_assembled []).level, ⟨_, rfl⟩⟩
  exact ⟨h.1.trans exReadme_values.2.2.2.1, h.2⟩

set_option maxRecDepth 100000 in
example : (collectorGA exReadmeCfg exFacade.spec (.tournament 2) .onePoint .categorical (some 12) exHand).2.ga.idxGeneration = 9 := by
  decide +kernel

/-- `early_stop=None` is accepted by `GaData`, but not by the loop. -/
example {s' : St ℚ} : advancedGA { exReadmeCfg with earlyStop := none } exFacade.spec (.tournament 2) .onePoint .categorical none none
    exHand ≠ (.ok (), s') := C109_needs_limit (by decide) rfl

end BaumEva
