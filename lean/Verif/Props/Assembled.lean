import Verif.Props.Matching
import Verif.Props.Ledger
import Verif.Props.NoCrash
import Verif.Proofs.SafeRanked
import Verif.Props.MultiNoCrash
/-!
# C102: genetic algorithms assembled with `CollectorGA` raise no exception
-/
namespace BaumEva
open Spec

/-! ## which programs are meant -/

/-- The largest population of a run. -/
def Cfg.largest (c : Cfg) : Nat := max c.numIndivid c.children + 1

/-- Nothing goes wrong at the end of the wheel: the arithmetic is exact, or the population is not gigantic and no random number
is among the largest `8 * largest` of the `2^53` possible ones. -/
def CalmWheel {σ : Type} (c : Cfg) (s : St σ) : Prop :=
  c.arith = .exact ∨ (16 * c.largest ≤ 2 ^ 53 ∧ Modest (fun x => x % 2 ^ 53 + 8 * c.largest < 2 ^ 53) s)

/-- The selection can be used: the tournament is smaller than the population; the roulette on scores has a target value, so
that scores are positive. -/
def Selectable (c : Cfg) (ov : Option ℚ) (s : St ℚ) : SelOp → Prop
  | .tournament size => 2 ≤ size ∧ size < c.numIndivid
  | .balanced => ov.isSome ∧ CalmWheel c s
  | .ranked => CalmWheel c s

/-- The components and parameters of a program in collector mode fit together, whatever its selection. -/
structure Composed (f : SingleFacade) (c : Cfg) (op : CrossOp) (mop : MutOp) (s : St ℚ) : Prop where
  genes : f.Usable
  operators : Matching f op mop
  input : ∀ x ∈ c.input.getD [], f.Space x
  room : (c.input.getD []).length ≤ c.numIndivid
  two : 2 ≤ c.numIndivid
  level : LevelFor mop c.mutationLvl
  transfer : c.transfer = "best" ∨ (c.transfer = "random" ∧ 1 ≤ c.childrenPercent * c.numIndivid)
  objective : ObjectiveOk c s.conds (f.Points c.arith)
  arith : f.Computes c.arith

/-- The components and parameters of a program in collector mode fit together. -/
structure Assembled (f : SingleFacade) (c : Cfg) (sel : SelOp) (op : CrossOp) (mop : MutOp) (ov : Option ℚ) (s : St ℚ) : Prop
    extends Composed f c op mop s where
  selection : Selectable c ov s sel

/-! ## scores -/

theorem charges_nonneg {ar : Arith} (R : Rounding ar.rnd) {p : Penalty} {ks : List Cond} (h : Charges p ks) (hk : KnownSigns ks) {vs : List ℚ} (hl : vs.length = ks.length)
    {gen : Nat} {best : BestArg} {pen : ℚ} (hv : p.value ar ks vs gen best = .ok pen) : 0 ≤ pen := by
  rcases h with h | ⟨n1, n2, f, e, hf⟩
  · exact (positive_pen R h hk hv).1
  · obtain ⟨q, q0, hq⟩ := hf vs hl
    unfold Penalty.value at hv
    rw [if_neg n1, if_neg n2, e] at hv
    have : f ks vs = .ok pen := hv
    rw [hq] at this
    injection this with this
    rw [← this]; exact q0

/-- The individual has been evaluated and its score is positive. -/
def PosScore (b : Bool) (x : Ind ℚ) : Prop := (argument b x).isSome ∧ ∃ v, x.score = some v ∧ 0 < v

theorem posScore_verdict (b : Bool) : Verdict b (PosScore b) where
  stable := by
    rintro x y ⟨h1, v, h2, h3⟩ e
    exact ⟨by rw [e.2]; exact h1, v, by rw [e.1]; exact h2, h3⟩
  scored := by rintro x ⟨_, v, h, _⟩; rw [h]; rfl
  arg := fun _ h => h.1

theorem earned_pos {ar : Arith} (R : Rounding ar.rnd) {t o pen : ℚ} (hp : 0 ≤ pen) : 0 < earned ar (some t) o pen := by
  obtain ⟨s, _, h1, _, h2, _⟩ := C95_float_score_partial R (t := t) (o := o) (o' := o) hp hp
  unfold hyperbolaR at h1
  simp only at h1
  split at h1
  · cases h1
  · injection h1 with h1
    unfold earned
    simp only
    rw [h1]; exact h2

theorem posScore_judges {c : Cfg} {t : ℚ} {Space : List Val → Prop} {fit : Fit ℚ} {sa sb : St ℚ} (R : Rounding c.arith.rnd)
    (ho : ObjectiveOk c sa.conds Space)
    (hf : newFitness (hyperbolaTask c.obj1 c.obj2 c.inputTruthy c.penalty (some t) c.arith) sa = (.ok fit, sb)) (b : Bool) :
    Judges fit b (PosScore b) := by
  by_cases hn : Constrained c sa.conds
  · rcases ho with ⟨hun, _⟩ | ⟨p, cs, e1, e2, e3, e4, e5, e6, _⟩
    · obtain ⟨h1, h2⟩ := hn
      rcases hun with hun | hun
      · rw [hun] at h1; simp at h1
      · omega
    obtain ⟨ht, hc⟩ := newFitness_ok hf
    have hc' : fit.isCond = true ∧ fit.idxOpt = [cs.idxOf .optimize] := by
      rcases hc with ⟨_, _, _, h | h⟩ | ⟨h, _, cs', e, _, ⟨hm, _⟩ | ⟨_, _, _, hi, _⟩⟩
      · change c.penalty = none at h
        rw [e1] at h; simp at h
      · rw [e2] at h; simp at h; omega
      · simp [hyperbolaTask] at hm
      · rw [e2] at e
        injection e with e
        subst e
        exact ⟨h, hi⟩
    obtain ⟨hcond, _⟩ := conditional_split hf hc'.1 e2 (fun _ => e4)
    rintro s s' rfl h hnd r hr hs _
    obtain ⟨_, _, _, _, a6⟩ := baseFitness_ok h hnd
    obtain ⟨m, ba, _, _, hev⟩ := a6 r (List.mem_filter.mpr ⟨hr, by simp [hs]⟩)
    obtain ⟨g, ret, vals, pen, sc, h1, _, h3, h4, h5, h6⟩ := hev.hyperbola (ar := c.arith) (objValue := some t) (by rw [ht]; rfl) (by rw [ht]; rfl)
    rcases h6 with ⟨h6, _⟩ | ⟨_, vs, pr, p', rfl, y1, y2, y3, _, y5, y6⟩
    · rw [hc'.1] at h6; simp at h6
    have hpp : p' = p := by
      rw [ht] at y5
      change c.penalty = some p' at y5
      rw [e1] at y5
      injection y5 with y5
      exact y5.symm
    subst hpp
    have hlen : vs.length = fit.conditions.length + 1 := by
      unfold checkInput at h3
      rw [hc'.1, if_pos rfl] at h3
      cases ret with
      | sc q => simp at h3
      | tup l =>
        have h3' : (if l.length = fit.conditions.length + 1 then Except.ok (some (Ret.tup l)) else Except.error PyErr.exception) =
            Except.ok (some (Ret.tup vs)) := by simpa using h3
        by_cases hl : l.length = fit.conditions.length + 1
        · rw [if_pos hl] at h3'
          injection h3' with h3'
          injection h3' with h3'
          injection h3' with h3'
          rw [← h3']; exact hl
        · rw [if_neg hl] at h3'
          cases h3'
    have hpl : pr.2.length = fit.conditions.length := by
      rw [hc'.2] at y1
      unfold popAll at y1
      split at y1
      · simp at y1
      · rename_i v hv
        simp only [popAll, bind, Except.bind, pure, Except.pure] at y1
        injection y1 with y1
        have hi := (List.getElem?_eq_some_iff.mp hv).1
        rw [← y1]
        simp only [List.length_eraseIdx, if_pos hi]
        omega
    rw [← hcond] at e5 e6
    refine ⟨by rw [h1]; rfl, sc, h4, ?_⟩
    unfold BaumEva.hyperbola at h5
    rw [y2] at h5
    rw [hyperbolaR_earned h5]
    exact earned_pos R (charges_nonneg (ar := fit.task.arith) (by rw [ht]; exact R) e6 e5 hpl y6)
  · intro s s' hb h hnd r hr hs hfe
    obtain ⟨g, o, h1, _, _, h4⟩ := truthful_judges hf hn b s s' hb h hnd r hr hs hfe
    exact ⟨by rw [h1]; rfl, _, h4, earned_pos R le_rfl⟩

/-! ## sizes -/

section
variable {fit : Fit ℚ} {sel : SelOp} {op : CrossOp} {mop : MutOp} {tr : Transfer} {P : List Val → Prop} {s0 : St ℚ}

/-- No population of the run is larger than the larger of `num_individ` and the number of children, plus one. -/
theorem population_le (h0 : SafeCore fit op mop tr P s0) (hp : s0.ga.population.length ≤ s0.ga.attrs.numIndivid) {k : Nat} {s : St ℚ}
    (h : After (singleOps fit sel op mop tr) s0 k s) :
    s.ga.population.length ≤ max s0.ga.attrs.numIndivid (numPairs s0.ga 1) + 1 := by
  have hops := singleOps_run fit sel op mop tr
  induction h with
  | @first s1 s a b =>
    obtain ⟨_, hperm, _⟩ := first_inv hops.fitness h0.fresh a b
    rw [hperm.length_eq]
    have := le_max_left s0.ga.attrs.numIndivid (numPairs s0.ga 1)
    omega
  | @next k s s' a b _ =>
    have hI := h0.inv a
    obtain ⟨s1, s2, s3, es, t, hB, hlen, _, e2, _, _, _, _, hF, hup, hng⟩ := generation_ok hops hI.run.settled b
    have hle := newGenExec_le hng
    have hl : s'.ga.population.length = s2.ga.population.length := by
      obtain ⟨pop, rb, rm, rw', b, m, w, hperm, _, _, _, _, _, _, _, _, s1, hdec, rfl⟩ := gaUpdate_ok hup
      have : s1.ga.population = pop := by cases hdec <;> rfl
      simp only
      rw [this, hperm.length_eq, hF.ga]
    have hpairs : numPairs s.ga 1 = numPairs s0.ga 1 := by
      unfold numPairs
      rw [hI.percent, hI.attrs]
    have hn : s1.ga.attrs.numIndivid = s0.ga.attrs.numIndivid := by rw [hB.ga]; simp only; rw [hI.attrs]
    rw [hlen, hpairs, hn] at hle
    rw [hl]; exact hle

end

/-! ## the run -/

/-- What makes a program in collector mode raise nothing, apart from its selection. -/
theorem assembled_core {f : SingleFacade} {c : Cfg} {op : CrossOp} {mop : MutOp} {ov : Option ℚ} {sa sb s0 : St ℚ} {fit : Fit ℚ}
    {tr : Transfer} (ha : Composed f c op mop sa)
    (hfit : newFitness (hyperbolaTask c.obj1 c.obj2 c.inputTruthy c.penalty ov c.arith) sa = (.ok fit, sb))
    (htr : checkTransfer c.transfer = .ok tr)
    (hlvl : ∃ l, checkMutation mop c.mutationLvl = .ok l ∧ s0.mutLvl = l.stored c.arith)
    (hst : Started f.spec c.numIndivid c.numGenerations c.input c.childrenPercent (some c.stop) c.arith s0) :
    SafeCore fit op mop tr (f.Geno s0.ga.attrs) s0 := by
  obtain ⟨s1, hc⟩ := hst.created
  obtain ⟨_, hd, hpop, _⟩ := createPopulation_ok hc
  have hsp : s0.ga.attrs.spec = f.spec := hd.spec_eq
  have hnum : s0.ga.attrs.numIndivid = c.numIndivid := hd.num
  have hprep : ∀ gray gens, s0.ga.attrs.spec = .binary gray gens → Prepared s0.ga.attrs gray gens := by
    intro gray gens e
    exact hd.prep gray gens (hsp.symm.trans e)
  have hph : s0.ga.attrs.isPhenotype = f.spec.hasPhenotype := by
    have := hd.phen
    cases f with
    | binary gray gens => exact this.mpr ⟨gray, gens, rfl⟩
    | combinatory a b k =>
      simp only [SingleFacade.spec, PopSpec.hasPhenotype]
      rw [Bool.eq_false_iff]
      intro hp
      obtain ⟨_, _, e⟩ := this.mp hp
      simp [SingleFacade.spec] at e
    | categorical gens =>
      simp only [SingleFacade.spec, PopSpec.hasPhenotype]
      rw [Bool.eq_false_iff]
      intro hp
      obtain ⟨_, _, e⟩ := this.mp hp
      simp [SingleFacade.spec] at e
  have hex : f.Computes s0.ga.attrs.arith := by rw [hst.arith]; exact ha.arith
  have hM := ha.operators
  have hu := ha.genes
  have hclosed : ClosedGeno op mop f.spec (f.Geno s0.ga.attrs) := geno_closed_all hM _
  refine ⟨hst.fresh, ?_, SingleFacade.geno_first ha.input hc, ?_, ?_, ?_, ?_, ?_, ?_,
    fun hp g hg => (SingleFacade.geno_arg ha.genes hex hsp hph hprep hg).1 hp, ?_, ?_⟩
  · rw [hsp]; exact hclosed
  · rw [hpop, List.length_range', hnum]
  · rw [hnum]; exact ha.two
  · intro g0 p1 p2 k0 k1 k2
    exact hM.cross hu hex hsp hprep k0 k1 k2
  · intro g0 p1 p2 g1 k0 k1 k2 hcr
    exact hM.mutable hu hex hsp hprep (hclosed .other g0 p1 p2 g1 g1 k0 k1 k2 hcr (.inl rfl))
  · obtain ⟨l, hl1, hl2⟩ := hlvl
    rw [hl2]
    exact MutReady.stored _ (hM.ready hu hex hsp hprep hl1)
  · intro e
    subst e
    have h1 : 1 ≤ c.childrenPercent * c.numIndivid := by
      rcases ha.transfer with h | h
      · rw [h] at htr; simp [checkTransfer] at htr
      · exact h.2
    rw [numPairs_share, hst.percent, hnum, hst.arith, share_one ha.arith.rounding]
    have h2 := ha.arith.rounding.mono h1
    rw [ha.arith.rounding.one] at h2
    have : (1 : Int) ≤ ⌊c.arith.rnd (c.childrenPercent * c.numIndivid)⌋ := Int.le_floor.mpr (by push_cast; exact h2)
    omega
  · intro g a hg harg b gen rk hb
    have := (SingleFacade.geno_arg ha.genes hex hsp hph hprep hg).2 a harg
    rw [hst.arith] at this
    exact evaluable_single ha.objective ha.arith.rounding hfit this hb
  · rw [hst.stop]; simp

/-- The selection raises nothing in any generation. -/
theorem assembled_selects {f : SingleFacade} {c : Cfg} {sel : SelOp} {op : CrossOp} {mop : MutOp} {ov : Option ℚ} {sa sb s0 : St ℚ} {fit : Fit ℚ}
    {tr : Transfer} {P : List Val → Prop} (ha : Assembled f c sel op mop ov sa)
    (hfit : newFitness (hyperbolaTask c.obj1 c.obj2 c.inputTruthy c.penalty ov c.arith) sa = (.ok fit, sb))
    (hst : Started f.spec c.numIndivid c.numGenerations c.input c.childrenPercent (some c.stop) c.arith s0)
    (hmod : ∀ D, Modest D sa → Modest D s0) (h0 : SafeCore fit op mop tr P s0) {k : Nat} {s : St ℚ}
    (h : After (singleOps fit sel op mop tr) s0 k s) : Safe (selExec sel) s := by
  obtain ⟨s1, hc⟩ := hst.created
  obtain ⟨_, hd, hpop, _⟩ := createPopulation_ok hc
  have hnum : s0.ga.attrs.numIndivid = c.numIndivid := hd.num
  have hI := h0.inv h
  have hal := hI.run.settled.alive
  have har : s.ga.attrs.arith = c.arith := by rw [hI.attrs]; exact hst.arith
  have hne : s.ga.population ≠ [] := by
    intro e
    have h1 := hI.full
    rw [e, hI.attrs] at h1
    simp only [List.length_nil] at h1
    have := h0.two
    omega
  have hk : Keyed scoreKey s := by
    intro r hr
    obtain ⟨v, hv⟩ := Option.isSome_iff_exists.mp (hI.run.settled.asc.1 r hr)
    exact ⟨v, by unfold scoreKey; rw [hv]⟩
  have hlarge : s.ga.population.length ≤ c.largest := by
    have := population_le h0 (by rw [hpop, List.length_range', hnum]) h
    rw [hnum, numPairs_children hnum hst.percent hst.arith] at this
    exact this
  have hD : ∀ D, Modest D sa → Modest D s := fun D hD =>
    h.keeps (modest_frame D) (singleOps_frame (modest_frame D) fit sel op mop tr) (hmod D hD)
  have R : Rounding s.ga.attrs.arith.rnd := by rw [har]; exact ha.arith.rounding
  have hsel := ha.selection
  cases sel with
  | tournament size =>
    exact tournamentExec_safe hsel.1 (by rw [hI.attrs]; simp only; rw [hnum]; exact hsel.2) hI.full hal hk
  | balanced =>
    obtain ⟨ht, hcalm⟩ := hsel
    obtain ⟨t, rfl⟩ := Option.isSome_iff_exists.mp ht
    have hL := ledger hst.fresh (fun r hr => ?_) rfl (posScore_verdict _) (posScore_judges ha.arith.rounding ha.objective hfit _) h
    · have hpos : ∀ r ∈ s.ga.population, ∃ q, scoreKey (s.heap r) = .ok q ∧ 0 < q := by
        intro r hr
        obtain ⟨_, v, hv, h0⟩ := hL.members r hr
        exact ⟨v, by unfold scoreKey; rw [hv], h0⟩
      have hw : ∀ a b : Ind ℚ, SameCore a b → scoreKey b = scoreKey a := fun a b h => by unfold scoreKey; rw [h.score]
      rcases hcalm with hx | ⟨h1, h2⟩
      · exact balanced_safe hw (har.trans hx) hal hne hpos
      · exact balanced_safe_on hw R (hD _ h2) hlarge h1 hal hne hpos
    · exact hst.cells.2.2.2 r hr
  | ranked =>
    rcases hsel with hx | ⟨h1, h2⟩
    · exact rankedExec_safe (har.trans hx) hal hne hk
    · exact rankedExec_safe_on R (hD _ h2) hlarge h1 hal hne hk

theorem collectorSetPopulation_modest {σ : Type} {spec : PopSpec} {N G : Nat} {input : Option (List (List Val))} {cp : ℚ} {stop : Option Int} {ar : Arith}
    {u : Unit} {D : Nat → Prop} {s s0 : St σ} (h : collectorSetPopulation spec N G input cp stop ar s = (.ok u, s0)) (hD : Modest D s) :
    Modest D s0 := by
  have hR := (modest_frame (σ := σ) D).toQuiet
  have : Keeps (fun s s' : St σ => Modest D s → Modest D s') (collectorSetPopulation spec N G input cp stop ar) :=
    hR.bind (fun _ h => h) fun _ => hR.bind (newPopulation_frame hR.still.calm) fun _ =>
      hR.bind (setParams_frame hR.still.moving _ _ _) fun _ => fill_frame hR.still _
  exact this.ok h hD

theorem collectorSetPopulation_mutLvl {σ : Type} {spec : PopSpec} {N G : Nat} {input : Option (List (List Val))} {cp : ℚ} {stop : Option Int} {ar : Arith}
    {u : Unit} {s s0 : St σ} (h : collectorSetPopulation spec N G input cp stop ar s = (.ok u, s0)) : s0.mutLvl = s.mutLvl := by
  unfold collectorSetPopulation newGaData at h
  rw [bind_of_ok (modifyS_run _ _)] at h
  obtain ⟨_, s2, h2, h3⟩ := bind_ok.mp h
  unfold newPopulation at h2
  obtain ⟨t, ht⟩ := reseed_ok h2
  obtain ⟨_, s3, h4, h5⟩ := bind_ok.mp h3
  unfold setParams at h4
  rw [ite_run] at h4
  split at h4
  · rw [throwE_ok] at h4; exact h4.elim
  rename_i hlen
  rw [modGa_ok] at h4
  obtain ⟨_, _, _, _, _, _, _, _, _, _, b2, _⟩ := fill_ok (by rw [h4]) (by rw [h4]; simp only; omega) h5
  rw [b2, h4, ht]

/-- A program in collector mode raises nothing if the parts of its run do not. -/
theorem collector_safe {σ : Type} {f : SingleFacade} {c : Cfg} {task : Task σ} {mop : MutOp} {ops : Fit σ → Transfer → Ops σ} {s : St σ}
    (hnew : Safe (newFitness task) s) (hu : f.Usable) (hin : ∀ x ∈ c.input.getD [], f.Space x) (hroom : (c.input.getD []).length ≤ c.numIndivid)
    (har : f.Computes c.arith) (hlev : LevelFor mop c.mutationLvl) (htr : ∃ tr, checkTransfer c.transfer = .ok tr)
    (hrun : ∀ fit tr (sb s0 : St σ), newFitness task s = (.ok fit, sb) → checkTransfer c.transfer = .ok tr → (∀ D, Modest D s → Modest D s0) →
      (∃ l, checkMutation mop c.mutationLvl = .ok l ∧ s0.mutLvl = l.stored c.arith) →
      Started f.spec c.numIndivid c.numGenerations c.input c.childrenPercent (some c.stop) c.arith s0 →
      Safe (evolve (ops fit tr)) s0 ∧ ∀ k s7, After (ops fit tr) s0 k s7 → Safe printBest s7) :
    Safe (collector c f.spec task mop ops) s := by
  obtain ⟨l, hlvl⟩ := level_check_all hlev
  obtain ⟨tr, htr⟩ := htr
  have hlen : ¬ c.numIndivid < (c.input.getD []).length := by omega
  unfold collector
  refine Safe.bind hnew ?_
  intro fit s1 h1
  have e1 : s1 = { s with conds := s1.conds } := by
    rcases (newFitness_ok h1).2 with ⟨_, _, e, _⟩ | ⟨_, _, cs, _, _, ⟨_, _, _, e⟩ | ⟨_, _, _, _, e⟩⟩
    all_goals rw [e]
  refine Safe.bind_ok (liftE_ok.mpr ⟨hlvl, rfl⟩) (Safe.bind_ok (modifyS_run _ _) (Safe.bind_ok (liftE_ok.mpr ⟨htr, rfl⟩) ?_))
  refine Safe.bind ?_ ?_
  · unfold collectorSetPopulation newGaData newPopulation setParams
    refine Safe.bind_ok (modifyS_run _ _) (Safe.bind (Safe.reseed _) ?_)
    intro _ s2 h2
    obtain ⟨t, e2⟩ := reseed_ok h2
    rw [if_neg hlen]
    refine Safe.bind_ok (modGa_run _ _) ?_
    rw [e2]
    refine fill_safe (prepare_safe hu rfl har) ?_ ?_ rfl
    · intro at_ hat har' hprep
      exact ⟨fun x hx => adopt_safe hu (by rw [har']; exact har) hat hprep (hin x hx), fun s' => generate_safe hu hat hprep s'⟩
    · intro hp
      cases f with
      | binary gray gens => exact ⟨gray, gens, rfl⟩
      | combinatory a b k => cases hp
      | categorical gens => cases hp
  intro _ s0 h2
  have hst := collectorSetPopulation_ok h2
  have hmod : ∀ D, Modest D s → Modest D s0 := by
    intro D hD
    refine collectorSetPopulation_modest h2 ?_
    rw [e1]
    exact hD
  obtain ⟨hev, hpr⟩ := hrun fit tr s1 s0 h1 htr hmod ⟨l, hlvl, by rw [collectorSetPopulation_mutLvl h2]⟩ hst
  unfold collectorOptimize
  refine Safe.bind hev ?_
  intro _ s7 h7
  obtain ⟨_, k, _, _, _, hk, _⟩ := evolve_after h7
  exact hpr k s7 hk

/-- C102: a genetic algorithm assembled from components that fit together raises no exception: the only way to stop early is
that the list of draws is finite. -/
theorem C102_assembled_no_exception {f : SingleFacade} {c : Cfg} {sel : SelOp} {op : CrossOp} {mop : MutOp} {ov : Option ℚ} {s s' : St ℚ}
    {e : PyErr} (ha : Assembled f c sel op mop ov s) (h : collectorGA c f.spec sel op mop ov s = (.error e, s')) :
    e = .exhausted ∧ s'.tape = [] := by
  suffices hs : Safe (collectorGA c f.spec sel op mop ov) s from hs e s' h
  clear h
  unfold collectorGA
  refine collector_safe (newFitness_safe (Space := f.Points c.arith) ha.objective) ha.genes ha.input ha.room ha.arith ha.level ?_ ?_
  · rcases ha.transfer with h | h
    · rw [h]; exact ⟨_, rfl⟩
    · rw [h.1]; exact ⟨_, rfl⟩
  intro fit tr s1 s0 h1 htr hmod hlvl hst
  have hcore := assembled_core ha.toComposed h1 htr hlvl hst
  refine ⟨hcore.evolve fun h => assembled_selects ha h1 hst hmod hcore h, fun k s7 hk => ?_⟩
  obtain ⟨b, g, v, r, t1, _⟩ := (hk.inv (singleOps_run fit sel op mop tr) hst.fresh).top
  unfold printBest
  refine Safe.bind_ok (getS_run s7) ?_
  rw [t1]
  exact Safe.pure _ _

/-! ## the conditions can be met -/

def exHand : St ℚ := { tape := exDraws 600 (exSeed 3) }

/-- Gray code, `RankedSelection`, `TwoPointCrossover`, `ShiftMutation('strong')`, `NewGeneration('random')`. -/
theorem exSum_assembled : Assembled (.binary true [⟨0, 3, 1⟩, ⟨-1, 1, 1 / 2⟩]) exSumCfg .ranked .twoPoint .shift none exHand where
  genes := exSum_admissible.genes
  operators := ⟨.inr (.inl rfl), .inr (.inr (.inr (.inl rfl))), fun _ => .inr ⟨_, List.mem_cons_of_mem _ List.mem_cons_self, by norm_num [abs_of_pos]⟩⟩
  selection := .inl rfl
  input := by simp [exSumCfg]
  room := by simp [exSumCfg]
  two := by simp [exSumCfg]
  level := .inr ⟨by simp, by simp [exSumCfg]⟩
  transfer := .inr ⟨rfl, by norm_num [exSumCfg]⟩
  objective := .inl ⟨.inl rfl, fun x _ => ⟨_, rfl⟩⟩
  arith := .inl rfl

/-- Routes, `BalancedSelection` with a target, `OrderCrossover`, `InversionMutation`. -/
theorem exRoute_assembled : Assembled (.combinatory 1 6 5) exCfg .balanced .order .inversion (some 2) exHand where
  genes := ⟨by norm_num, by norm_num⟩
  operators := ⟨rfl, .inl rfl⟩
  selection := ⟨rfl, .inl rfl⟩
  input := by simp [exCfg]
  room := by simp [exCfg]
  two := by simp [exCfg]
  level := .inl ⟨_, rfl, by norm_num, by norm_num⟩
  transfer := .inl rfl
  objective := .inl ⟨.inl rfl, fun x _ => ⟨_, rfl⟩⟩
  arith := .inl rfl

/-- Python's floating point arithmetic and the roulette. -/
def exWheelCfg : Cfg := { exCfg with arith := .binary64 }

theorem exHand_modest : ∀ x ∈ exDraws 600 (exSeed 3), x % 2 ^ 53 + 8 * (exWheelCfg.largest) < 2 ^ 53 := by decide +kernel

theorem exWheel_assembled : Assembled exFacade exWheelCfg .balanced .twoPoint .categorical (some 2) exHand where
  genes := by
    intro g hg
    simp only [List.mem_cons, List.not_mem_nil, or_false] at hg
    rcases hg with rfl | rfl | rfl <;> exact ⟨⟨.num 0, 0, by norm_num, .inl (by norm_num)⟩, fun l h => by cases h⟩
  operators := ⟨.inr (.inl rfl), rfl, fun _ => by simp, fun _ => by simp⟩
  selection := ⟨rfl, .inr ⟨by decide +kernel, exHand_modest, fun t h => by cases h⟩⟩
  input := by simp [exWheelCfg, exCfg]
  room := by simp [exWheelCfg, exCfg]
  two := by simp [exWheelCfg, exCfg]
  level := .inl ⟨_, rfl, by norm_num, by norm_num⟩
  transfer := .inl rfl
  objective := .inl ⟨.inl rfl, fun x _ => ⟨_, rfl⟩⟩
  arith := .inr ⟨fl_rounding, fun gray gens h => by cases h⟩

set_option maxRecDepth 100000 in
/-- These programs do finish. -/
example : (collectorGA exSumCfg (.binary true [⟨0, 3, 1⟩, ⟨-1, 1, 1 / 2⟩]) .ranked .twoPoint .shift none exHand).1 = .ok () ∧
    (collectorGA exCfg (.orderCat 1 6 5) .balanced .order .inversion (some 2) exHand).1 = .ok () ∧
    (collectorGA exWheelCfg exFacade.spec .balanced .twoPoint .categorical (some 2) exHand).1 = .ok () := by decide +kernel

/-! ## and cannot be dropped -/

set_option maxRecDepth 100000 in
/-- C102: without a target value the scores of the roulette can all be zero, and `BalancedSelection` divides by their sum. -/
theorem C102_roulette_needs_target : ∃ (c : Cfg) (s : St ℚ), (∀ x, c.objective x = .ok (.sc 0)) ∧ Matching exFacade .twoPoint .categorical ∧
    (collectorGA c exFacade.spec .balanced .twoPoint .categorical none s).1 = .error .zeroDivision :=
  ⟨{ exCfg with obj1 := fun _ => .ok (.sc 0) }, exHand, fun _ => rfl, ⟨.inr (.inl rfl), rfl, fun _ => by simp, fun _ => by simp⟩,
    by decide +kernel⟩

set_option maxRecDepth 100000 in
/-- C102: components which do not fit together are accepted by all constructors and raise an exception during the run: a two-point
crossover on genotypes of two bits, the categorical mutation on a binary population, the order crossover on a binary population,
the bit string mutation on a categorical population. -/
theorem C102_misfits_raise : ∃ s : St ℚ,
    (collectorGA exCfg (.binary false [⟨0, 3, 1⟩]) .ranked .twoPoint .binString none s).1 = .error .valueError ∧
    (collectorGA exCfg (.binary false [⟨0, 3, 1⟩]) .ranked .onePoint .categorical none s).1 = .error .typeError ∧
    (collectorGA exCfg (.binary false [⟨0, 3, 1⟩]) .ranked .order .binString none s).1 = .error .valueError ∧
    (collectorGA { exCfg with mutationLvl := .float 1 } exFacade.spec .ranked .onePoint .binString none s).1 = .error .attributeError :=
  ⟨exHand, by decide +kernel⟩

end BaumEva
