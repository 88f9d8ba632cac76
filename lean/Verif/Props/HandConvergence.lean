import Verif.Props.Convergence
import Verif.Props.Advanced
/-!
# C111: programs assembled by hand miss a point of the search space with vanishing probability
-/
namespace BaumEva
open Spec

/-- What a program in collector or advanced mode does before the first evaluation. -/
def handInit (c : Cfg) (spec : PopSpec) (mop : MutOp) (ov : Option ℚ) (stop : Option Int) : M ℚ (Fit ℚ × Transfer) := do
  let fit ← newFitness (hyperbolaTask c.obj1 c.obj2 c.inputTruthy c.penalty ov c.arith)
  let l ← liftE (checkMutation mop c.mutationLvl)
  modifyS fun s => { s with mutLvl := l.stored c.arith }
  let tr ← liftE (checkTransfer c.transfer)
  collectorSetPopulation spec c.numIndivid c.numGenerations c.input c.childrenPercent stop c.arith
  pure (fit, tr)

theorem handInit_tame (c : Cfg) (spec : PopSpec) (mop : MutOp) (ov : Option ℚ) (stop : Option Int) :
    Tame (handInit c spec mop ov stop) := by
  unfold handInit collectorSetPopulation newGaData
  refine (Tame.newFitness _).bind fun _ => (Tame.liftE _).bind fun _ => ?_
  refine Tame.bind (Tame.modifyS (fun _ _ => rfl) (fun _ => rfl)) fun _ => (Tame.liftE _).bind fun _ => ?_
  refine Tame.bind (Tame.bind (Tame.modifyS (fun _ _ => rfl) (fun _ => rfl)) fun _ => ?_) fun _ => Tame.pure _
  exact Tame.newPopulation.bind fun _ => (Tame.setParams _ _ _).bind fun _ => Tame.fill _

section
variable {f : SingleFacade} {c : Cfg} {spec : PopSpec} {sel : SelOp} {op : CrossOp} {mop : MutOp} {ov goal : Option ℚ} {stop : Option Int}
  {s s0 s' : St ℚ} {p : Fit ℚ × Transfer}

theorem handInit_ok (h : handInit c spec mop ov stop s = (.ok p, s0)) :
    (∃ sb, newFitness (hyperbolaTask c.obj1 c.obj2 c.inputTruthy c.penalty ov c.arith) s = (.ok p.1, sb)) ∧
    checkTransfer c.transfer = .ok p.2 ∧ (∃ l, checkMutation mop c.mutationLvl = .ok l ∧ s0.mutLvl = l.stored c.arith) ∧
    Started spec c.numIndivid c.numGenerations c.input c.childrenPercent stop c.arith s0 ∧ s0.calls = s.calls ∧
    ∀ D, Modest D s → Modest D s0 := by
  unfold handInit at h
  obtain ⟨fit, s1, h1, h2⟩ := bind_ok.mp h
  obtain ⟨l, s2, h3, h4⟩ := bind_ok.mp h2
  obtain ⟨hl, rfl⟩ := liftE_ok.mp h3
  rw [bind_of_ok (modifyS_run _ _)] at h4
  obtain ⟨tr, s3, h5, h6⟩ := bind_ok.mp h4
  obtain ⟨htr, rfl⟩ := liftE_ok.mp h5
  obtain ⟨_, s4, h7, h8⟩ := bind_ok.mp h6
  obtain ⟨rfl, rfl⟩ := pure_ok.mp h8
  have e1 := (newFitness_local h1).1
  refine ⟨⟨_, h1⟩, htr, ⟨l, hl, by rw [collectorSetPopulation_mutLvl h7]⟩, collectorSetPopulation_ok h7, ?_, fun D hD => ?_⟩
  · rw [collectorSetPopulation_calls h7]
    show s2.calls = s.calls
    rw [e1]
  · refine collectorSetPopulation_modest h7 ?_
    show Modest D { s2 with mutLvl := _ }
    rw [e1]
    exact hD

theorem collectorGA_eq (c : Cfg) (spec : PopSpec) (sel : SelOp) (op : CrossOp) (mop : MutOp) (ov : Option ℚ) :
    collectorGA c spec sel op mop ov = handInit c spec mop ov (some c.stop) >>= fun p =>
      evolve (singleOps p.1 sel op mop p.2) >>= fun _ => printBest := by
  unfold collectorGA collector handInit collectorOptimize
  simp only [bind_assoc_at]
  rfl

theorem advancedGA_eq (c : Cfg) (spec : PopSpec) (sel : SelOp) (op : CrossOp) (mop : MutOp) (ov goal : Option ℚ) :
    advancedGA c spec sel op mop ov goal = handInit c spec mop ov c.earlyStop >>= fun p =>
      baseFitnessExec p.1 >>= fun _ => gaUpdate >>= fun _ => getGa >>= fun ga =>
      advancedLoop (singleOps p.1 sel op mop p.2) goal ga.numGenerations >>= fun _ => if c.isPrint then printBest else pure () := by
  unfold advancedGA advanced handInit
  simp only [bind_assoc_at]
  rfl

/-- The programs meant: after the preparations, generations with the components are made. -/
def ByHand (c : Cfg) (spec : PopSpec) (sel : SelOp) (op : CrossOp) (mop : MutOp) (ov : Option ℚ) (stop : Option Int)
    (prog : M ℚ Unit) : Prop :=
  ∀ s s', prog s = (.ok (), s') → ∃ p s0 k, handInit c spec mop ov stop s = (.ok p, s0) ∧
    After (singleOps p.1 sel op mop p.2) s0 k s'

theorem collectorGA_byHand : ByHand c spec sel op mop ov (some c.stop) (collectorGA c spec sel op mop ov) := by
  intro s s' h
  rw [collectorGA_eq] at h
  obtain ⟨p, s0, h1, h2⟩ := bind_ok.mp h
  obtain ⟨_, s9, h9, h10⟩ := bind_ok.mp h2
  obtain rfl := printBest_state h10
  obtain ⟨_, k, _, _, _, hk, _⟩ := evolve_after h9
  exact ⟨p, s0, k, h1, hk⟩

theorem ByHand.run {prog : M ℚ Unit} (hp : ByHand c spec sel op mop ov stop prog) (h : prog s = (.ok (), s')) :
    ∃ p s0 k, handInit c spec mop ov stop s = (.ok p, s0) ∧ HandRun c spec sel op mop ov stop s p.1 p.2 s0 k s' := by
  obtain ⟨p, s0, k, h1, h2⟩ := hp s s' h
  obtain ⟨a1, _, _, a4, a5, _⟩ := handInit_ok h1
  exact ⟨p, s0, k, h1, a1, a4, a5, h2⟩

theorem level_facade (h : LevelFor f.mutOp c.mutationLvl) : f.Level c.mutationLvl := by
  rcases h with h | ⟨h1, h2⟩
  · exact .inl h
  · refine .inr ⟨fun gens e => h1 ?_, h2⟩
    rw [e]; rfl

theorem byHand_late {prog : M ℚ Unit} (hprog : ByHand c f.spec sel op f.mutOp ov (some c.stop) prog) (ha : Composed f c op f.mutOp s)
    (hxa : c.arith = .exact) (hseed : s.seed = none) (hch : 1 ≤ c.children) (hun : f.Uncertain c.mutationLvl)
    {B : Nat} (hB : 0 < B) {δ : ℚ} (hδ : f.Odds B δ) {x : List Val} (hx : f.Point x) (n L : Nat) :
    chance B L (fun t => ∃ s', prog { s with tape := t } = (.ok (), s') ∧ n ≤ s'.ga.idxGeneration ∧
      ∀ l ∈ (generationsOf s').take n, ∀ y ∈ l, argument f.spec.hasPhenotype y ≠ some x) ≤ (1 - δ) ^ (n - 1) := by
  rcases Nat.eq_zero_or_pos n with rfl | hnpos
  · simpa using chance_le_one hB
  have h1 := hδ.le_one
  have hpow : 0 ≤ (1 - δ) ^ (n - 1) := pow_nonneg (by linarith) _
  have hT := handInit_tame c f.spec f.mutOp ov (some c.stop)
  have hexp := outcome_experiment hT.trim (s := s) hseed
  have htF : ∀ p : Fit ℚ × Transfer, Tame (baseFitnessExec p.1 >>= fun _ => gaUpdate : M ℚ Unit) := fun p =>
    (Tame.baseFitness p.1).bind fun _ => Tame.gaUpdate
  let next : (Fit ℚ × Transfer) × St ℚ → List Nat → Prop := fun b w =>
    ∃ c' v, EndsIn (baseFitnessExec b.1.1 >>= fun _ => gaUpdate : M ℚ Unit) b.2 w c' v ∧
      ∀ g, Encodes f b.2.ga.attrs g x → Avoids (singleOps b.1.1 sel op f.mutOp b.1.2) g (n - 1) { c'.2 with tape := v }
  have hbind : chance B L (fun t => ∃ b v, EndsIn (handInit c f.spec f.mutOp ov (some c.stop)) s t b v ∧ next b v) ≤
      (1 - δ) ^ (n - 1) * chance B L (fun t => ∃ b v, EndsIn (handInit c f.spec f.mutOp ov (some c.stop)) s t b v) := by
    refine chance_bind hB hexp ?_
    rintro t ⟨p, s0⟩ v ⟨e0, e1⟩ L
    simp only at e0 e1
    have hn0 : s0.seed = none := (hT.ext { s with tape := t } _ _ [] hseed e1).2
    obtain ⟨⟨sb, a1⟩, a4, a6, a7, _, _⟩ := handInit_ok e1
    have hset : SafeCore p.1 op f.mutOp p.2 (f.Geno s0.ga.attrs) { s0 with tape := v } :=
      assembled_core (ov := ov) (sa := { s with tape := t }) ⟨ha.genes, ha.operators, ha.input, ha.room, ha.two, ha.level, ha.transfer,
        ha.objective, ha.arith⟩ a1 a4 a6 a7
    obtain ⟨q1, hcr⟩ := a7.created
    obtain ⟨_, hd, _⟩ := createPopulation_ok hcr
    have hnum : s0.ga.attrs.numIndivid = c.numIndivid := hd.num
    have hprep : ∀ gray gens, s0.ga.attrs.spec = .binary gray gens → Prepared s0.ga.attrs gray gens := by
      intro gray gens e
      exact hd.prep gray gens (hd.spec_eq.symm.trans e)
    have hspec : s0.ga.attrs.spec = f.spec := hd.spec_eq
    have hpairs : numPairs s0.ga 1 = c.children := numPairs_children hnum a7.percent a7.arith
    have hex : s0.ga.attrs.arith = .exact := a7.arith.trans hxa
    -- a genotype of the point
    obtain ⟨g', hg'⟩ : ∃ g, Encodes f s0.ga.attrs g x := by
      have hph := hd.phen
      cases f with
      | combinatory a b k => exact hδ.elim
      | binary gray gens =>
        obtain ⟨g, g1, g2, g3⟩ := (C05_decode_exactly (hprep gray gens hspec) hex).mpr hx
        refine ⟨g, ⟨g1, g2⟩, fun _ => g3, fun hfalse => ?_⟩
        rw [hph.mpr ⟨gray, gens, rfl⟩] at hfalse
        cases hfalse
      | categorical gens =>
        refine ⟨x, hx, fun htrue => ?_, fun _ => rfl⟩
        obtain ⟨_, _, e⟩ := hph.mp htrue
        simp [SingleFacade.spec] at e
    -- the mutation of each generation
    have hlow : ∀ w k sk, After (singleOps p.1 sel op f.mutOp p.2) { s0 with tape := w } k sk →
        ∃ lvl, NextLvl f.mutOp sk lvl ∧ ∀ g0 p1 p2 g1, f.Geno s0.ga.attrs g0 → f.Geno s0.ga.attrs p1 → f.Geno s0.ga.attrs p2 →
          CrossResult ℚ op g0.length p1 p2 g1 →
          ∃ R, (Possible B R ∧ δ ≤ odds R) ∧ MutBy ℚ f.mutOp s0.ga.attrs.spec (lvl.effective s0.ga.attrs.arith) R g1 g' := by
      intro w k sk hk
      have hset' := hset.withTape w
      obtain ⟨l, l1, l2⟩ := a6
      rw [hxa, MutLvl.stored_exact] at l2
      obtain ⟨q, w0, w1, w2, w3⟩ := hset'.low_after (by
        have := f.low_start ha.genes (level_facade ha.level) hun l1 hspec hprep hex
        rw [← l2] at this
        rw [← hex] at this
        exact this) hk
      refine ⟨.float q, ⟨fun hop => (w2 hop).symm, fun hop => by rw [(hset'.inv hk).attrs]; exact w3 hop⟩, ?_⟩
      intro g0 p1 p2 g1 k0 k1 k2 hcr
      have hres := geno_closed_all ha.operators s0.ga.attrs .other g0 p1 p2 g1 g1 k0 k1 k2 hcr (.inl rfl)
      rw [hspec, hex, MutLvl.effective_exact]
      have hgx := hg'.1
      cases f with
      | combinatory a b k => exact hδ.elim
      | binary gray gens =>
        obtain ⟨d1, ns, d2, d3⟩ := hδ
        obtain ⟨R, r1, r2, r3⟩ := mutateBits_strikes (σ := ℚ) w0 w1 d1 hres.1 hgx.1 (hres.2.trans hgx.2.symm)
        refine ⟨R, ⟨r1, ?_⟩, r3⟩
        have hP := hprep gray gens hspec
        rw [r2, d3, hres.2, hP.total, gridBits_sum (hP.forall hex) d2]
      | categorical gens =>
        obtain ⟨d1, d2, d3⟩ := hδ
        obtain ⟨R, r1, r2, r3⟩ := mutateCat_strikes (σ := ℚ) w0 w1 d1 d2 hres hgx
        exact ⟨R, ⟨r1, d3 ▸ r2⟩, gens, rfl, r3⟩
    -- the first generation
    have hexp2 := outcome_experiment (htF p).trim (s := s0) hn0
    have hb2 := chance_bind hB (L := L) (c := (1 - δ) ^ (n - 1)) (G := EndsIn (baseFitnessExec p.1 >>= fun _ => gaUpdate : M ℚ Unit) s0)
      (ψ := fun (c' : Unit × St ℚ) v => Avoids (singleOps p.1 sel op f.mutOp p.2) g' (n - 1) { c'.2 with tape := v }) hexp2 (by
        rintro w ⟨u, a⟩ v' ⟨c0, c1⟩ L
        simp only at c0 c1
        obtain ⟨pre, _, kp⟩ := (htF p).trim { s0 with tape := w } _ _ hn0 c1
        refine (hset.withTape []).chance_avoids hn0 (by show 1 ≤ numPairs s0.ga 1; omega) hB h1 hlow (n - 1) 1 pre a (fun z => ?_) L
        obtain ⟨_, z1, z2, z3⟩ := bind_ok.mp (kp z)
        exact After.first z2 z3)
    refine le_trans (chance_mono ?_) (hb2.trans ?_)
    · rintro w ⟨c', v', c1, c2⟩
      exact ⟨c', v', c1, c2 g' hg'⟩
    · have := chance_le_one (p := fun t => ∃ b v, EndsIn (baseFitnessExec p.1 >>= fun _ => gaUpdate : M ℚ Unit) s0 t b v) (L := L) hB
      nlinarith
  refine le_trans (chance_mono ?_) (hbind.trans ?_)
  · rintro t ⟨s', h, hn, hno⟩
    obtain ⟨p, s0, k, hst, hr⟩ := hprog.run h
    obtain ⟨⟨sb, a1⟩, a4, a6, a7, _, _⟩ := handInit_ok hst
    have hk := hr.after
    have hops := singleOps_run p.1 sel op f.mutOp p.2
    have hset : SafeCore p.1 op f.mutOp p.2 (f.Geno s0.ga.attrs) s0 :=
      assembled_core (ov := ov) (sa := { s with tape := t }) ⟨ha.genes, ha.operators, ha.input, ha.room, ha.two, ha.level, ha.transfer,
        ha.objective, ha.arith⟩ a1 a4 a6 a7
    have hidx : s'.ga.idxGeneration = k := hr.idx
    obtain ⟨q1, hcr⟩ := a7.created
    obtain ⟨_, hd, _⟩ := createPopulation_ok hcr
    have hph := hd.phen
    obtain ⟨sn, hsn⟩ : ∃ sn, After (singleOps p.1 sel op f.mutOp p.2) s0 n sn := by
      obtain ⟨sn, e, _⟩ := hk.earlier hops a7.fresh (n - 1) (by omega)
      exact ⟨sn, by rwa [Nat.sub_add_cancel hnpos] at e⟩
    have key : ∀ g, Encodes f s0.ga.attrs g x → ∀ i si, After (singleOps p.1 sel op f.mutOp p.2) s0 i si → i ≤ n → ¬ Holds g si := by
      rintro g ⟨_, g2, g3⟩ i si hi hle ⟨r, hr, hrg⟩
      have hip := hi.pos
      have hmem : si.ga.population.map si.heap ∈ (generationsOf s').take n := by
        obtain ⟨si', e1, e2⟩ := hk.earlier hops a7.fresh (i - 1) (by omega)
        rw [Nat.sub_add_cancel hip] at e1
        rw [hi.unique e1] at e2
        refine List.mem_iff_getElem?.mpr ⟨i - 1, ?_⟩
        rw [List.getElem?_take_of_lt (by omega)]
        exact e2
      refine hno _ hmem (si.heap r) (List.mem_map_of_mem hr) ?_
      obtain ⟨g0, z1, _, z3⟩ := (hset.inv hi).good r hr
      rw [hrg] at z1
      injection z1 with z1
      subst z1
      cases f with
      | combinatory a b k => exact hδ.elim
      | binary gray gens =>
        have htrue := hph.mpr ⟨gray, gens, rfl⟩
        obtain ⟨ph, d1, d2⟩ := z3 htrue
        rw [g2 htrue] at d2
        injection d2 with d2
        show (si.heap r).phenotype = some x
        rw [d1, d2]
      | categorical gens =>
        have hfalse : s0.ga.attrs.isPhenotype = false := by
          rw [Bool.eq_false_iff]
          intro hp
          obtain ⟨_, _, e⟩ := hph.mp hp
          simp [SingleFacade.spec] at e
        show (si.heap r).genotype = some x
        rw [hrg, g3 hfalse]
    obtain ⟨fa, hfa⟩ := hk.one
    obtain ⟨b1, hb1⟩ : ∃ b1, (baseFitnessExec p.1 >>= fun _ => gaUpdate : M ℚ Unit) s0 = (.ok b1, fa) := by
      cases hfa with
      | first e1 e2 =>
        refine ⟨(), ?_⟩
        have e1 : baseFitnessExec p.1 s0 = _ := e1
        rw [bind_of_ok e1]
        exact e2
      | next e1 _ => exact absurd e1.pos (by omega)
    refine ⟨_, _, EndsIn.of_run hst, _, _, EndsIn.of_run (s := { s0 with tape := [] }) hb1, fun g hg => ?_⟩
    obtain ⟨a, ha1, ha2⟩ := hsn.avoids (key g hg) 0 trivial
    rw [← hfa.unique ha1]
    exact ha2.fewer (by omega)
  · have := chance_le_one (p := fun t => ∃ b v, EndsIn (handInit c f.spec f.mutOp ov (some c.stop)) s t b v) (L := L) hB
    nlinarith

theorem byHand_missed {prog : M ℚ Unit} (hprog : ByHand c f.spec sel op f.mutOp ov (some c.stop) prog) (ha : Composed f c op f.mutOp s)
    (hxa : c.arith = .exact) (hseed : s.seed = none) (hch : 1 ≤ c.children) (hun : f.Uncertain c.mutationLvl)
    {B : Nat} (hB : 0 < B) {δ : ℚ} (hδ : f.Odds B δ) {x : List Val} (hx : f.Point x) (n L : Nat) :
    chance B L (fun t => ∃ s', prog { s with tape := t } = (.ok (), s') ∧ n ≤ s'.ga.idxGeneration ∧ x ∉ evaluated s s') ≤
      (1 - δ) ^ (n - 1) := by
  refine le_trans (chance_mono ?_) (byHand_late hprog ha hxa hseed hch hun hB hδ hx n L)
  rintro t ⟨s', h, hn, hno⟩
  obtain ⟨p, s0, k, hst, hr⟩ := hprog.run h
  obtain ⟨_, _, _, m2⟩ := hr.budget
  refine ⟨s', h, hn, fun l hl y hy e => hno ?_⟩
  obtain ⟨z, z1, z2⟩ := m2 l (List.mem_of_mem_take hl) y hy
  rw [e] at z2
  injection z2 with z2
  exact z2 ▸ z1

theorem advancedGA_byHand {e : Int} (he : c.earlyStop = some e) :
    ByHand c spec sel op mop ov (some c.stop) (advancedGA c spec sel op mop ov goal) := by
  have hstop : c.earlyStop = some c.stop := by rw [Cfg.stop, he]; rfl
  intro s s' h
  rw [advancedGA_eq, hstop] at h
  obtain ⟨p, s0, h1, h2⟩ := bind_ok.mp h
  obtain ⟨_, s4, h9, h10⟩ := bind_ok.mp h2
  obtain ⟨_, s5, h11, h12⟩ := bind_ok.mp h10
  rw [bind_of_ok (getGa_run s5)] at h12
  obtain ⟨_, s6, h13, h14⟩ := bind_ok.mp h12
  have e6 : s6 = s' := by
    split at h14
    · exact (printBest_state h14).symm
    · exact (pure_ok.mp h14).2.symm
  subst e6
  obtain ⟨k, _, _, hk, _⟩ := advancedLoop_after (After.first (ops := singleOps p.1 sel op mop p.2) h9 h11) h13
  exact ⟨p, s0, _, h1, hk⟩

/-- C111: the draws of a program in collector mode are independent uniform numbers.  The chance that `optimize` returns after `n`
generations or more without having evaluated a given point of the search space is at most `(1 - δ) ^ (n - 1)`, whatever the selection
and the crossover; `δ` depends on the search space only. -/
theorem C111_missed (ha : Composed f c op f.mutOp s) (hxa : c.arith = .exact) (hseed : s.seed = none) (hch : 1 ≤ c.children)
    (hun : f.Uncertain c.mutationLvl) {B : Nat} (hB : 0 < B) {δ : ℚ} (hδ : f.Odds B δ) {x : List Val} (hx : f.Point x) (n L : Nat) :
    chance B L (fun t => ∃ s', collectorGA c f.spec sel op f.mutOp ov { s with tape := t } = (.ok (), s') ∧ n ≤ s'.ga.idxGeneration ∧
      x ∉ evaluated s s') ≤ (1 - δ) ^ (n - 1) :=
  byHand_missed collectorGA_byHand ha hxa hseed hch hun hB hδ hx n L

/-- C111: the same for the loop the README recommends for advanced mode. -/
theorem C111_advanced_missed {e : Int} (he : c.earlyStop = some e) (ha : Composed f c op f.mutOp s) (hxa : c.arith = .exact)
    (hseed : s.seed = none) (hch : 1 ≤ c.children) (hun : f.Uncertain c.mutationLvl) {B : Nat} (hB : 0 < B) {δ : ℚ} (hδ : f.Odds B δ)
    {x : List Val} (hx : f.Point x) (n L : Nat) :
    chance B L (fun t => ∃ s', advancedGA c f.spec sel op f.mutOp ov goal { s with tape := t } = (.ok (), s') ∧
      n ≤ s'.ga.idxGeneration ∧ x ∉ evaluated s s') ≤ (1 - δ) ^ (n - 1) :=
  byHand_missed (advancedGA_byHand he) ha hxa hseed hch hun hB hδ hx n L

/-- C111: in an unconstrained task the chance that the best individual found is worse than the point is bounded in the same way.
With `x` an optimum: the chance not to find an optimum. -/
theorem C111_optimum (ha : Composed f c op f.mutOp s) (hxa : c.arith = .exact) (hu : ¬ Constrained c s.conds) (hseed : s.seed = none)
    (hch : 1 ≤ c.children) (hun : f.Uncertain c.mutationLvl) {B : Nat} (hB : 0 < B) {δ : ℚ} (hδ : f.Odds B δ) {x : List Val}
    (hx : f.Point x) {o : ℚ} (ho : c.objective x = .ok (.sc o)) (n L : Nat) :
    chance B L (fun t => ∃ s', collectorGA c f.spec sel op f.mutOp ov { s with tape := t } = (.ok (), s') ∧ n ≤ s'.ga.idxGeneration ∧
      ¬ ∃ b g y ob, s'.ga.best = some (.single b g) ∧ argument f.spec.hasPhenotype (s'.heap b) = some y ∧
        c.objective y = .ok (.sc ob) ∧ cost ov ob ≤ cost ov o) ≤ (1 - δ) ^ (n - 1) := by
  refine le_trans (chance_mono ?_) (C111_missed (sel := sel) (ov := ov) ha hxa hseed hch hun hB hδ hx n L)
  rintro t ⟨s', h, hn, hbad⟩
  refine ⟨s', h, hn, fun hmem => hbad ?_⟩
  obtain ⟨b, g, y, ob, b1, b2, _, b4, _, b6⟩ := C110_best_of_all (s := { s with tape := t }) hxa hu h
  obtain ⟨o', o1, o2⟩ := b6 x hmem
  rw [ho] at o1
  injection o1 with o1
  injection o1 with o1
  subst o1
  exact ⟨b, g, y, ob, b1, b2, b4, o2⟩

theorem C111_advanced_optimum {e : Int} (he : c.earlyStop = some e) (ha : Composed f c op f.mutOp s) (hxa : c.arith = .exact)
    (hu : ¬ Constrained c s.conds) (hseed : s.seed = none) (hch : 1 ≤ c.children) (hun : f.Uncertain c.mutationLvl) {B : Nat}
    (hB : 0 < B) {δ : ℚ} (hδ : f.Odds B δ) {x : List Val} (hx : f.Point x) {o : ℚ} (ho : c.objective x = .ok (.sc o)) (n L : Nat) :
    chance B L (fun t => ∃ s', advancedGA c f.spec sel op f.mutOp ov goal { s with tape := t } = (.ok (), s') ∧
      n ≤ s'.ga.idxGeneration ∧
      ¬ ∃ b g y ob, s'.ga.best = some (.single b g) ∧ argument f.spec.hasPhenotype (s'.heap b) = some y ∧
        c.objective y = .ok (.sc ob) ∧ cost ov ob ≤ cost ov o) ≤ (1 - δ) ^ (n - 1) := by
  refine le_trans (chance_mono ?_) (C111_advanced_missed (sel := sel) (ov := ov) (goal := goal) he ha hxa hseed hch hun hB hδ hx n L)
  rintro t ⟨s', h, hn, hbad⟩
  refine ⟨s', h, hn, fun hmem => hbad ?_⟩
  obtain ⟨b, g, y, ob, b1, b2, _, b4, _, b6⟩ := C109_best_of_all (s := { s with tape := t }) hxa hu h
  obtain ⟨o', o1, o2⟩ := b6 x hmem
  rw [ho] at o1
  injection o1 with o1
  injection o1 with o1
  subst o1
  exact ⟨b, g, y, ob, b1, b2, b4, o2⟩

end

/-- C111: with enough generations the chance to miss the point is as small as one likes.  How many are enough depends on the search
space and on that chance only, not on the selection, the crossover, the size of the population or the objective. -/
theorem C111_vanishes {f : SingleFacade} {B : Nat} (hB : 0 < B) {δ : ℚ} (hδ : f.Odds B δ) {ε : ℚ} (hε : 0 < ε) :
    ∃ N, ∀ {c : Cfg} {sel : SelOp} {op : CrossOp} {ov : Option ℚ} {s : St ℚ} {x : List Val}, Composed f c op f.mutOp s →
      c.arith = .exact → s.seed = none → 1 ≤ c.children → f.Uncertain c.mutationLvl → f.Point x → c.earlyStop = none →
      N ≤ c.numGenerations → ∀ L, chance B L (fun t => ∃ s', collectorGA c f.spec sel op f.mutOp ov { s with tape := t } = (.ok (), s') ∧
        x ∉ evaluated s s') ≤ ε := by
  by_cases hu : f.Usable
  · have hpos := hδ.pos hu
    have hle := hδ.le_one
    obtain ⟨N, hN⟩ := exists_pow_lt_of_lt_one hε (show 1 - δ < 1 by linarith)
    refine ⟨N + 1, fun {c sel op ov s x} ha hxa hseed hch hun hx hes hlen L => ?_⟩
    refine le_trans (chance_mono ?_) ((C111_missed (sel := sel) (ov := ov) ha hxa hseed hch hun hB hδ hx (N + 1) L).trans ?_)
    · rintro t ⟨s', h, hno⟩
      refine ⟨s', h, ?_, hno⟩
      rw [(C110_stops h).2.2.1 hes]
      omega
    · exact hN.le
  · exact ⟨0, fun {c sel op ov s x} ha => absurd ha.genes hu⟩

/-! ## a concrete case -/

theorem exSum_composed (m : Nat) (e : Option Int) : Composed (.binary true [⟨0, 3, 1⟩, ⟨-1, 1, 1 / 2⟩])
    { exSumCfg with numGenerations := m, earlyStop := e } .uniform .binString {} where
  genes := exSum_admissible.genes
  operators := ⟨.inr (.inr rfl), .inl rfl, by simp⟩
  input := exSum_admissible.input
  room := exSum_admissible.room
  two := by simp [exSumCfg]
  level := .inr ⟨by simp, by simp [exSumCfg]⟩
  transfer := exSum_admissible.transfer
  objective := exSum_admissible.objective
  arith := exSum_admissible.arith

/-- Ranked selection and uniform crossover, combined by `CollectorGA`: `m` generations after the first. -/
example (m L : Nat) : chance 1000 L (fun t => ∃ s', collectorGA { exSumCfg with numGenerations := m + 1, earlyStop := none }
      (.binary true [⟨0, 3, 1⟩, ⟨-1, 1, 1 / 2⟩]) .ranked .uniform .binString none { tape := t } = (.ok (), s') ∧
      [.num 0, .num (-1)] ∉ evaluated {} s') ≤ (1 - (1 / 1000) ^ 5) ^ m := by
  refine le_trans (chance_mono ?_) (C111_missed (f := .binary true [⟨0, 3, 1⟩, ⟨-1, 1, 1 / 2⟩]) (s := {}) (sel := .ranked) (ov := none)
    (exSum_composed (m + 1) none) rfl rfl
    (show 1 ≤ exSumCfg.children by decide +kernel) exSum_uncertain (by norm_num) exSum_odds exSum_point (m + 1) L)
  rintro t ⟨s', h, hno⟩
  refine ⟨s', h, ?_, hno⟩
  rw [(C110_stops h).2.2.1 rfl]
  exact le_max_right _ _

/-- The loop of the README with the roulette, `early_stop=4` and the target 5. -/
example (m n L : Nat) : chance 1000 L (fun t => ∃ s', advancedGA { exSumCfg with numGenerations := m, earlyStop := some 4 }
      (.binary true [⟨0, 3, 1⟩, ⟨-1, 1, 1 / 2⟩]) .balanced .uniform .binString (some 5) none { tape := t } = (.ok (), s') ∧
      n ≤ s'.ga.idxGeneration ∧ [.num 0, .num (-1)] ∉ evaluated {} s') ≤ (1 - (1 / 1000) ^ 5) ^ (n - 1) :=
  C111_advanced_missed (f := .binary true [⟨0, 3, 1⟩, ⟨-1, 1, 1 / 2⟩]) (s := {}) (e := 4) rfl
    (exSum_composed m (some 4)) rfl rfl (show 1 ≤ exSumCfg.children by decide +kernel) exSum_uncertain (by norm_num) exSum_odds exSum_point n L

end BaumEva
