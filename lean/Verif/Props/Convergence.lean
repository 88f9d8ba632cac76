import Verif.Proofs.Strike
import Verif.Props.Optimum
import Mathlib.Order.Filter.AtTopBot.Archimedean
/-!
# C107: a point of the search space is missed with vanishing probability
-/
namespace BaumEva
open Spec

/-- A lower bound `δ` for the chance that a mutation produces a given point, whatever it starts from, and a range `B` of
the random numbers for which the draws of the mutation are uniform: each bit of a binary individual has to be flipped or
spared (one of 1000 numbers each), each categorical gene has to become one of its values. -/
def SingleFacade.Odds : SingleFacade → Nat → ℚ → Prop
  | .binary _ gens, B, δ => 1000 ∣ B ∧ ∃ ns, List.Forall₂ GridBits gens ns ∧ δ = (1 / 1000) ^ ns.sum
  | .categorical gens, B, δ => 1000 ∣ B ∧ (∀ p ∈ gens, ∀ m, 0 < m → m ≤ valuesBound p → m ∣ B) ∧
      δ = (gens.map fun p => 1 / (1000 * (valuesBound p : ℚ))).prod
  | .combinatory _ _ _, _, _ => False

theorem SingleFacade.Odds.le_one {f : SingleFacade} {B : Nat} {δ : ℚ} (h : f.Odds B δ) : δ ≤ 1 := by
  cases f with
  | combinatory _ _ _ => exact h.elim
  | binary _ gens =>
    obtain ⟨_, ns, _, rfl⟩ := h
    exact pow_le_one₀ (by norm_num) (by norm_num)
  | categorical gens =>
    obtain ⟨_, _, rfl⟩ := h
    have : ∀ l : List CatGene, 0 ≤ (l.map fun p => 1 / (1000 * (valuesBound p : ℚ))).prod ∧
        (l.map fun p => 1 / (1000 * (valuesBound p : ℚ))).prod ≤ 1 := by
      intro l
      induction l with
      | nil => simp
      | cons a l ih =>
        rw [List.map_cons, List.prod_cons]
        have h1 : 1 / (1000 * (valuesBound a : ℚ)) ≤ 1 := by
          rcases Nat.eq_zero_or_pos (valuesBound a) with e | e
          · rw [e]; norm_num
          · have e : (1 : ℚ) ≤ valuesBound a := by exact_mod_cast e
            rw [div_le_one (by linarith)]
            linarith
        exact ⟨mul_nonneg (by positivity) ih.1, mul_le_one₀ h1 ih.1 ih.2⟩
    exact (this gens).2

theorem valuesBound_pos {p : CatGene} {v : Val} (h : InPool p v) : 0 < valuesBound p := by
  cases p with
  | range lo hi step => simp [valuesBound]
  | values l => exact List.length_pos_of_mem h
  | other => exact h.elim

theorem SingleFacade.Odds.pos {f : SingleFacade} {B : Nat} {δ : ℚ} (h : f.Odds B δ) (hu : f.Usable) : 0 < δ := by
  cases f with
  | combinatory _ _ _ => exact h.elim
  | binary _ gens =>
    obtain ⟨_, ns, _, rfl⟩ := h
    positivity
  | categorical gens =>
    obtain ⟨_, _, rfl⟩ := h
    have : ∀ l : List CatGene, (∀ p ∈ l, 0 < valuesBound p) → 0 < (l.map fun p => 1 / (1000 * (valuesBound p : ℚ))).prod := by
      intro l
      induction l with
      | nil => simp
      | cons a l ih =>
        intro hl
        rw [List.map_cons, List.prod_cons]
        have : (0 : ℚ) < valuesBound a := by exact_mod_cast hl a List.mem_cons_self
        exact mul_pos (by positivity) (ih fun p hp => hl p (List.mem_cons_of_mem _ hp))
    refine this gens fun p hp => ?_
    obtain ⟨⟨v, hv⟩, _⟩ := hu p hp
    exact valuesBound_pos hv

/-- `g` encodes the point `x`. -/
def Encodes (f : SingleFacade) (at_ : Attrs) (g x : List Val) : Prop :=
  f.Geno at_ g ∧ (at_.isPhenotype = true → decodeIndivid at_ g = .ok x) ∧ (at_.isPhenotype = false → g = x)

theorem Avoids.fewer {σ : Type} {ops : Ops σ} {g : List Val} : ∀ {n m : Nat} {s : St σ}, m ≤ n → Avoids ops g n s → Avoids ops g m s := by
  intro n
  induction n with
  | zero =>
    intro m s hm h
    cases m with
    | zero => exact h
    | succ m => omega
  | succ n ih =>
    intro m s hm h
    cases m with
    | zero => trivial
    | succ m =>
      obtain ⟨s', a, b, c⟩ := h
      exact ⟨s', a, b, ih (by omega) c⟩

theorem After.snaps_grow {fit : Fit ℚ} {sel : SelOp} {op : CrossOp} {mop : MutOp} {tr : Transfer} {s0 s : St ℚ} {k : Nat}
    (h : After (singleOps fit sel op mop tr) s0 k s) :
    ∀ i si, After (singleOps fit sel op mop tr) s0 i si → i ≤ k → si.snaps <+: s.snaps := by
  induction h with
  | first h1 h2 =>
    intro i si hi hle
    obtain rfl : i = 1 := by have := hi.pos; omega
    rw [(After.first h1 h2).unique hi]
  | @next k s s' h1 h2 ih =>
    intro i si hi hle
    rcases Nat.lt_or_ge k i with hlt | hge
    · obtain rfl : i = k + 1 := by omega
      rw [(After.next h1 h2).unique hi]
    · refine (ih i si hi hge).trans ?_
      have := (generation_keeps grows_steady.step (single_grows fit sel op mop tr) s).snaps
      rw [h2] at this
      exact this

/-- C107: the draws of a run of `BinaryGA` or `CategoricalGA` are independent uniform numbers.  The chance that the run
returns after `n` generations or more, and a given point of the search space is not among the individuals of the first `n`, is at
most `(1 - δ) ^ (n - 1)`, where `δ` depends on the search space only. -/
theorem C107_late {f : SingleFacade} {c : Cfg} {ov : Option ℚ} {s : St ℚ} (ha : Admissible f c s.conds)
    (hxa : c.arith = .exact) (hseed : s.seed = none) (hch : 1 ≤ c.children) (hun : f.Uncertain c.mutationLvl)
    {B : Nat} (hB : 0 < B) {δ : ℚ} (hδ : f.Odds B δ) {x : List Val} (hx : f.Point x) (n L : Nat) :
    chance B L (fun t => ∃ s', f.optimize c ov { s with tape := t } = (.ok (), s') ∧ n ≤ s'.ga.idxGeneration ∧
      ∀ l ∈ (generationsOf s').take n, ∀ y ∈ l, argument f.spec.hasPhenotype y ≠ some x) ≤ (1 - δ) ^ (n - 1) := by
  rcases Nat.eq_zero_or_pos n with rfl | hnpos
  · simpa using chance_le_one hB
  have h1 := hδ.le_one
  have hpow : 0 ≤ (1 - δ) ^ (n - 1) := pow_nonneg (by linarith) _
  set task := hyperbolaTask c.obj1 c.obj2 c.inputTruthy c.penalty ov c.arith with htask
  have hT := startUp_tame c f.spec task f.mutOp
  have hexp := outcome_experiment hT.trim (s := s) hseed
  have htF : ∀ p : Fit ℚ × Transfer, Tame (baseFitnessExec p.1 >>= fun _ => gaUpdate : M ℚ Unit) := fun p =>
    (Tame.baseFitness p.1).bind fun _ => Tame.gaUpdate
  let next : (Fit ℚ × Transfer) × St ℚ → List Nat → Prop := fun b w =>
    ∃ c' v, EndsIn (baseFitnessExec b.1.1 >>= fun _ => gaUpdate : M ℚ Unit) b.2 w c' v ∧
      ∀ g, Encodes f b.2.ga.attrs g x → Avoids (f.ops c b.1) g (n - 1) { c'.2 with tape := v }
  have hbind : chance B L (fun t => ∃ b v, EndsIn (startUp c f.spec task f.mutOp) s t b v ∧ next b v) ≤
      (1 - δ) ^ (n - 1) * chance B L (fun t => ∃ b v, EndsIn (startUp c f.spec task f.mutOp) s t b v) := by
    refine chance_bind hB hexp ?_
    rintro t ⟨p, s0⟩ v ⟨e0, e1⟩ L
    simp only at e0 e1
    have hn0 : s0.seed = none := (hT.ext { s with tape := t } _ _ [] hseed e1).2
    obtain ⟨sa, sb, a1, a2, _, a4, a5, a6, a7⟩ := startUp_ok e1
    have hset : SafeSetup p.1 (.tournament c.tournamentSize) f.cross f.mutOp p.2 (f.Geno s0.ga.attrs) { s0 with tape := v } :=
      run_safe (ov := ov) (sa := sa) (sb := sb) (by rw [a2]; exact ha) a1 a4 a6 a7
    obtain ⟨q1, hcr⟩ := a7.created
    obtain ⟨_, hd, _⟩ := createPopulation_ok hcr
    have hnum : s0.ga.attrs.numIndivid = c.numIndivid := hd.num
    have hprep : ∀ gray gens, s0.ga.attrs.spec = .binary gray gens → Prepared s0.ga.attrs gray gens := by
      intro gray gens e
      exact hd.prep gray gens (hd.spec_eq.symm.trans e)
    have hspec : s0.ga.attrs.spec = f.spec := hd.spec_eq
    have hpairs : numPairs s0.ga 1 = c.children := numPairs_children hnum a7.percent a7.arith
    have hex : s0.ga.attrs.arith = .exact := a7.arith.trans hxa
    -- a genotype of the point
    obtain ⟨g', hg'⟩ : ∃ g, Encodes f s0.ga.attrs g x := by
      have hph := hd.phen
      cases f with
      | combinatory a b k => exact hδ.elim
      | binary gray gens =>
        obtain ⟨g, g1, g2, g3⟩ := (C05_decode_exactly (hprep gray gens hspec) hex).mpr hx
        refine ⟨g, ⟨g1, g2⟩, fun _ => g3, fun hfalse => ?_⟩
        rw [hph.mpr ⟨gray, gens, rfl⟩] at hfalse
        cases hfalse
      | categorical gens =>
        refine ⟨x, hx, fun htrue => ?_, fun _ => rfl⟩
        obtain ⟨_, _, e⟩ := hph.mp htrue
        simp [SingleFacade.spec] at e
    -- the mutation of each generation
    have hlow : ∀ w k sk, After (singleOps p.1 (.tournament c.tournamentSize) f.cross f.mutOp p.2) { s0 with tape := w } k sk →
        ∃ lvl, NextLvl f.mutOp sk lvl ∧ ∀ g0 p1 p2 g1, f.Geno s0.ga.attrs g0 → f.Geno s0.ga.attrs p1 → f.Geno s0.ga.attrs p2 →
          CrossResult ℚ f.cross g0.length p1 p2 g1 →
          ∃ R, (Possible B R ∧ δ ≤ odds R) ∧ MutBy ℚ f.mutOp s0.ga.attrs.spec (lvl.effective s0.ga.attrs.arith) R g1 g' := by
      intro w k sk hk
      have hset' := hset.withTape w
      obtain ⟨l, l1, l2⟩ := a6
      rw [hxa, MutLvl.stored_exact] at l2
      obtain ⟨q, w0, w1, w2, w3⟩ := hset'.toSafeCore.low_after (by
        have := f.low_start ha.genes ha.level hun l1 hspec hprep hex
        rw [← l2] at this
        rw [← hex] at this
        exact this) hk
      refine ⟨.float q, ⟨fun hop => (w2 hop).symm, fun hop => by rw [(hset'.inv hk).attrs]; exact w3 hop⟩, ?_⟩
      intro g0 p1 p2 g1 k0 k1 k2 hcr
      have hres := f.geno_closed s0.ga.attrs .other g0 p1 p2 g1 g1 k0 k1 k2 hcr (.inl rfl)
      rw [hspec, hex, MutLvl.effective_exact]
      have hgx := hg'.1
      cases f with
      | combinatory a b k => exact hδ.elim
      | binary gray gens =>
        obtain ⟨d1, ns, d2, d3⟩ := hδ
        obtain ⟨R, r1, r2, r3⟩ := mutateBits_strikes (σ := ℚ) w0 w1 d1 hres.1 hgx.1 (hres.2.trans hgx.2.symm)
        refine ⟨R, ⟨r1, ?_⟩, r3⟩
        have hP := hprep gray gens hspec
        rw [r2, d3, hres.2, hP.total, gridBits_sum (hP.forall hex) d2]
      | categorical gens =>
        obtain ⟨d1, d2, d3⟩ := hδ
        obtain ⟨R, r1, r2, r3⟩ := mutateCat_strikes (σ := ℚ) w0 w1 d1 d2 hres hgx
        exact ⟨R, ⟨r1, d3 ▸ r2⟩, gens, rfl, r3⟩
    -- the first generation
    have hexp2 := outcome_experiment (htF p).trim (s := s0) hn0
    have hb2 := chance_bind hB (L := L) (c := (1 - δ) ^ (n - 1)) (G := EndsIn (baseFitnessExec p.1 >>= fun _ => gaUpdate : M ℚ Unit) s0)
      (ψ := fun (c' : Unit × St ℚ) v => Avoids (f.ops c p) g' (n - 1) { c'.2 with tape := v }) hexp2 (by
        rintro w ⟨u, a⟩ v' ⟨c0, c1⟩ L
        simp only at c0 c1
        obtain ⟨pre, _, kp⟩ := (htF p).trim { s0 with tape := w } _ _ hn0 c1
        refine (hset.withTape []).toSafeCore.chance_avoids hn0 (by show 1 ≤ numPairs s0.ga 1; omega) hB h1 hlow (n - 1) 1 pre a (fun z => ?_) L
        obtain ⟨_, z1, z2, z3⟩ := bind_ok.mp (kp z)
        exact After.first z2 z3)
    refine le_trans (chance_mono ?_) (hb2.trans ?_)
    · rintro w ⟨c', v', c1, c2⟩
      exact ⟨c', v', c1, c2 g' hg'⟩
    · have := chance_le_one (p := fun t => ∃ b v, EndsIn (baseFitnessExec p.1 >>= fun _ => gaUpdate : M ℚ Unit) s0 t b v) (L := L) hB
      nlinarith
  refine le_trans (chance_mono ?_) (hbind.trans ?_)
  · rintro t ⟨s', h, hn, hno⟩
    rw [f.optimize_eq] at h
    obtain ⟨p, s0, hst, h2⟩ := bind_ok.mp h
    obtain ⟨sa, sb, a1, a2, _, a4, a5, a6, a7⟩ := startUp_ok hst
    have hops := singleOps_run p.1 (.tournament c.tournamentSize) f.cross f.mutOp p.2
    obtain ⟨k, hk⟩ : ∃ k, After (f.ops c p) s0 k s' := by
      obtain ⟨_, sx, h3, h4⟩ := bind_ok.mp h2
      obtain ⟨_, k, _, _, _, hk, _⟩ := evolve_after h3
      obtain ⟨b, g, v, r, t1, _⟩ := (hk.inv hops a7.fresh).top
      have : sx = s' := by
        split at h4
        · unfold printBest at h4
          rw [bind_of_ok (getS_run sx), t1] at h4
          exact (pure_ok.mp h4).2.symm
        · exact (pure_ok.mp h4).2.symm
      exact ⟨k, this ▸ hk⟩
    have hset : SafeSetup p.1 (.tournament c.tournamentSize) f.cross f.mutOp p.2 (f.Geno s0.ga.attrs) s0 :=
      run_safe (ov := ov) (sa := sa) (sb := sb) (by rw [a2]; exact ha) a1 a4 a6 a7
    have hidx : s'.ga.idxGeneration = k := (hk.inv hops a7.fresh).hist.idx
    obtain ⟨q1, hcr⟩ := a7.created
    obtain ⟨_, hd, _⟩ := createPopulation_ok hcr
    have hph := hd.phen
    obtain ⟨sn, hsn⟩ : ∃ sn, After (f.ops c p) s0 n sn := by
      obtain ⟨sn, e, _⟩ := hk.earlier hops a7.fresh (n - 1) (by omega)
      exact ⟨sn, by rwa [Nat.sub_add_cancel hnpos] at e⟩
    have key : ∀ g, Encodes f s0.ga.attrs g x → ∀ i si, After (f.ops c p) s0 i si → i ≤ n → ¬ Holds g si := by
      rintro g ⟨_, g2, g3⟩ i si hi hle ⟨r, hr, hrg⟩
      have hip := hi.pos
      have hmem : si.ga.population.map si.heap ∈ (generationsOf s').take n := by
        obtain ⟨si', e1, e2⟩ := hk.earlier hops a7.fresh (i - 1) (by omega)
        rw [Nat.sub_add_cancel hip] at e1
        rw [hi.unique e1] at e2
        refine List.mem_iff_getElem?.mpr ⟨i - 1, ?_⟩
        rw [List.getElem?_take_of_lt (by omega)]
        exact e2
      refine hno _ hmem (si.heap r) (List.mem_map_of_mem hr) ?_
      obtain ⟨g0, z1, _, z3⟩ := (hset.inv hi).good r hr
      rw [hrg] at z1
      injection z1 with z1
      subst z1
      cases f with
      | combinatory a b k => exact hδ.elim
      | binary gray gens =>
        have htrue := hph.mpr ⟨gray, gens, rfl⟩
        obtain ⟨ph, d1, d2⟩ := z3 htrue
        rw [g2 htrue] at d2
        injection d2 with d2
        show (si.heap r).phenotype = some x
        rw [d1, d2]
      | categorical gens =>
        have hfalse : s0.ga.attrs.isPhenotype = false := by
          rw [Bool.eq_false_iff]
          intro hp
          obtain ⟨_, _, e⟩ := hph.mp hp
          simp [SingleFacade.spec] at e
        show (si.heap r).genotype = some x
        rw [hrg, g3 hfalse]
    obtain ⟨fa, hfa⟩ := hk.one
    obtain ⟨b1, hb1⟩ : ∃ b1, (baseFitnessExec p.1 >>= fun _ => gaUpdate : M ℚ Unit) s0 = (.ok b1, fa) := by
      cases hfa with
      | first e1 e2 =>
        refine ⟨(), ?_⟩
        have e1 : baseFitnessExec p.1 s0 = _ := e1
        rw [bind_of_ok e1]
        exact e2
      | next e1 _ => exact absurd e1.pos (by omega)
    refine ⟨_, _, EndsIn.of_run hst, _, _, EndsIn.of_run (s := { s0 with tape := [] }) hb1, fun g hg => ?_⟩
    obtain ⟨a, ha1, ha2⟩ := hsn.avoids (key g hg) 0 trivial
    rw [← hfa.unique ha1]
    exact ha2.fewer (by omega)
  · have := chance_le_one (p := fun t => ∃ b v, EndsIn (startUp c f.spec task f.mutOp) s t b v) (L := L) hB
    nlinarith

/-- C107: the chance that the run returns after `n` generations or more without having evaluated a given point of the search space. -/
theorem C107_missed {f : SingleFacade} {c : Cfg} {ov : Option ℚ} {s : St ℚ} (ha : Admissible f c s.conds)
    (hxa : c.arith = .exact) (hseed : s.seed = none) (hch : 1 ≤ c.children) (hun : f.Uncertain c.mutationLvl)
    {B : Nat} (hB : 0 < B) {δ : ℚ} (hδ : f.Odds B δ) {x : List Val} (hx : f.Point x) (n L : Nat) :
    chance B L (fun t => ∃ s', f.optimize c ov { s with tape := t } = (.ok (), s') ∧ n ≤ s'.ga.idxGeneration ∧
      x ∉ evaluated s s') ≤ (1 - δ) ^ (n - 1) := by
  refine le_trans (chance_mono ?_) (C107_late (ov := ov) ha hxa hseed hch hun hB hδ hx n L)
  rintro t ⟨s', h, hn, hno⟩
  obtain ⟨_, _, _, m2⟩ := C71_budget h
  refine ⟨s', h, hn, fun l hl y hy e => hno ?_⟩
  obtain ⟨z, z1, z2⟩ := m2 l (List.mem_of_mem_take hl) y hy
  rw [e] at z2
  injection z2 with z2
  exact z2 ▸ z1

/-- C107: in an unconstrained task the chance that the best individual returned is worse than the point is bounded in the
same way.  With `x` an optimum: the chance not to return an optimum. -/
theorem C107_optimum {f : SingleFacade} {c : Cfg} {ov : Option ℚ} {s : St ℚ} (ha : Admissible f c s.conds)
    (hxa : c.arith = .exact) (hu : ¬ Constrained c s.conds) (hseed : s.seed = none) (hch : 1 ≤ c.children)
    (hun : f.Uncertain c.mutationLvl) {B : Nat} (hB : 0 < B) {δ : ℚ} (hδ : f.Odds B δ) {x : List Val} (hx : f.Point x) {o : ℚ}
    (ho : c.objective x = .ok (.sc o)) (n L : Nat) :
    chance B L (fun t => ∃ s', f.optimize c ov { s with tape := t } = (.ok (), s') ∧ n ≤ s'.ga.idxGeneration ∧
      ¬ ∃ b g y ob, s'.ga.best = some (.single b g) ∧ argument f.spec.hasPhenotype (s'.heap b) = some y ∧
        c.objective y = .ok (.sc ob) ∧ cost ov ob ≤ cost ov o) ≤ (1 - δ) ^ (n - 1) := by
  refine le_trans (chance_mono ?_) (C107_missed (ov := ov) ha hxa hseed hch hun hB hδ hx n L)
  rintro t ⟨s', h, hn, hbad⟩
  refine ⟨s', h, hn, fun hmem => hbad ?_⟩
  obtain ⟨b, g, y, ob, b1, b2, _, b4, _, b6⟩ := C72_best_of_all (s := { s with tape := t }) hxa hu h
  obtain ⟨o', o1, o2⟩ := b6 x hmem
  rw [ho] at o1
  injection o1 with o1
  injection o1 with o1
  subst o1
  exact ⟨b, g, y, ob, b1, b2, b4, o2⟩

/-- C107: the longer the run, the smaller the chance to miss the point, and it tends to 0.  The number of generations that
is enough depends on the search space and on the chance one is ready to take, and on nothing else of the call. -/
theorem C107_vanishes {f : SingleFacade} {B : Nat} (hB : 0 < B) {δ : ℚ} (hδ : f.Odds B δ) {ε : ℚ} (hε : 0 < ε) :
    ∃ N, ∀ {c : Cfg} {ov : Option ℚ} {s : St ℚ} {x : List Val}, Admissible f c s.conds → c.arith = .exact → s.seed = none →
      1 ≤ c.children → f.Uncertain c.mutationLvl → f.Point x → c.earlyStop = none → N ≤ c.numGenerations →
      ∀ L, chance B L (fun t => ∃ s', f.optimize c ov { s with tape := t } = (.ok (), s') ∧ x ∉ evaluated s s') ≤ ε := by
  by_cases hu : f.Usable
  · have hpos := hδ.pos hu
    have hle := hδ.le_one
    obtain ⟨N, hN⟩ := exists_pow_lt_of_lt_one hε (show 1 - δ < 1 by linarith)
    refine ⟨N + 1, fun {c ov s x} ha hxa hseed hch hun hx hes hlen L => ?_⟩
    refine le_trans (chance_mono ?_) ((C107_missed (ov := ov) ha hxa hseed hch hun hB hδ hx (N + 1) L).trans ?_)
    · rintro t ⟨s', h, hno⟩
      refine ⟨s', h, ?_, hno⟩
      rw [(C46_facades h).2.2.1 hes]
      omega
    · exact hN.le
  · exact ⟨0, fun {c ov s x} ha => absurd ha.genes hu⟩

/-! ## A concrete case -/

theorem exSum_odds : SingleFacade.Odds (.binary true [⟨0, 3, 1⟩, ⟨-1, 1, 1 / 2⟩]) 1000 ((1 / 1000) ^ 5) := by
  have h3 : ⌊|(3 : ℚ) - 0| / 1⌋ = 3 := by norm_num
  have h4 : ⌊|(1 : ℚ) - (-1)| / (1 / 2)⌋ = 4 := by norm_num
  refine ⟨dvd_rfl, [2, 3], .cons ⟨?_, ?_⟩ (.cons ⟨?_, ?_⟩ .nil), rfl⟩
  · simp only [h3]; norm_num
  · intro m hm
    simp only [h3] at hm
    by_contra hlt
    obtain h | h : m = 0 ∨ m = 1 := by omega
    all_goals subst h; norm_num at hm
  · simp only [h4]; norm_num
  · intro m hm
    simp only [h4] at hm
    by_contra hlt
    obtain h | h | h : m = 0 ∨ m = 1 ∨ m = 2 := by omega
    all_goals subst h; norm_num at hm

theorem exSum_point : SingleFacade.Point (.binary true [⟨0, 3, 1⟩, ⟨-1, 1, 1 / 2⟩]) [.num 0, .num (-1)] := by
  obtain ⟨_, ns, hns, _⟩ := exSum_odds
  cases hns with
  | cons a b =>
    cases b with
    | cons b c =>
      exact .cons ⟨_, 0, a, by positivity, by norm_num⟩ (.cons ⟨_, 0, b, by positivity, by norm_num⟩ .nil)

theorem exSum_longer (m : Nat) : Admissible (.binary true [⟨0, 3, 1⟩, ⟨-1, 1, 1 / 2⟩])
    { exSumCfg with numGenerations := m, earlyStop := none } none where
  genes := exSum_admissible.genes
  input := exSum_admissible.input
  room := exSum_admissible.room
  size := exSum_admissible.size
  size_lt := exSum_admissible.size_lt
  level := exSum_admissible.level
  transfer := exSum_admissible.transfer
  objective := exSum_admissible.objective
  arith := exSum_admissible.arith

/-- The sum of two numbers from `{0, 1, 2, 3}` and `{-1, -5/7, …, 1}` is to be minimised in exactly `m` generations. -/
example (m L : Nat) : chance 1000 L (fun t => ∃ s', (SingleFacade.binary true [⟨0, 3, 1⟩, ⟨-1, 1, 1 / 2⟩]).optimize
      { exSumCfg with numGenerations := m + 1, earlyStop := none } none { tape := t } = (.ok (), s') ∧
      [.num 0, .num (-1)] ∉ evaluated {} s') ≤ (1 - (1 / 1000) ^ 5) ^ m := by
  refine le_trans (chance_mono ?_) (C107_missed (s := {}) (ov := none) (exSum_longer (m + 1)) rfl rfl
    (show 1 ≤ exSumCfg.children by decide +kernel) exSum_uncertain (by norm_num) exSum_odds exSum_point (m + 1) L)
  rintro t ⟨s', h, hno⟩
  refine ⟨s', h, ?_, hno⟩
  rw [(C46_facades h).2.2.1 rfl]
  exact le_max_right _ _

end BaumEva
