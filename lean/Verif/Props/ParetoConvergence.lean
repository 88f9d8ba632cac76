import Verif.Proofs.StrikeMulti
import Verif.Props.Convergence
import Verif.Props.MultiSure
/-!
# C114: multi-objective runs come to every point, and FFGA to the Pareto front
-/
namespace BaumEva
open Spec
variable {σ : Type}

theorem After.multi_recorded [DecidableEq σ] {ops : Ops σ} {fit : Fit σ} {op : CrossOp} {mop : MutOp} {s0 s : St σ} {k : Nat}
    (hops : MultiRun ops fit op mop) (h0 : Fresh s0) (h : After ops s0 k s) :
    ∀ i, i < k → ∃ si, After ops s0 (i + 1) si ∧ s.snaps[i]? = some (si.ga.population.map si.heap) := by
  have now : ∀ {k s}, After ops s0 (k + 1) s → s.snaps[k]? = some (s.ga.population.map s.heap) := by
    intro k s h
    have hI := h.multi hops h0
    rw [← hI.last, List.getLast?_eq_getElem?, hI.snaps, Nat.add_sub_cancel]
  induction h with
  | @first s1 s h1 h2 =>
    intro i hle
    obtain rfl : i = 0 := by omega
    exact ⟨s, .first h1 h2, now (.first h1 h2)⟩
  | @next k s s' h1 h2 ih =>
    intro i hle
    rcases Nat.lt_or_ge i k with hlt | hge
    · obtain ⟨si, a, b⟩ := ih i hlt
      obtain ⟨_, _, _, _, _, _, _, _, _, _, _, _, _, _, _, _, _, _, _, _, _, _, _, _, _, _, e, _⟩ :=
        multi_generation hops (h1.multi hops h0) h2
      refine ⟨si, a, ?_⟩
      rw [e, List.getElem?_append_left (by rw [(h1.multi hops h0).snaps]; exact hlt)]
      exact b
    · obtain rfl : i = k := by omega
      exact ⟨s', .next h1 h2, now (.next h1 h2)⟩

/-- The chance that a multi-objective run returns after `n` generations or more, and none of the first `n` had an individual at `x`. -/
theorem facade_late [DecidableEq σ] {c : Cfg} {gray : Bool} {gens : List BinGene} {task : Task σ} {fitExec : Fit σ → M σ Unit}
    {update selection : M σ Unit} {newGen : Transfer → M σ Unit} {s : St σ} (hxa : c.arith = .exact) (hseed : s.seed = none)
    (hu : (SingleFacade.binary gray gens).Usable) (hlv : (SingleFacade.binary gray gens).Level c.mutationLvl)
    (hun : (SingleFacade.binary gray gens).Uncertain c.mutationLvl) {B : Nat} (hB : 0 < B) {δ : ℚ}
    (hδ : (SingleFacade.binary gray gens).Odds B δ) {x : List Val} (hx : List.Forall₂ OnGrid gens x)
    (hd : ∀ (p : Fit σ × Transfer) (s0 : St σ), s0.seed = none →
      (∀ w, ∃ sa sb, newFitness task sa = (.ok p.1, sb) ∧ sa.conds = s.conds ∧ checkTransfer c.transfer = .ok p.2 ∧
        (∃ l, checkMutation .binString c.mutationLvl = .ok l ∧ s0.mutLvl = l.stored c.arith) ∧
        Started (.binary gray gens) c.numIndivid c.numGenerations c.input c.childrenPercent (some c.stop) c.arith { s0 with tape := w }) →
      MultiDraws (facadeOps fitExec update selection .onePoint .binString newGen p.1 p.2) p.1 .onePoint .binString (BitsOf s0.ga.attrs) s0)
    (n L : Nat) :
    chance B L (fun t => ∃ s', facade c (.binary gray gens) task fitExec update selection .onePoint .binString newGen { s with tape := t } =
      (.ok (), s') ∧ n ≤ s'.ga.idxGeneration ∧ ∀ l ∈ s'.snaps.take n, ∀ a ∈ l, a.phenotype ≠ some x) ≤ (1 - δ) ^ (n - 1) := by
  rcases Nat.eq_zero_or_pos n with rfl | hnpos
  · simpa using chance_le_one hB
  have h1 := hδ.le_one
  have hpow : 0 ≤ (1 - δ) ^ (n - 1) := pow_nonneg (by linarith) _
  let ops : Fit σ × Transfer → Ops σ := fun p => facadeOps fitExec update selection .onePoint .binString newGen p.1 p.2
  have hT := startUp_tame c (.binary gray gens) task .binString
  have hexp := outcome_experiment hT.trim (s := s) hseed
  -- what is known before the first generation
  have hdraws : ∀ t p (s0 : St σ), startUp c (.binary gray gens) task .binString { s with tape := t } = (.ok p, s0) →
      MultiDraws (ops p) p.1 .onePoint .binString (BitsOf s0.ga.attrs) s0 ∧ s0.seed = none := by
    intro t p s0 e1
    have hn0 : s0.seed = none := (hT.ext { s with tape := t } _ _ [] hseed e1).2
    obtain ⟨pre, _, kp⟩ := hT.trim { s with tape := t } _ _ hseed e1
    refine ⟨hd p s0 hn0 fun w => ?_, hn0⟩
    obtain ⟨sa, sb, a1, a2, _, a4, _, a6, a7⟩ := startUp_ok (kp w)
    exact ⟨sa, sb, a1, a2, a4, a6, a7⟩
  let first : Fit σ × Transfer → M σ Unit := fun p => (ops p).fitness >>= fun _ => (ops p).update
  let next : (Fit σ × Transfer) × St σ → List Nat → Prop := fun b w =>
    ∃ c' v, EndsIn (first b.1) b.2 w c' v ∧
      ∀ g, BitsOf b.2.ga.attrs g → decodeIndivid b.2.ga.attrs g = .ok x → Avoids (ops b.1) g (n - 1) { c'.2 with tape := v }
  have hbind : chance B L (fun t => ∃ b v, EndsIn (startUp c (.binary gray gens) task .binString) s t b v ∧ next b v) ≤
      (1 - δ) ^ (n - 1) * chance B L (fun t => ∃ b v, EndsIn (startUp c (.binary gray gens) task .binString) s t b v) := by
    refine chance_bind hB hexp ?_
    rintro t ⟨p, s0⟩ v ⟨e0, e1⟩ L
    simp only at e0 e1
    obtain ⟨hdr, hn0⟩ := hdraws t p _ e1
    have hdr : MultiDraws (ops p) p.1 .onePoint .binString (BitsOf s0.ga.attrs) s0 :=
      ⟨fun t => hdr.safe t, hdr.seed, hdr.newGen, hdr.sel, hdr.trim, fun t => hdr.child t⟩
    have hn0 : s0.seed = none := hn0
    have hrun := hdr.run
    obtain ⟨sa, sb, a1, a2, _, a4, a5, a6, a7⟩ := startUp_ok e1
    obtain ⟨q1, hcr⟩ := a7.created
    obtain ⟨_, hc, _⟩ := createPopulation_ok hcr
    have hspec : s0.ga.attrs.spec = .binary gray gens := hc.spec_eq
    have hP : Prepared s0.ga.attrs gray gens := hc.prep gray gens rfl
    have hex : s0.ga.attrs.arith = .exact := a7.arith.trans hxa
    obtain ⟨g', g1, g2, g3⟩ := (C05_decode_exactly hP hex).mpr hx
    have hlow : ∀ w k sk, After (ops p) { s0 with tape := w } k sk →
        ∃ lvl, NextLvl .binString sk lvl ∧ ∀ g0 p1 p2 g1, BitsOf s0.ga.attrs g0 → BitsOf s0.ga.attrs p1 → BitsOf s0.ga.attrs p2 →
          CrossResult σ .onePoint g0.length p1 p2 g1 →
          ∃ R, (Possible B R ∧ δ ≤ odds R) ∧ MutBy σ .binString s0.ga.attrs.spec (lvl.effective s0.ga.attrs.arith) R g1 g' := by
      intro w k sk hk
      have hset := hdr.safe w
      obtain ⟨l, l1, l2⟩ := a6
      rw [hxa, MutLvl.stored_exact] at l2
      have l2 : s0.mutLvl = l := l2
      obtain ⟨q, w0, w1, w2, w3⟩ := hset.low_after (by
        have := SingleFacade.low_start (at_ := s0.ga.attrs) hu hlv hun l1 hspec (fun gr ge e => by
          rw [hspec] at e
          injection e with e e'
          subst e; subst e'
          exact hP) hex
        rw [← l2] at this
        show LowNext s0.ga.attrs.arith .binString (s0.ga.attrs.idxBits.getLastD 0) s0.mutLvl
        rw [hex]
        exact this) hk
      refine ⟨.float q, ⟨fun hop => absurd rfl hop, fun hop => by rw [hset.attrs k sk hk]; exact w3 hop⟩, ?_⟩
      intro g0 p1 p2 g1' k0 k1 k2 hcr
      have hres := hset.closed .other g0 p1 p2 g1' g1' k0 k1 k2 hcr (.inl rfl)
      rw [hspec, hex, MutLvl.effective_exact]
      obtain ⟨d1, ns, d2, d3⟩ := hδ
      obtain ⟨R, r1, r2, r3⟩ := mutateBits_strikes (σ := σ) w0 w1 d1 hres.1 g1 (hres.2.trans g2.symm)
      refine ⟨R, ⟨r1, ?_⟩, r3⟩
      rw [r2, d3, hres.2, hP.total, gridBits_sum (hP.forall hex) d2]
    have htF : Tame (first p) := by
      show Tame ((ops p).fitness >>= fun _ => (ops p).update)
      rw [hrun.fitness, hrun.update]
      exact (Tame.multiFitness p.1).bind fun _ => Tame.multiUpdate
    have hexp2 := outcome_experiment htF.trim (s := s0) hn0
    have hb2 := chance_bind hB (L := L) (c := (1 - δ) ^ (n - 1)) (G := EndsIn (first p) s0)
      (ψ := fun (c' : Unit × St σ) v => Avoids (ops p) g' (n - 1) { c'.2 with tape := v }) hexp2 (by
        rintro w ⟨u, a⟩ v' ⟨c0, c1⟩ L
        simp only at c0 c1
        obtain ⟨pre, _, kp⟩ := htF.trim { s0 with tape := w } _ _ hn0 c1
        refine hdr.chance_avoids hB h1 hlow (n - 1) 1 pre a (fun z => ?_) L
        obtain ⟨_, z1, z2, z3⟩ := bind_ok.mp (kp z)
        exact After.first z2 z3)
    refine le_trans (chance_mono ?_) (hb2.trans ?_)
    · rintro w ⟨c', v', c1, c2⟩
      exact ⟨c', v', c1, c2 g' ⟨g1, g2⟩ g3⟩
    · have := chance_le_one (p := fun t => ∃ b v, EndsIn (first p) s0 t b v) (L := L) hB
      nlinarith
  refine le_trans (chance_mono ?_) (hbind.trans ?_)
  · rintro t ⟨s', h, hn, hno⟩
    rw [facade_eq] at h
    obtain ⟨p, s0, hst, h2⟩ := bind_ok.mp h
    obtain ⟨hdr, _⟩ := hdraws t p s0 hst
    have hset : MultiSafe (ops p) p.1 .onePoint .binString (BitsOf s0.ga.attrs) s0 := hdr.safe s0.tape
    obtain ⟨k, hk⟩ : ∃ k, After (ops p) s0 k s' := by
      obtain ⟨_, sx, h3, h4⟩ := bind_ok.mp h2
      obtain ⟨_, k, _, _, _, hk, _⟩ := evolve_after h3
      have : sx = s' := by
        split at h4
        · exact (printBest_state h4).symm
        · exact (pure_ok.mp h4).2.symm
      exact ⟨k, this ▸ hk⟩
    have hidx : s'.ga.idxGeneration = k := (hk.multi hset.run hset.fresh).idx
    obtain ⟨sn, hsn⟩ : ∃ sn, After (ops p) s0 n sn := by
      obtain ⟨sn, e, _⟩ := hk.multi_recorded hset.run hset.fresh (n - 1) (by omega)
      exact ⟨sn, by rwa [Nat.sub_add_cancel hnpos] at e⟩
    have key : ∀ g, BitsOf s0.ga.attrs g → decodeIndivid s0.ga.attrs g = .ok x →
        ∀ i si, After (ops p) s0 i si → i ≤ n → ¬ Holds g si := by
      rintro g _ g2 i si hi hle ⟨r, hr, hrg⟩
      have hip := hi.pos
      have hmem : si.ga.population.map si.heap ∈ s'.snaps.take n := by
        obtain ⟨si', e1, e2⟩ := hk.multi_recorded hset.run hset.fresh (i - 1) (by omega)
        rw [Nat.sub_add_cancel hip] at e1
        rw [hi.unique e1] at e2
        refine List.mem_iff_getElem?.mpr ⟨i - 1, ?_⟩
        rw [List.getElem?_take_of_lt (by omega)]
        exact e2
      refine hno _ hmem (si.heap r) (List.mem_map_of_mem hr) ?_
      obtain ⟨g0, z1, _, z3⟩ := hset.good i si hi r hr
      rw [hrg] at z1
      injection z1 with z1
      subst z1
      obtain ⟨ph, d1, d2⟩ := z3 hset.pheno
      rw [g2] at d2
      injection d2 with d2
      rw [d1, d2]
    obtain ⟨fa, hfa⟩ := hk.one
    obtain ⟨b1, hb1⟩ : ∃ b1, first p s0 = (.ok b1, fa) := by
      cases hfa with
      | first e1 e2 =>
        refine ⟨(), ?_⟩
        show ((ops p).fitness >>= fun _ => (ops p).update) s0 = _
        rw [bind_of_ok e1]
        exact e2
      | next e1 _ => exact absurd e1.pos (by omega)
    refine ⟨_, _, EndsIn.of_run hst, _, _, EndsIn.of_run (s := { s0 with tape := [] }) hb1, fun g hg hg2 => ?_⟩
    obtain ⟨a, ha1, ha2⟩ := hsn.avoids (key g hg hg2) 0 trivial
    rw [← hfa.unique ha1]
    exact ha2.fewer (by omega)
  · have := chance_le_one (p := fun t => ∃ b v, EndsIn (startUp c (.binary gray gens) task .binString) s t b v) (L := L) hB
    nlinarith

/-! ## FFGA -/

theorem ffga_draws {c : Cfg} {gray : Bool} {gens : List BinGene} {conds : Option (List Cond)} (ha : FfgaAdmissible gray gens c conds)
    (hch : 1 ≤ c.children) (p : Fit ℚ × Transfer) (s0 : St ℚ) (n0 : s0.seed = none)
    (hst : ∀ w, ∃ sa sb, newFitness (ffgaTask c.obj1 c.obj2 c.inputTruthy c.penalty c.arith) sa = (.ok p.1, sb) ∧ sa.conds = conds ∧
      checkTransfer c.transfer = .ok p.2 ∧ (∃ l, checkMutation .binString c.mutationLvl = .ok l ∧ s0.mutLvl = l.stored c.arith) ∧
      Started (.binary gray gens) c.numIndivid c.numGenerations c.input c.childrenPercent (some c.stop) c.arith { s0 with tape := w }) :
    MultiDraws (facadeOps multiFitnessExec multiUpdate balancedExec .onePoint .binString multiNewGenExec p.1 p.2) p.1 .onePoint .binString
      (BitsOf s0.ga.attrs) s0 := by
  have hsafe : ∀ w, MultiSafe (ffgaOps p.1 .balanced .onePoint .binString p.2) p.1 .onePoint .binString (BitsOf s0.ga.attrs)
      { s0 with tape := w } := by
    intro w
    obtain ⟨sa, sb, a1, a2, a3, a4, a5⟩ := hst w
    exact (ffga_multiSafe (s0 := { s0 with tape := w }) (by rw [a2]; exact ha.toFfgaCall) a1 a3 a4 a5 (ffga_wheel_exact ha)).1
  refine ⟨hsafe, n0, Tame.multiNewGen p.2, balanced_ext scoreKey 1, selExec_trim .balanced, ?_⟩
  intro w k x a hk hsel hnil
  obtain ⟨sa, sb, a1, a2, a3, a4, a5⟩ := hst w
  have hI := hk.multi (hsafe w).run a5.fresh
  have h1 := (selExec_isSelection .balanced x a _ hI.alive hsel).2
  rw [hnil, numPairs_children (c := c) (by rw [(hsafe w).attrs k x hk]; exact a5.cells.2.1)
    ((hk.keeps sameSetup_frame (hsafe w).keep).1.2.1.trans a5.percent) (by rw [(hsafe w).attrs k x hk]; exact a5.arith)] at h1
  simp at h1
  omega

theorem ffga_late {c : Cfg} {gray : Bool} {gens : List BinGene} {s : St ℚ} (ha : FfgaAdmissible gray gens c s.conds)
    (hseed : s.seed = none) (hch : 1 ≤ c.children) (hun : (SingleFacade.binary gray gens).Uncertain c.mutationLvl) {B : Nat} (hB : 0 < B)
    {δ : ℚ} (hδ : (SingleFacade.binary gray gens).Odds B δ) {x : List Val} (hx : List.Forall₂ OnGrid gens x) (n L : Nat) :
    chance B L (fun t => ∃ s', ffga c gray gens { s with tape := t } = (.ok (), s') ∧ n ≤ s'.ga.idxGeneration ∧
      ∀ l ∈ (generationsOf s').take n, ∀ a ∈ l, a.phenotype ≠ some x) ≤ (1 - δ) ^ (n - 1) := by
  obtain ⟨_, ht⟩ := ha.task
  exact facade_late (c := c) (gray := gray) (fitExec := multiFitnessExec) (update := multiUpdate)
    (selection := balancedExec) (newGen := multiNewGenExec) (task := ffgaTask c.obj1 c.obj2 c.inputTruthy c.penalty c.arith)
    (s := s) ha.exact hseed ht.genes ht.level hun hB hδ hx (ffga_draws ha hch) n L

/-- C114, FFGA: the chance that a run returns after `n` generations or more and has not evaluated `x`. -/
theorem C114_ffga_missed {c : Cfg} {gray : Bool} {gens : List BinGene} {s : St ℚ} (ha : FfgaAdmissible gray gens c s.conds)
    (hseed : s.seed = none) (hch : 1 ≤ c.children) (hun : (SingleFacade.binary gray gens).Uncertain c.mutationLvl) {B : Nat} (hB : 0 < B)
    {δ : ℚ} (hδ : (SingleFacade.binary gray gens).Odds B δ) {x : List Val} (hx : List.Forall₂ OnGrid gens x) (n L : Nat) :
    chance B L (fun t => ∃ s', ffga c gray gens { s with tape := t } = (.ok (), s') ∧ n ≤ s'.ga.idxGeneration ∧ x ∉ evaluated s s') ≤
      (1 - δ) ^ (n - 1) := by
  obtain ⟨_, ht⟩ := ha.task
  refine le_trans (chance_mono ?_) (ffga_late ha hseed hch hun hB hδ hx n L)
  rintro t ⟨s', h, hn, hno⟩
  refine ⟨s', h, hn, fun l hl a ha' e => hno ?_⟩
  exact ((C83_ffga (s := { s with tape := t }) ht.uniform h).points x).mpr ⟨l, List.mem_of_mem_take hl, a, ha', e⟩

/-! ## VEGA -/

theorem vegaTournamentExec_trim (m : Nat) (size : Int) : Trim (vegaTournamentExec m size) := by
  unfold vegaTournamentExec
  exact Trim.bind (Tame.checkTournament _).ext (Tame.checkTournament _).trim fun _ => Trim.bind Tame.baseSelection.ext Tame.baseSelection.trim
    fun _ => Trim.forEach (fun _ => tournament_ext _ _) (fun _ => tournament_trim _ _) _

theorem vega_draws {c : Cfg} {gray : Bool} {gens : List BinGene} {ov : Option (List ℚ)} {conds : Option (List Cond)} {m n : Nat}
    (ha : VegaAdmissible gray gens c ov conds m n)
    (hch : 1 ≤ c.vegaChildren m) (p : Fit (List ℚ) × Transfer) (s0 : St (List ℚ)) (n0 : s0.seed = none)
    (hst : ∀ w, ∃ sa sb, newFitness (vegaTask c.obj1 c.obj2 c.inputTruthy c.penalty ov c.arith) sa = (.ok p.1, sb) ∧ sa.conds = conds ∧
      checkTransfer c.transfer = .ok p.2 ∧ (∃ l, checkMutation .binString c.mutationLvl = .ok l ∧ s0.mutLvl = l.stored c.arith) ∧
      Started (.binary gray gens) c.numIndivid c.numGenerations c.input c.childrenPercent (some c.stop) c.arith { s0 with tape := w }) :
    MultiDraws (facadeOps multiFitnessExec multiUpdate (vegaTournamentExec m 3) .onePoint .binString newGenExec p.1 p.2) p.1 .onePoint
      .binString (BitsOf s0.ga.attrs) s0 := by
  have hsafe : ∀ w, MultiSafe (vegaOps p.1 m (.tournament 3) .onePoint .binString p.2) p.1 .onePoint .binString (BitsOf s0.ga.attrs)
      { s0 with tape := w } := by
    intro w
    obtain ⟨sa, sb, a1, a2, a3, a4, a5⟩ := hst w
    exact (vega_multiSafe (s0 := { s0 with tape := w }) (by rw [a2]; exact ha) a1 a3 a4 a5).1
  refine ⟨hsafe, n0, Tame.newGenExec p.2, vegaTournamentExec_ext m 3, vegaTournamentExec_trim m 3, ?_⟩
  intro w k x a hk hsel hnil
  obtain ⟨sa, sb, a1, a2, a3, a4, a5⟩ := hst w
  have hI := hk.multi (hsafe w).run a5.fresh
  have h1 := (C60_tournament_blocks hI.alive hsel).1
  rw [hnil, (hsafe w).attrs k x hk, (hk.keeps sameSetup_frame (hsafe w).keep).1.2.1, a5.percent] at h1
  rw [show s0.ga.attrs.numIndivid = c.numIndivid from a5.cells.2.1, show s0.ga.attrs.arith = c.arith from a5.arith] at h1
  have : c.vegaChildren m = 0 := by
    unfold Cfg.vegaChildren
    simp at h1
    rcases h1 with h | h
    · rw [h]; simp
    · rw [h]; simp
  omega

theorem vega_late {c : Cfg} {gray : Bool} {gens : List BinGene} {ov : Option (List ℚ)} {s : St (List ℚ)} {m k : Nat}
    (ha : VegaAdmissible gray gens c ov s.conds m k) (hxa : c.arith = .exact)
    (hseed : s.seed = none) (hch : 1 ≤ c.vegaChildren m) (hun : (SingleFacade.binary gray gens).Uncertain c.mutationLvl) {B : Nat} (hB : 0 < B)
    {δ : ℚ} (hδ : (SingleFacade.binary gray gens).Odds B δ) {x : List Val} (hx : List.Forall₂ OnGrid gens x) (n L : Nat) :
    chance B L (fun t => ∃ s', vega c gray gens ov { s with tape := t } = (.ok (), s') ∧ n ≤ s'.ga.idxGeneration ∧
      ∀ l ∈ (generationsOf s').take n, ∀ a ∈ l, a.phenotype ≠ some x) ≤ (1 - δ) ^ (n - 1) := by
  have h1 := hδ.le_one
  have hpow : 0 ≤ (1 - δ) ^ (n - 1) := pow_nonneg (by linarith) _
  have htame := vegaNumObjectives_tame c gens.length
  have hexp := outcome_experiment htame.trim (s := s) hseed
  let rest : Nat → M (List ℚ) Unit := fun m => facade c (.binary gray gens) (vegaTask c.obj1 c.obj2 c.inputTruthy c.penalty ov c.arith)
    multiFitnessExec multiUpdate (vegaTournamentExec m 3) .onePoint .binString newGenExec
  have hbind : chance B L (fun t => ∃ b v, EndsIn (vegaNumObjectives c gens.length) s t b v ∧ ∃ s', rest b.1 { b.2 with tape := v } =
      (.ok (), s') ∧ n ≤ s'.ga.idxGeneration ∧ ∀ l ∈ s'.snaps.take n, ∀ a ∈ l, a.phenotype ≠ some x) ≤
      (1 - δ) ^ (n - 1) * chance B L (fun t => ∃ b v, EndsIn (vegaNumObjectives c gens.length) s t b v) := by
    refine chance_bind hB hexp ?_
    rintro t ⟨m', s2⟩ v ⟨e0, e1⟩ L
    simp only at e0 e1
    obtain ⟨s2', e2, c2, n2⟩ := VegaAdmissible.count (s := { s with tape := t }) ha
    rw [e2] at e1
    obtain ⟨e3, e4⟩ := Prod.mk.inj e1
    injection e3 with e3
    subst e3
    have hs2 : s2.seed = none := by
      have : ({ s2 with tape := v } : St (List ℚ)).seed = none := by rw [← e4]; exact n2.trans hseed
      exact this
    have hc2 : s2.conds = s.conds := by
      have : ({ s2 with tape := v } : St (List ℚ)).conds = s.conds := by rw [← e4]; exact c2
      exact this
    have ht := ha.task
    exact facade_late (s := s2) hxa hs2 ht.genes ht.level hun hB hδ hx (vega_draws (by rw [hc2]; exact ha) hch) n L
  refine le_trans (chance_mono ?_) (hbind.trans ?_)
  · rintro t ⟨s', h, hn, hno⟩
    unfold vega at h
    obtain ⟨m', s2, e1, e2⟩ := bind_ok.mp h
    exact ⟨_, _, EndsIn.of_run e1, s', e2, hn, hno⟩
  · have := chance_le_one (p := fun t => ∃ b v, EndsIn (vegaNumObjectives c gens.length) s t b v) (L := L) hB
    nlinarith

/-- C114, VEGA: the same. -/
theorem C114_vega_missed {c : Cfg} {gray : Bool} {gens : List BinGene} {ov : Option (List ℚ)} {s : St (List ℚ)} {m k : Nat}
    (ha : VegaAdmissible gray gens c ov s.conds m k) (hxa : c.arith = .exact)
    (hseed : s.seed = none) (hch : 1 ≤ c.vegaChildren m) (hun : (SingleFacade.binary gray gens).Uncertain c.mutationLvl) {B : Nat} (hB : 0 < B)
    {δ : ℚ} (hδ : (SingleFacade.binary gray gens).Odds B δ) {x : List Val} (hx : List.Forall₂ OnGrid gens x) (n L : Nat) :
    chance B L (fun t => ∃ s', vega c gray gens ov { s with tape := t } = (.ok (), s') ∧ n ≤ s'.ga.idxGeneration ∧ x ∉ evaluated s s') ≤
      (1 - δ) ^ (n - 1) := by
  refine le_trans (chance_mono ?_) (vega_late ha hxa hseed hch hun hB hδ hx n L)
  rintro t ⟨s', h, hn, hno⟩
  refine ⟨s', h, hn, fun l hl a ha' e => hno ?_⟩
  obtain ⟨_, calls, _, hc, hbill⟩ := C83_vega (s := { s with tape := t }) ha.task.uniform h
  show x ∈ evaluated { s with tape := t } s'
  rw [hc]
  exact List.mem_append_right _ ((hbill.points x).mpr ⟨l, List.mem_of_mem_take hl, a, ha', e⟩)

/-! ## the Pareto front -/

/-- The given individuals are a Pareto front of the whole search space: they lie on the grid, no point of the grid dominates one of them,
and every point of the grid is matched by one of them. -/
def IsFront (gens : List BinGene) (f : List Val → Except PyErr Ret) (front : List (Ind σ)) : Prop :=
  (∀ a ∈ front, ∃ p o, a.phenotype = some p ∧ List.Forall₂ OnGrid gens p ∧ f p = .ok (.tup o) ∧ a.objScore = some (.tup o) ∧
    ∀ y oy, List.Forall₂ OnGrid gens y → f y = .ok (.tup oy) → ¬ Dominates oy o) ∧
  ∀ y oy, List.Forall₂ OnGrid gens y → f y = .ok (.tup oy) → ∃ a ∈ front, ∃ o, a.objScore = some (.tup o) ∧ AsGood o oy

theorem gridBits_unique {g : BinGene} {n m : Nat} (h1 : GridBits g n) (h2 : GridBits g m) : n = m :=
  le_antisymm (h1.2 m h2.1) (h2.2 n h1.1)

theorem gene_finite (g : BinGene) : ∃ vs : List Val, ∀ v, OnGrid g v → v ∈ vs := by
  by_cases h : ∃ n, GridBits g n
  · obtain ⟨n, hn⟩ := h
    refine ⟨(List.range (2 ^ n)).map fun i : Nat => .num (g.lo + (i : ℚ) * (|g.hi - g.lo| / (2 ^ n - 1))), ?_⟩
    rintro v ⟨m, i, hm, hi, rfl⟩
    obtain rfl := gridBits_unique hn hm
    exact List.mem_map.mpr ⟨i, List.mem_range.mpr hi, rfl⟩
  · exact ⟨[], fun v ⟨m, _, hm, _⟩ => absurd ⟨m, hm⟩ h⟩

theorem grid_finite (gens : List BinGene) : ∃ xs : List (List Val), ∀ x, List.Forall₂ OnGrid gens x → x ∈ xs := by
  induction gens with
  | nil => exact ⟨[[]], fun x hx => by cases hx; simp⟩
  | cons g gens ih =>
    obtain ⟨xs, hxs⟩ := ih
    obtain ⟨vs, hvs⟩ := gene_finite g
    refine ⟨vs.flatMap fun v => xs.map fun x => v :: x, ?_⟩
    intro x hx
    cases hx with
    | cons a b => exact List.mem_flatMap.mpr ⟨_, hvs _ a, List.mem_map.mpr ⟨_, hxs _ b, rfl⟩⟩

theorem chance_or {B L : Nat} {p q : List Nat → Prop} : chance B L (fun t => p t ∨ q t) ≤ chance B L p + chance B L q := by
  unfold chance
  rw [← add_div]
  refine div_le_div_of_nonneg_right ?_ (by positivity)
  norm_cast
  induction tapes B L with
  | nil => simp
  | cons t l ih =>
    simp only [List.countP_cons] at ih ⊢
    by_cases hp : p t <;> by_cases hq : q t <;> simp only [hp, hq] <;> simp <;> omega

/-- The union bound. -/
theorem chance_any {α : Type} {B L : Nat} {a : ℚ} {q : α → List Nat → Prop} (xs : List α)
    (h : ∀ x ∈ xs, chance B L (q x) ≤ a) : chance B L (fun t => ∃ x ∈ xs, q x t) ≤ xs.length * a := by
  induction xs with
  | nil =>
    rw [chance_none (by simp)]
    simp
  | cons x xs ih =>
    have h1 := h x (by simp)
    have h2 := ih fun y hy => h y (List.mem_cons_of_mem _ hy)
    have h3 : chance B L (fun t => ∃ y ∈ x :: xs, q y t) ≤ chance B L (fun t => q x t ∨ ∃ y ∈ xs, q y t) := by
      refine chance_mono ?_
      rintro t ⟨y, hy, hq⟩
      rcases List.mem_cons.mp hy with rfl | hy
      · exact .inl hq
      · exact .inr ⟨y, hy, hq⟩
    have h4 := chance_or (B := B) (L := L) (p := q x) (q := fun t => ∃ y ∈ xs, q y t)
    have h5 : chance B L (fun t => q x t) = chance B L (q x) := rfl
    push_cast [List.length_cons]
    linarith

/-- A multi-objective run whose `early_stop` is not given has all its generations. -/
theorem ffga_idx {c : Cfg} {gray : Bool} {gens : List BinGene} {s s' : St ℚ} (hv : UniformVecs c.obj1) (he : c.earlyStop = none)
    (h : ffga c gray gens s = (.ok (), s')) : s'.ga.idxGeneration = max 1 c.numGenerations := by
  obtain ⟨fit, tr, s0, sa, sb, a1, _, _, _, _, _, a7, a8, _⟩ := facade_ok h
  have ht := (newFitness_ok a1).1
  have hops := ffgaOps_run (fit := fit) (by rw [ht]; exact hv) .balanced .onePoint .binString tr
  obtain ⟨k, ak, k1, k2, k3, _⟩ := C46_stopping_rule (ffgaOps_frame sameSetup_frame fit .balanced .onePoint .binString tr) a7.gens a7.stop a8
  have hI := ak.multi hops a7.fresh
  rw [hI.idx]
  by_contra hne
  obtain ⟨_, k4⟩ := k3 (by omega)
  have hs : c.stop = (c.numGenerations : Int) := by unfold Cfg.stop; rw [he]; rfl
  rw [hs] at k4
  have : s'.ga.noImprove ≤ k := by
    rcases hI.count with ⟨_, h⟩ | ⟨_, _, _, h⟩ <;> omega
  omega

theorem ffga_onGrid {c : Cfg} {gray : Bool} {gens : List BinGene} {s s' : St ℚ} (hxa : c.arith = .exact) (hv : UniformVecs c.obj1)
    (h : ffga c gray gens s = (.ok (), s')) : ∀ p ∈ evaluated s s', List.Forall₂ OnGrid gens p := by
  intro p hp
  obtain ⟨l, hl', a, ha, e⟩ := ((C83_ffga hv h).points p).mp hp
  obtain ⟨fit, tr, s0, k, _, _, ⟨hP, har⟩, hb, _, _, _, _, _, hl⟩ := ffga_ledger hv h
  obtain ⟨⟨g, _, g2, g3⟩, _⟩ := hl.snaps l hl' a ha
  obtain ⟨p', p1, p2⟩ := g3 hb
  rw [e] at p1
  injection p1 with p1
  subst p1
  exact (C05_decode_exactly hP (har.trans hxa)).mp ⟨g, g2.1, g2.2, p2⟩

/-- C114: FFGA finds the Pareto front.  Without constraints and early stop, enough generations return a Pareto front of the whole search
space with a probability as close to one as wanted.  The number of generations that is enough depends on the search space and on the chance
one is ready to take, and on nothing else of the call. -/
theorem C114_ffga_front {gray : Bool} {gens : List BinGene} {B : Nat} (hB : 2 ^ 53 ≤ B) {δ : ℚ}
    (hδ : (SingleFacade.binary gray gens).Odds B δ) {ε : ℚ} (hε : 0 < ε) :
    ∃ N, ∀ {c : Cfg} {s : St ℚ}, FfgaAdmissible gray gens c s.conds → ¬ Constrained c s.conds → s.seed = none → 2 ≤ c.numIndivid →
      c.transfer = "best" → 1 ≤ c.children → (SingleFacade.binary gray gens).Uncertain c.mutationLvl → c.earlyStop = none →
      N ≤ c.numGenerations →
      ∃ M, ∀ L, M ≤ L → 1 - ε ≤
        chance B L (fun t => ∃ s', ffga c gray gens { s with tape := t } = (.ok (), s') ∧ IsFront gens c.obj1 (paretoSet s')) := by
  have hB0 : 0 < B := by omega
  by_cases hu : (SingleFacade.binary gray gens).Usable
  swap
  · exact ⟨0, fun {c s} ha => by obtain ⟨_, ht⟩ := ha.task; exact absurd ht.genes hu⟩
  obtain ⟨xs, hxs⟩ := grid_finite gens
  have hpos := hδ.pos hu
  have hle := hδ.le_one
  obtain ⟨N, hN⟩ := exists_pow_lt_of_lt_one (show 0 < ε / 2 / (xs.length + 1) by positivity) (show 1 - δ < 1 by linarith)
  refine ⟨N + 1, fun {c s} ha hnc hseed htwo htr hch hun hes hlen => ?_⟩
  obtain ⟨_, ht⟩ := ha.task
  obtain ⟨M, hM⟩ := C113_ffga_returns ha hseed (.inl htwo) (fun e => by rw [htr] at e; simp at e) hB (half_pos hε)
  refine ⟨M, fun L hL => ?_⟩
  have hmiss : chance B L (fun t => ∃ x ∈ xs, List.Forall₂ OnGrid gens x ∧
      ∃ s', ffga c gray gens { s with tape := t } = (.ok (), s') ∧ N + 1 ≤ s'.ga.idxGeneration ∧ x ∉ evaluated s s') ≤
      xs.length * (1 - δ) ^ N := by
    refine chance_any xs fun x _ => ?_
    by_cases hx : List.Forall₂ OnGrid gens x
    · refine le_trans (chance_mono ?_) (C114_ffga_missed ha hseed hch hun hB0 hδ hx (N + 1) L)
      rintro t ⟨_, h⟩
      exact h
    · rw [chance_none (fun t h => hx h.1)]
      exact pow_nonneg (by linarith) _
  have hbad : chance B L (fun t => (∃ s', ffga c gray gens { s with tape := t } = (.ok (), s')) ∧
      ¬ ∃ s', ffga c gray gens { s with tape := t } = (.ok (), s') ∧ IsFront gens c.obj1 (paretoSet s')) ≤ ε / 2 := by
    refine le_trans (chance_mono ?_) (hmiss.trans ?_)
    · rintro t ⟨⟨s', h⟩, hno⟩
      by_contra hall
      refine hno ⟨s', h, ?_⟩
      have hev : ∀ x, List.Forall₂ OnGrid gens x → x ∈ evaluated s s' := by
        intro x hx
        by_contra hxe
        exact hall ⟨x, hxs x hx, hx, s', h, by rw [ffga_idx ht.uniform hes h]; omega, hxe⟩
      obtain ⟨f1, f2⟩ := C85_ffga_complete (s := { s with tape := t }) ht.uniform hnc ht.plain htr h
      constructor
      · intro a ha'
        obtain ⟨p, o, p1, p2, p3, p4⟩ := f1 a ha'
        refine ⟨p, o, p1, ffga_onGrid (s := { s with tape := t }) ha.exact ht.uniform h p p3, p4, p2, ?_⟩
        intro y oy hy hoy
        obtain ⟨oy', q1, _, q3⟩ := f2 y (hev y hy)
        rw [hoy] at q1
        injection q1 with q1
        injection q1 with q1
        subst q1
        exact q3 a ha' o p2
      · intro y oy hy hoy
        obtain ⟨oy', q1, ⟨a, q2, o, q3, q4⟩, _⟩ := f2 y (hev y hy)
        rw [hoy] at q1
        injection q1 with q1
        injection q1 with q1
        subst q1
        exact ⟨a, q2, o, q3, q4⟩
    · have h0 : (0 : ℚ) < xs.length + 1 := by positivity
      have := mul_le_mul_of_nonneg_left hN.le (show (0 : ℚ) ≤ xs.length + 1 by positivity)
      rw [mul_div_cancel₀ _ h0.ne'] at this
      have hp : 0 ≤ (1 - δ) ^ N := pow_nonneg (by linarith) _
      nlinarith
  have := chance_and hB0 (hM L hL) hbad
  have hfin : chance B L (fun t => (∃ s', ffga c gray gens { s with tape := t } = (.ok (), s')) ∧
      ∃ s', ffga c gray gens { s with tape := t } = (.ok (), s') ∧ IsFront gens c.obj1 (paretoSet s')) ≤
      chance B L (fun t => ∃ s', ffga c gray gens { s with tape := t } = (.ok (), s') ∧ IsFront gens c.obj1 (paretoSet s')) :=
    chance_mono fun t h => h.2
  linarith

/-! ## VEGA comes to a given point with probability one -/

theorem vega_idx {c : Cfg} {gray : Bool} {gens : List BinGene} {ov : Option (List ℚ)} {s s' : St (List ℚ)} (hv : UniformVecs c.obj1)
    (he : c.earlyStop = none) (h : vega c gray gens ov s = (.ok (), s')) : s'.ga.idxGeneration = max 1 c.numGenerations := by
  unfold vega at h
  obtain ⟨m, s2, _, h⟩ := bind_ok.mp h
  obtain ⟨fit, tr, s0, sa, sb, a1, _, _, _, _, _, a7, a8, _⟩ := facade_ok h
  have ht := (newFitness_ok a1).1
  have hops := vegaTour_run (fit := fit) (by rw [ht]; exact hv) m 3 .onePoint .binString tr
  obtain ⟨k, ak, k1, k2, k3, _⟩ := C46_stopping_rule (vegaOps_frame sameSetup_frame fit m (.tournament 3) .onePoint .binString tr) a7.gens a7.stop a8
  have hI := ak.multi hops a7.fresh
  rw [hI.idx]
  by_contra hne
  obtain ⟨_, k4⟩ := k3 (by omega)
  have hs : c.stop = (c.numGenerations : Int) := by unfold Cfg.stop; rw [he]; rfl
  rw [hs] at k4
  have : s'.ga.noImprove ≤ k := by
    rcases hI.count with ⟨_, h⟩ | ⟨_, _, _, h⟩ <;> omega
  omega

/-- C114, VEGA: without early stop, `num_generations` generations evaluate a given point with probability at least
`1 - (1 - δ) ^ (num_generations - 1)`. -/
theorem C114_vega_found {c : Cfg} {gray : Bool} {gens : List BinGene} {ov : Option (List ℚ)} {s : St (List ℚ)} {m k : Nat}
    (ha : VegaAdmissible gray gens c ov s.conds m k) (hxa : c.arith = .exact)
    (hseed : s.seed = none) (hch : 3 ≤ c.vegaChildren m) (hun : (SingleFacade.binary gray gens).Uncertain c.mutationLvl)
    (hes : c.earlyStop = none) {B : Nat} (hb : max c.numIndivid (c.vegaChildren m) < B)
    {δ : ℚ} (hδ : (SingleFacade.binary gray gens).Odds B δ) {x : List Val} (hx : List.Forall₂ OnGrid gens x) {ε : ℚ} (hε : 0 < ε) :
    ∃ N, ∀ L, N ≤ L → 1 - ε - (1 - δ) ^ (c.numGenerations - 1) ≤
      chance B L (fun t => ∃ s', vega c gray gens ov { s with tape := t } = (.ok (), s') ∧ x ∈ evaluated s s') := by
  have hB0 : 0 < B := by omega
  obtain ⟨N, hN⟩ := C113_vega_returns ha hseed (.inl hch) hb hε
  refine ⟨N, fun L hL => ?_⟩
  have hbad : chance B L (fun t => (∃ s', vega c gray gens ov { s with tape := t } = (.ok (), s')) ∧
      ¬ ∃ s', vega c gray gens ov { s with tape := t } = (.ok (), s') ∧ x ∈ evaluated s s') ≤ (1 - δ) ^ (c.numGenerations - 1) := by
    refine le_trans (chance_mono ?_) (C114_vega_missed ha hxa hseed (by omega) hun hB0 hδ hx c.numGenerations L)
    rintro t ⟨⟨s', h⟩, hno⟩
    refine ⟨s', h, by rw [vega_idx ha.task.uniform hes h]; omega, fun hx' => hno ⟨s', h, hx'⟩⟩
  have := chance_and hB0 (hN L hL) hbad
  have hfin : chance B L (fun t => (∃ s', vega c gray gens ov { s with tape := t } = (.ok (), s')) ∧
      ∃ s', vega c gray gens ov { s with tape := t } = (.ok (), s') ∧ x ∈ evaluated s s') ≤
      chance B L (fun t => ∃ s', vega c gray gens ov { s with tape := t } = (.ok (), s') ∧ x ∈ evaluated s s') :=
    chance_mono fun t h => h.2
  linarith

/-! ## Concrete cases -/

theorem exPair_odds : SingleFacade.Odds (.binary true [⟨0, 3, 1⟩, ⟨-1, 1, 1 / 2⟩]) (1000 * 2 ^ 53) ((1 / 1000) ^ 5) := by
  obtain ⟨_, ns, h1, h2⟩ := exSum_odds
  exact ⟨⟨_, rfl⟩, ns, h1, h2⟩

/-- The sum and its distance from 2 are to be minimised in `m` generations; the nondominated parents are kept. -/
def exFrontCfg (m : Nat) : Cfg := { exPairCfg with numGenerations := m, transfer := "best", earlyStop := none }

theorem exFront_ffga (m : Nat) : FfgaAdmissible true [⟨0, 3, 1⟩, ⟨-1, 1, 1 / 2⟩] (exFrontCfg m) none where
  task := ⟨2, exPair_task rfl rfl rfl rfl rfl (.inl rfl)⟩
  some := by simp [exFrontCfg, exPairCfg]
  transfer := .inl rfl
  exact := rfl

theorem exFront_vega : VegaAdmissible true [⟨0, 3, 1⟩, ⟨-1, 1, 1 / 2⟩] (exFrontCfg 4) (some [0, 0]) none 2 2 where
  task := exPair_task rfl rfl rfl rfl rfl (.inl rfl)
  counts := ⟨_, rfl, rfl⟩
  enough := le_rfl
  target := by rintro ts ⟨⟩; rfl
  size := by simp [exFrontCfg, exPairCfg]
  transfer := .inl rfl

theorem exFront_uncertain (m : Nat) : (SingleFacade.binary true [⟨0, 3, 1⟩, ⟨-1, 1, 1 / 2⟩]).Uncertain (exFrontCfg m).mutationLvl :=
  exSum_uncertain

/-- The hypotheses can be met: for every `ε` there is a number of generations which finds the front of the 32 points. -/
example {ε : ℚ} (hε : 0 < ε) : ∃ m M, ∀ L, M ≤ L → 1 - ε ≤ chance (1000 * 2 ^ 53) L (fun t => ∃ s',
    ffga (exFrontCfg m) true [⟨0, 3, 1⟩, ⟨-1, 1, 1 / 2⟩] { tape := t } = (.ok (), s') ∧
      IsFront [⟨0, 3, 1⟩, ⟨-1, 1, 1 / 2⟩] exPairCfg.obj1 (paretoSet s')) := by
  obtain ⟨N, hN⟩ := C114_ffga_front (gray := true) (by norm_num) exPair_odds hε
  obtain ⟨M, hM⟩ := hN (c := exFrontCfg N) (s := {}) (exFront_ffga N) (by simp [Constrained, exFrontCfg, exPairCfg]) rfl
    (by simp [exFrontCfg, exPairCfg]) rfl (show 1 ≤ exPairCfg.children by decide +kernel) (exFront_uncertain N) rfl le_rfl
  exact ⟨N, M, hM⟩

/-- And for VEGA. -/
example {ε : ℚ} (hε : 0 < ε) : ∃ N, ∀ L, N ≤ L → 1 - ε - (1 - (1 / 1000) ^ 5) ^ 3 ≤ chance 1000 L (fun t => ∃ s',
    vega (exFrontCfg 4) true [⟨0, 3, 1⟩, ⟨-1, 1, 1 / 2⟩] (some [0, 0]) { tape := t } = (.ok (), s') ∧
      [.num 0, .num (-1)] ∈ evaluated {} s') :=
  C114_vega_found (s := {}) exFront_vega rfl rfl (by decide +kernel) exSum_uncertain rfl (by decide +kernel) exSum_odds exSum_point hε

end BaumEva
