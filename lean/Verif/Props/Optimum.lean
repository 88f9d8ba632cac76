import Verif.Proofs.Exact
import Verif.Props.Anytime
/-!
# C86: no point of the search space is ever out of reach
-/
namespace BaumEva
open Spec

/-- The points the objective of a facade can be called with: grid points of the genes, arrangements, tuples. -/
def SingleFacade.Point : SingleFacade → List Val → Prop
  | .binary _ gens => List.Forall₂ OnGrid gens
  | .combinatory a b k => IsTrack a b k
  | .categorical gens => IsTuple gens

/-- Mutation of a gene is not certain: a rate below 0.999, or a named level, where `'strong'` needs at least four bits. -/
def SingleFacade.Uncertain (f : SingleFacade) (lvl : MutLvl) : Prop :=
  (∀ q, lvl = .float q → q < 999 / 1000) ∧
  (lvl = .str "strong" → ∀ gray gens, f = .binary gray gens → ∃ ns, List.Forall₂ GridBits gens ns ∧ 4 ≤ ns.sum)

/-! ## the rate of the next generation -/

/-- The next mutation has a rate below 0.999. -/
def LowNext (ar : Arith) (mop : MutOp) (len : Nat) (lvl : MutLvl) : Prop :=
  ∃ q : ℚ, 0 ≤ q ∧ q < 999 / 1000 ∧ (mop ≠ .binString → lvl = .float q) ∧ (mop = .binString → updateMutLvlR ar.rnd lvl len = .ok (.float q))

theorem SafeCore.low_after {fit : Fit ℚ} {sel : SelOp} {op : CrossOp} {mop : MutOp} {tr : Transfer} {P : List Val → Prop}
    {s0 : St ℚ} (h0 : SafeCore fit op mop tr P s0) (hl : LowNext s0.ga.attrs.arith mop (s0.ga.attrs.idxBits.getLastD 0) s0.mutLvl) {k : Nat}
    {s : St ℚ} (h : After (singleOps fit sel op mop tr) s0 k s) : LowNext s0.ga.attrs.arith mop (s0.ga.attrs.idxBits.getLastD 0) s.mutLvl := by
  have hops := singleOps_run fit sel op mop tr
  induction h with
  | @first s1 s a b =>
    obtain ⟨_, _, _, _, _, hS, _⟩ := first_inv hops.fitness h0.fresh a b
    rw [gaUpdate_mutLvl b, hS.shape]
    exact hl
  | @next k s s' a b ih =>
    have hinv := a.inv hops h0.fresh
    obtain ⟨s1, s2, s3, es, t, hB, _, _, e2, _, _, _, _, hF, hup, hng⟩ := generation_ok hops hinv.settled b
    have hl : s'.mutLvl = s1.mutLvl := by
      rw [gaUpdate_mutLvl hup, hF.shape, e2]
    rw [hl]
    obtain ⟨q, q0, q1, q2, q3⟩ := ih
    by_cases hop : mop = .binString
    · have hu := hB.lvl.2 hop
      rw [(h0.inv a).attrs] at hu
      have e := (q3 hop).symm.trans hu
      injection e with e
      rw [← e]
      exact ⟨q, q0, q1, fun h => absurd hop h, fun _ => rfl⟩
    · rw [hB.lvl.1 hop]; exact ⟨q, q0, q1, q2, q3⟩

theorem gridBits_sum {gens : List BinGene} {ps : List GeneParams} (h : List.Forall₂ (fun g p => geneParams g = .ok p) gens ps) :
    ∀ {ns : List Nat}, List.Forall₂ GridBits gens ns → ns.sum = totalBits ps := by
  induction h with
  | nil => intro ns hn; cases hn; rfl
  | cons h1 _ ih =>
    intro ns hn
    cases hn with
    | cons a b =>
      have := ih b
      have := (gridBits_iff h1).mp a
      simp only [totalBits, List.map_cons, List.sum_cons] at *
      omega

theorem SingleFacade.low_start {f : SingleFacade} {lvl l : MutLvl} (hu : f.Usable) (hlv : f.Level lvl) (hun : f.Uncertain lvl)
    (hl : checkMutation f.mutOp lvl = .ok l) {at_ : Attrs} (hsp : at_.spec = f.spec)
    (hprep : ∀ gray gens, at_.spec = .binary gray gens → Prepared at_ gray gens) (hex : at_.arith = .exact) :
    LowNext .exact f.mutOp (at_.idxBits.getLastD 0) l := by
  rcases hlv with ⟨q, rfl, h0, h1⟩ | ⟨hn, hx⟩
  · unfold checkMutation at hl
    simp only at hl
    rw [if_neg (by push Not; exact ⟨h0, h1⟩)] at hl
    injection hl with hl
    subst hl
    exact ⟨q, h0, hun.1 q rfl, fun _ => rfl, fun _ => rfl⟩
  · cases f with
    | categorical gens => exact absurd rfl (hn gens)
    | binary gray gens =>
      have hP := hprep gray gens hsp
      have h2 := totalBits_two id_rounding (hP.forall hex) (fun _ _ => rfl) hu.2.1 hu.2.2
      rw [hP.total]
      have hlen : (2 : ℚ) ≤ totalBits at_.params := by exact_mod_cast h2
      have hpos : (0 : ℚ) < totalBits at_.params := by linarith
      rcases hx with rfl | rfl | rfl
      · obtain rfl : l = .str "weak" := by simpa [checkMutation, SingleFacade.mutOp, eq_comm] using hl
        refine ⟨3 / 10 / totalBits at_.params, by positivity, ?_, fun h => absurd rfl h, fun _ => ?_⟩
        · rw [div_lt_iff₀ hpos]; nlinarith
        · simp [updateMutLvlR, Arith.exact, show totalBits at_.params ≠ 0 by omega]
      · obtain rfl : l = .str "normal" := by simpa [checkMutation, SingleFacade.mutOp, eq_comm] using hl
        refine ⟨1 / totalBits at_.params, by positivity, ?_, fun h => absurd rfl h, fun _ => ?_⟩
        · rw [div_lt_iff₀ hpos]; nlinarith
        · simp [updateMutLvlR, Arith.exact, show totalBits at_.params ≠ 0 by omega]
      · obtain rfl : l = .str "strong" := by simpa [checkMutation, SingleFacade.mutOp, eq_comm] using hl
        obtain ⟨ns, n1, n2⟩ := hun.2 rfl gray gens rfl
        rw [gridBits_sum (hP.forall hex) n1] at n2
        have h4 : (4 : ℚ) ≤ totalBits at_.params := by exact_mod_cast n2
        refine ⟨3 / totalBits at_.params, by positivity, ?_, fun h => absurd rfl h, fun _ => ?_⟩
        · rw [div_lt_iff₀ hpos]; nlinarith
        · simp [updateMutLvlR, Arith.exact, show totalBits at_.params ≠ 0 by omega]
    | combinatory a b k =>
      have hb : SingleFacade.mutOp (.combinatory a b k) ≠ .binString := by simp [SingleFacade.mutOp]
      rcases hx with rfl | rfl | rfl
      · obtain rfl : l = .float (3 / 100) := by simpa [checkMutation, SingleFacade.mutOp, eq_comm] using hl
        exact ⟨3 / 100, by norm_num, by norm_num, fun _ => rfl, fun h => absurd h hb⟩
      · obtain rfl : l = .float (1 / 10) := by simpa [checkMutation, SingleFacade.mutOp, eq_comm] using hl
        exact ⟨1 / 10, by norm_num, by norm_num, fun _ => rfl, fun h => absurd h hb⟩
      · obtain rfl : l = .float (3 / 10) := by simpa [checkMutation, SingleFacade.mutOp, eq_comm] using hl
        exact ⟨3 / 10, by norm_num, by norm_num, fun _ => rfl, fun h => absurd h hb⟩

/-! ## going on from a generation -/

section
variable {σ : Type} {ops : Ops σ} {s0 : St σ}

/-- The main loop passes through the generations as long as nothing stops it. -/
theorem mainLoop_to {e : Int} (hstop : ∀ i si, After ops s0 i si → si.ga.earlyStop = some e) {a b : St σ} {k : Nat}
    (ha : After ops s0 1 a) (hb : After ops s0 k b)
    (hgo : ∀ i si, 1 < i → i ≤ k → After ops s0 i si → ¬ e < si.ga.noImprove) :
    ∀ m, mainLoop ops (m + (k - 1)) a = mainLoop ops m b := by
  induction hb with
  | first h1 h2 => intro m; rw [ha.unique (.first h1 h2)]; rfl
  | @next k b b' h1 h2 ih =>
    intro m
    have hk := h1.pos
    have := ih (fun i si j1 j2 => hgo i si j1 (by omega)) (m + 1)
    rw [show m + (k + 1 - 1) = m + 1 + (k - 1) by omega, this, mainLoop, bind_of_ok h2, bind_of_ok (getGa_run b'),
      hstop _ _ (.next h1 h2)]
    simp only
    rw [if_neg (hgo _ _ (by omega) (by omega) (.next h1 h2))]

theorem evolve_from_first {a : St σ} (ha : After ops s0 1 a) : evolve ops s0 = mainLoop ops (a.ga.numGenerations - 1) a := by
  cases ha with
  | first h1 h2 =>
    unfold evolve
    rw [bind_of_ok h1, bind_of_ok h2, bind_of_ok (getGa_run _)]
  | next h1 _ => exact absurd h1.pos (by omega)

theorem After.one {s : St σ} {k : Nat} (h : After ops s0 k s) : ∃ a, After ops s0 1 a := by
  induction h with
  | first h1 h2 => exact ⟨_, .first h1 h2⟩
  | next _ _ ih => exact ih

/-- The same generations with other limits. -/
theorem After.limits {spec : PopSpec} {ar : Arith} {n : Nat} {e : Int} (hi : ops.Imgs (Ren.limits spec ar n e) ops) (hs : s0.ga.attrs.tag = (spec, ar))
    {k : Nat} {s : St σ} (h : After ops s0 k s) :
    After ops ((Ren.limits spec ar n e).st s0) k ((Ren.limits spec ar n e).st s) ∧ s.ga.attrs.tag = (spec, ar) := by
  induction h with
  | first h1 h2 =>
    obtain ⟨a1, a2⟩ := hi.fitness s0 hs
    rw [h1] at a1 a2
    obtain ⟨b1, b2⟩ := hi.update _ a2
    rw [h2] at b1 b2
    exact ⟨.first a1 b1, b2⟩
  | next _ h2 ih =>
    obtain ⟨a1, a2⟩ := Img.generation hi _ ih.2
    rw [h2] at a1 a2
    exact ⟨.next ih.1 a1, a2⟩
end

theorem exists_forall₂ {α β : Type} {R : α → β → Prop} : ∀ {l : List α}, (∀ a ∈ l, ∃ b, R a b) → ∃ m, List.Forall₂ R l m
  | [], _ => ⟨[], .nil⟩
  | a :: l, h => by
    obtain ⟨b, hb⟩ := h a List.mem_cons_self
    obtain ⟨m, hm⟩ := exists_forall₂ (l := l) fun x hx => h x (List.mem_cons_of_mem _ hx)
    exact ⟨b :: m, .cons hb hm⟩

/-- C86: after a finished run of `BinaryGA` or `CategoricalGA` nothing is out of reach.  Take the same call with more
generations.  There are draws for which it first makes the same generations, and then one with any chosen points among
its individuals, as many as there are children. -/
theorem C86_next_generation {f : SingleFacade} {c c' : Cfg} {ov : Option ℚ} {s s1 : St ℚ} (ha : Admissible f c s.conds)
    (hxa : c.arith = .exact) (hseed : s.seed = none) (hc : c.tournamentSize ≤ ⌊c.childrenPercent * c.numIndivid⌋) (hun : f.Uncertain c.mutationLvl)
    (hf : ∀ a b k, f ≠ .combinatory a b k) (h : f.optimize c ov s = (.ok (), s1)) (hl : c.Longer c')
    (hes : c'.earlyStop = none) (hmore : s1.ga.idxGeneration < c'.numGenerations)
    {xs : List (List Val)} (hxl : xs.length = c.children) (hx : ∀ x ∈ xs, f.Point x) :
    ∃ pre u s2 gen rest, s.tape = pre ++ s1.tape ∧ f.optimize c' ov { s with tape := pre ++ u } = (.ok (), s2) ∧
      generationsOf s2 = generationsOf s1 ++ gen :: rest ∧
      ∀ x ∈ xs, ∃ i ∈ gen, argument f.spec.hasPhenotype i = some x := by
  have hcs : c'.obj1 = c.obj1 ∧ c'.obj2 = c.obj2 ∧ c'.inputTruthy = c.inputTruthy ∧ c'.penalty = c.penalty ∧
      c'.tournamentSize = c.tournamentSize ∧ c'.numIndivid = c.numIndivid ∧ c'.childrenPercent = c.childrenPercent ∧ c'.arith = c.arith := by
    obtain ⟨n, e, rfl⟩ := hl.same
    exact ⟨rfl, rfl, rfl, rfl, rfl, rfl, rfl, rfl⟩
  obtain ⟨v1, v2, v3, v4, v5, v6, v7, v8⟩ := hcs
  have hlev : c'.mutationLvl = c.mutationLvl := by obtain ⟨n, e, rfl⟩ := hl.same; rfl
  have ha' : Admissible f c' s.conds := by
    obtain ⟨n, e, rfl⟩ := hl.same
    exact ⟨ha.genes, ha.input, ha.room, ha.size, ha.size_lt, ha.level, ha.transfer, ha.objective, ha.arith⟩
  -- the finished run
  rw [f.optimize_eq] at h
  obtain ⟨p, s0, hst, h2⟩ := bind_ok.mp h
  obtain ⟨k, hk⟩ : ∃ k, After (f.ops c p) s0 k s1 := by
    obtain ⟨_, sx, h3, h4⟩ := bind_ok.mp h2
    obtain ⟨_, k, _, _, _, hk, _⟩ := evolve_after h3
    obtain ⟨_, _, _, _, _, _, _, _, a7⟩ := startUp_ok hst
    obtain ⟨b, g, v, r, t1, _⟩ := (hk.inv (singleOps_run p.1 (.tournament c.tournamentSize) f.cross f.mutOp p.2) a7.fresh).top
    have : sx = s1 := by
      split at h4
      · unfold printBest at h4
        rw [bind_of_ok (getS_run sx), t1] at h4
        exact (pure_ok.mp h4).2.symm
      · exact (pure_ok.mp h4).2.symm
    exact ⟨k, this ▸ hk⟩
  have hops : f.ops c' p = f.ops c p := by unfold SingleFacade.ops; rw [v5]
  have htask : hyperbolaTask c'.obj1 c'.obj2 c'.inputTruthy c'.penalty ov c'.arith =
      hyperbolaTask c.obj1 c.obj2 c.inputTruthy c.penalty ov c.arith := by rw [v1, v2, v3, v4, v8]
  -- the start of the other run
  obtain ⟨pre0, hpre0, htr0⟩ := (startUp_tame c f.spec (hyperbolaTask c.obj1 c.obj2 c.inputTruthy c.penalty ov c.arith) f.mutOp).trim s s0 p hseed hst
  have n0 : s0.seed = none := by
    obtain ⟨_, _, _, _, _, _, a5, _⟩ := startUp_ok hst
    exact a5.trans hseed
  obtain ⟨pre1, hpre1, htr1⟩ := hk.trim n0
  let R : Ren ℚ := Ren.limits f.spec c.arith c'.numGenerations c'.stop
  have hsp0 : ∀ w, ({ s0 with tape := w } : St ℚ).ga.attrs.tag = (f.spec, c.arith) := fun w => ((startUp_longer hl _ _ _ s).2 p s0 hst).1
  have hspk : ∀ w, ({ s1 with tape := w } : St ℚ).ga.attrs.tag = (f.spec, c.arith) := fun w =>
    (After.limits (single_limits _ _ c'.numGenerations c'.stop p.1 c.tournamentSize f.cross f.mutOp p.2) (hsp0 s0.tape) hk).2
  let t0 : List Nat → St ℚ := fun w =>
    { s0 with tape := w, ga := { s0.ga with numGenerations := c'.numGenerations, earlyStop := some c'.stop } }
  let t1 : List Nat → St ℚ := fun w =>
    { s1 with tape := w, ga := { s1.ga with numGenerations := c'.numGenerations, earlyStop := some c'.stop } }
  have eR0 : ∀ w, R.st { s0 with tape := w } = t0 w := fun w => Ren.limits_st _ _ _ _ (hsp0 w)
  have eR1 : ∀ w, R.st { s1 with tape := w } = t1 w := fun w => Ren.limits_st _ _ _ _ (hspk w)
  have hstart : ∀ v, startUp c' f.spec (hyperbolaTask c.obj1 c.obj2 c.inputTruthy c.penalty ov c.arith) f.mutOp { s with tape := pre0 ++ v } =
      (.ok p, t0 v) := by
    intro v
    rw [← eR0]
    exact ((startUp_longer hl _ _ _ _).2 p _ (htr0 v)).2
  have hafter : ∀ v, After (f.ops c p) (t0 (pre1 ++ v)) k (t1 v) := by
    intro v
    have := (After.limits (single_limits _ _ c'.numGenerations c'.stop p.1 c.tournamentSize f.cross f.mutOp p.2) (hsp0 _) (htr1 v)).1
    have e1 := eR0 (pre1 ++ v)
    have e2 := eR1 v
    change Ren.st (Ren.limits f.spec c.arith c'.numGenerations c'.stop) _ = _ at e1 e2
    rw [e1, e2] at this
    exact this
  obtain ⟨ta, tb, a1, a2, _, a4, a5, a6, a7⟩ := startUp_ok (hstart (pre1 ++ []))
  have hset : SafeSetup p.1 (.tournament c'.tournamentSize) f.cross f.mutOp p.2 (f.Geno (t0 (pre1 ++ [])).ga.attrs) (t0 (pre1 ++ [])) :=
    run_safe (ov := ov) (sa := ta) (sb := tb) (by rw [a2]; exact ha') (by rw [htask]; exact a1) a4 a6 a7
  rw [v5] at hset
  have hseed' : ∀ w, (t0 w).seed = none := fun _ => n0
  obtain ⟨q1, hcr⟩ := a7.created
  obtain ⟨_, hd, _⟩ := createPopulation_ok hcr
  have hnum : (t0 (pre1 ++ [])).ga.attrs.numIndivid = c.numIndivid := by rw [← v6]; exact hd.num
  have hprep : ∀ gray gens, (t0 (pre1 ++ [])).ga.attrs.spec = .binary gray gens → Prepared (t0 (pre1 ++ [])).ga.attrs gray gens := by
    intro gray gens e
    exact hd.prep gray gens (hd.spec_eq.symm.trans e)
  have hpairs : numPairs (t0 (pre1 ++ [])).ga 1 = c.children := by
    rw [← v6] at hnum
    rw [numPairs_children hnum a7.percent a7.arith]
    unfold Cfg.children
    rw [v6, v7, v8]
  have hsz : c.tournamentSize ≤ numPairs (t0 (pre1 ++ [])).ga 1 := by
    rw [hpairs, Cfg.children_exact hxa]
    have h2 := ha.size
    rw [Int.toNat_of_nonneg (by omega)]; exact hc
  have hex : (t0 (pre1 ++ [])).ga.attrs.arith = .exact := a7.arith.trans (v8.trans hxa)
  -- genotypes of the points
  have hgeno : ∀ x ∈ xs, ∃ g, f.Geno (t0 (pre1 ++ [])).ga.attrs g ∧ ((t0 (pre1 ++ [])).ga.attrs.isPhenotype = true →
      decodeIndivid (t0 (pre1 ++ [])).ga.attrs g = .ok x) ∧ ((t0 (pre1 ++ [])).ga.attrs.isPhenotype = false → g = x) := by
    intro x hxm
    have hp := hx x hxm
    have hph := hd.phen
    cases f with
    | combinatory a b k => exact absurd rfl (hf a b k)
    | binary gray gens =>
      obtain ⟨g, g1, g2, g3⟩ := (C05_decode_exactly (hprep gray gens hd.spec_eq) hex).mpr hp
      refine ⟨g, ⟨g1, g2⟩, fun _ => g3, fun hfalse => ?_⟩
      rw [hph.mpr ⟨gray, gens, rfl⟩] at hfalse
      cases hfalse
    | categorical gens =>
      refine ⟨x, hp, fun htrue => ?_, fun _ => rfl⟩
      obtain ⟨_, _, e⟩ := hph.mp htrue
      simp [SingleFacade.spec] at e
  obtain ⟨gs, hgs⟩ := exists_forall₂ hgeno
  -- the next generation
  obtain ⟨l, l1, l2⟩ := a6
  rw [v8, hxa, MutLvl.stored_exact] at l2
  obtain ⟨q, w0, w1, w2, w3⟩ := hset.toSafeCore.low_after (by
    rw [hex, l2]
    exact f.low_start ha.genes (hlev ▸ ha.level) (hlev ▸ hun) l1 hd.spec_eq hprep hex) (hafter [])
  obtain ⟨u0, s3, hg3, hin⟩ := hset.generation_any (hseed' _) hsz ha.size (by rw [hnum]; exact ha.size_lt) (hafter [])
    (gs := gs) (by rw [hpairs, ← hxl]; exact hgs.length_eq.symm) (lvl := .float q)
    ⟨fun hop => (w2 hop).symm, fun hop => by rw [(hset.inv (hafter [])).attrs]; exact w3 hop⟩ (by
      intro g0 p1 p2 g1 g' k0 k1 k2 hcr hg'
      obtain ⟨x, hxm, hgx⟩ : ∃ x ∈ xs, f.Geno (t0 (pre1 ++ [])).ga.attrs g' := by
        obtain ⟨i, hi, rfl⟩ := List.getElem_of_mem hg'
        have hl := hgs.length_eq
        exact ⟨xs[i], List.getElem_mem _, ((List.forall₂_iff_get.mp hgs).2 i (by omega) hi).1⟩
      have hres := f.geno_closed _ .other g0 p1 p2 g1 g1 k0 k1 k2 hcr (.inl rfl)
      rw [hd.spec_eq, hex, MutLvl.effective_exact]
      cases f with
      | combinatory a b k => exact absurd rfl (hf a b k)
      | binary gray gens => exact C68_bits w0 w1 hres.1 hgx.1 (hres.2.trans hgx.2.symm)
      | categorical gens => exact ⟨gens, rfl, C68_categorical w0 w1 hres hgx⟩)
  have hnext : After (f.ops c p) (t0 (pre1 ++ u0)) (k + 1) s3 := .next (hafter u0) hg3
  -- the rest of the run
  have hset' : ∀ w, SafeSetup p.1 (.tournament c.tournamentSize) f.cross f.mutOp p.2 (f.Geno (t0 (pre1 ++ [])).ga.attrs) (t0 w) :=
    fun w => hset.withTape w
  have hnum' : ∀ w, (t0 w).ga.attrs.numIndivid = c.numIndivid := fun _ => hnum
  have hidx : s1.ga.idxGeneration = k := by
    obtain ⟨_, _, _, _, _, _, _, _, b7⟩ := startUp_ok hst
    exact (hk.inv (singleOps_run p.1 (.tournament c.tournamentSize) f.cross f.mutOp p.2) b7.fresh).hist.idx
  obtain ⟨m, hm⟩ : ∃ m, c'.numGenerations - 1 = m + 1 + (k - 1) := by
    have := hk.pos
    exact ⟨c'.numGenerations - 1 - k, by omega⟩
  obtain ⟨u1, _, s2, hend⟩ := mainLoop_poss (n := m) (hset' (pre1 ++ u0)) (hseed' _) hsz ha.size
    (by rw [hnum']; exact ha.size_lt) hnext
  have hT : (t0 (pre1 ++ u0)).more u1 = t0 (pre1 ++ (u0 ++ u1)) := by
    show t0 ((pre1 ++ u0) ++ u1) = _
    rw [List.append_assoc]
  have hnext' : After (f.ops c p) (t0 (pre1 ++ (u0 ++ u1))) (k + 1) (s3.more u1) := by
    rw [← hT]
    exact (hnext.more (hseed' _) u1).1
  have hkeep : ∀ i si, After (f.ops c p) (t0 (pre1 ++ (u0 ++ u1))) i si → si.ga.numGenerations = c'.numGenerations ∧
      si.ga.earlyStop = some c'.stop := by
    intro i si hsi
    obtain ⟨⟨d1, _, d3⟩, _⟩ := hsi.keeps sameSetup_frame (singleOps_keep p.1 (.tournament c.tournamentSize) f.cross f.mutOp p.2)
    exact ⟨d1, d3⟩
  obtain ⟨fa, hfa⟩ := hnext'.one
  have hloop := mainLoop_to (e := c'.stop) (fun i si hsi => (hkeep i si hsi).2) hfa hnext' (by
    intro i si _ hi2 hsi
    obtain ⟨_, b, g, _, hb⟩ := C45_no_improve (hset' _).fresh hsi
    unfold Cfg.stop
    rw [hes]
    simp only [Option.getD_none]
    omega) m
  have hevo : evolve (f.ops c p) (t0 (pre1 ++ (u0 ++ u1))) = (.ok (), s2) := by
    rw [evolve_from_first hfa, (hkeep 1 fa hfa).1, show c'.numGenerations - 1 = m + (k + 1 - 1) by have := hk.pos; omega, hloop]
    exact hend
  have hfin : f.optimize c' ov { s with tape := pre0 ++ (pre1 ++ (u0 ++ u1)) } = (.ok (), s2) := by
    rw [f.optimize_eq, htask, bind_of_ok (hstart _), hops, bind_of_ok hevo]
    split
    · obtain ⟨_, j, _, _, _, hj, _⟩ := evolve_after hevo
      obtain ⟨b, g, v, r, z1, _⟩ := (hj.inv (singleOps_run p.1 (.tournament c.tournamentSize) f.cross f.mutOp p.2) (hset' _).fresh).top
      unfold printBest
      rw [bind_of_ok (getS_run s2), z1]
      rfl
    · rfl
  -- its generations
  have hinv := hnext'.inv (singleOps_run p.1 (.tournament c.tournamentSize) f.cross f.mutOp p.2) (hset' _).fresh
  have hgood := (hset' _).inv hnext'
  have hgrow := generation_keeps grows_steady.step (single_grows p.1 (.tournament c.tournamentSize) f.cross f.mutOp p.2)
    (t1 (u0 ++ u1))
  have hgen : generation (f.ops c p) (t1 (u0 ++ u1)) = (.ok (), s3.more u1) := (hafter (u0 ++ u1)).step hnext'
  have hpre : s1.snaps <+: (s3.more u1).snaps := by
    have := hgrow.snaps
    rw [show generation (singleOps p.1 (.tournament c.tournamentSize) f.cross f.mutOp p.2) (t1 (u0 ++ u1)) = _ from hgen] at this
    exact this
  obtain ⟨last, hlast⟩ := hpre
  have hs1 : s1.snaps.length = k := by
    obtain ⟨_, _, _, _, _, _, _, _, b7⟩ := startUp_ok hst
    exact (hk.inv (singleOps_run p.1 (.tournament c.tournamentSize) f.cross f.mutOp p.2) b7.fresh).hist.snaps
  have hone : last = [(s3.more u1).ga.population.map (s3.more u1).heap] := by
    have e1 := hinv.hist.snaps
    have e2 := hinv.last
    rw [← hlast, List.length_append] at e1
    rw [← hlast] at e2
    match last, (show last.length = 1 by omega) with
    | [x], _ => simp at e2; simp [e2]
  have hrest : (s3.more u1).snaps <+: s2.snaps := by
    have := (mainLoop_keeps grows_steady.step (single_grows p.1 (.tournament c.tournamentSize) f.cross f.mutOp p.2) m
      (s3.more u1)).snaps
    rw [hend] at this
    exact this
  obtain ⟨rest, hrest⟩ := hrest
  refine ⟨pre0 ++ pre1, u0 ++ u1, s2, (s3.more u1).ga.population.map (s3.more u1).heap, rest, ?_, ?_, ?_, ?_⟩
  · rw [List.append_assoc, ← hpre1, hpre0]
  · rw [List.append_assoc]; exact hfin
  · show s2.snaps = s1.snaps ++ _
    rw [← hrest, ← hlast, hone, List.append_assoc]
    rfl
  · intro x hxm
    obtain ⟨i, hi, rfl⟩ := List.getElem_of_mem hxm
    have hl := hgs.length_eq
    obtain ⟨g1, g2, g3⟩ := (List.forall₂_iff_get.mp hgs).2 i hi (by omega)
    simp only [List.get_eq_getElem] at g1 g2 g3
    obtain ⟨r, hr, hrg⟩ := hin gs[i] (List.getElem_mem _)
    refine ⟨(s3.more u1).heap r, List.mem_map_of_mem hr, ?_⟩
    obtain ⟨g, y1, _, y3⟩ := hgood.good r hr
    change (s3.heap r).genotype = some g at y1
    rw [hrg] at y1
    injection y1 with y1
    have hph := hd.phen
    show argument f.spec.hasPhenotype (s3.heap r) = _
    cases f with
    | combinatory a b k => exact absurd rfl (hf a b k)
    | binary gray gens =>
      have htrue := hph.mpr ⟨gray, gens, rfl⟩
      obtain ⟨ph, z1, z2⟩ := y3 htrue
      rw [← y1] at z2
      have := (g2 htrue).symm.trans z2
      injection this with this
      rw [this]
      exact z1
    | categorical gens =>
      have hfalse : (t0 (pre1 ++ [])).ga.attrs.isPhenotype = false := by
        rw [Bool.eq_false_iff]
        intro hp
        obtain ⟨_, _, e⟩ := hph.mp hp
        simp [SingleFacade.spec] at e
      rw [← g3 hfalse]
      exact hrg

/-- C86, consequence for unconstrained tasks: whatever happened so far, the next generation can reach any optimum, and
then `best_solution` is at least as good as every point of the search space. -/
theorem C86_optimum {f : SingleFacade} {c c' : Cfg} {ov : Option ℚ} {s s1 : St ℚ} (ha : Admissible f c s.conds)
    (hxa : c.arith = .exact) (hn : ¬ Constrained c s.conds)
    (hseed : s.seed = none) (hc : c.tournamentSize ≤ ⌊c.childrenPercent * c.numIndivid⌋) (hun : f.Uncertain c.mutationLvl)
    (hf : ∀ a b k, f ≠ .combinatory a b k) (h : f.optimize c ov s = (.ok (), s1)) (hl : c.Longer c')
    (hes : c'.earlyStop = none) (hmore : s1.ga.idxGeneration < c'.numGenerations) {x : List Val} (hx : f.Point x) {o : ℚ}
    (ho : c.objective x = .ok (.sc o)) :
    ∃ pre u s2, s.tape = pre ++ s1.tape ∧ f.optimize c' ov { s with tape := pre ++ u } = (.ok (), s2) ∧
      ∃ b g y ob, s2.ga.best = some (.single b g) ∧ argument f.spec.hasPhenotype (s2.heap b) = some y ∧
        c.objective y = .ok (.sc ob) ∧ cost ov ob ≤ cost ov o := by
  have h2 := ha.size
  obtain ⟨pre, u, s2, gen, rest, r1, r2, r3, r4⟩ := C86_next_generation (xs := List.replicate c.children x) ha hxa hseed hc hun hf h hl hes
    hmore (by simp) (by simp only [List.mem_replicate]; rintro _ ⟨_, rfl⟩; exact hx)
  obtain ⟨i, hi, hix⟩ := r4 x (by
    rw [List.mem_replicate]
    rw [Cfg.children_exact hxa]
    exact ⟨by omega, rfl⟩)
  refine ⟨pre, u, s2, r1, r2, ?_⟩
  have hobj : c'.objective = c.objective ∧ (Constrained c' s.conds ↔ Constrained c s.conds) := by
    obtain ⟨n, e, rfl⟩ := hl.same
    exact ⟨rfl, Iff.rfl⟩
  obtain ⟨b, g, y, ob, b1, b2, b3, b4, b5, b6⟩ := C72_best_of_all (c := c') (by obtain ⟨n, e, rfl⟩ := hl.same; exact hxa) (s := { s with tape := pre ++ u }) (fun h => hn (hobj.2.mp h)) r2
  obtain ⟨_, _, _, m2⟩ := C71_budget r2
  obtain ⟨z, z1, z2⟩ := m2 gen (by rw [r3]; simp) i hi
  rw [hix] at z2
  injection z2 with z2
  subst z2
  obtain ⟨o', o1, o2⟩ := b6 x z1
  rw [hobj.1] at b4 o1
  rw [ho] at o1
  injection o1 with o1
  injection o1 with o1
  subst o1
  exact ⟨b, g, y, ob, b1, b2, b4, o2⟩

/-! ## A concrete case -/

theorem exSum_uncertain : SingleFacade.Uncertain (.binary true [⟨0, 3, 1⟩, ⟨-1, 1, 1 / 2⟩]) exSumCfg.mutationLvl := by
  refine ⟨fun q h => by simp [exSumCfg] at h, fun _ gray gens h => ?_⟩
  have h3 : ⌊|(3 : ℚ) - 0| / 1⌋ = 3 := by norm_num
  have h4 : ⌊|(1 : ℚ) - (-1)| / (1 / 2)⌋ = 4 := by norm_num
  injection h with _ h
  subst h
  refine ⟨[2, 3], .cons ⟨?_, ?_⟩ (.cons ⟨?_, ?_⟩ .nil), by decide⟩
  · simp only [h3]; norm_num
  · intro m hm
    simp only [h3] at hm
    by_contra hlt
    obtain h | h : m = 0 ∨ m = 1 := by omega
    all_goals subst h; norm_num at hm
  · simp only [h4]; norm_num
  · intro m hm
    simp only [h4] at hm
    by_contra hlt
    obtain h | h | h : m = 0 ∨ m = 1 ∨ m = 2 := by omega
    all_goals subst h; norm_num at hm

/-- The sum of two numbers from `{0, 1, 2, 3}` and `{-1, -5/7, …, 1}` is to be minimised.  However a run of up to four
generations went, one of twenty generations can begin like it and find a sum of at most -1. -/
example (t : List Nat) (s1 : St ℚ)
    (h : (SingleFacade.binary true [⟨0, 3, 1⟩, ⟨-1, 1, 1 / 2⟩]).optimize exSumCfg none { tape := t } = (.ok (), s1)) :
    ∃ pre u s2, t = pre ++ s1.tape ∧
      (SingleFacade.binary true [⟨0, 3, 1⟩, ⟨-1, 1, 1 / 2⟩]).optimize { exSumCfg with numGenerations := 20, earlyStop := none }
        none { tape := pre ++ u } =
        (.ok (), s2) ∧
      ∃ b g y ob, s2.ga.best = some (.single b g) ∧ (s2.heap b).phenotype = some y ∧ exSumCfg.objective y = .ok (.sc ob) ∧ ob ≤ -1 := by
  have hp : SingleFacade.Point (.binary true [⟨0, 3, 1⟩, ⟨-1, 1, 1 / 2⟩]) [.num 0, .num (-1)] := by
    obtain ⟨ns, hns, _⟩ := exSum_uncertain.2 rfl true _ rfl
    cases hns with
    | cons a b =>
      cases b with
      | cons b c =>
        exact .cons ⟨_, 0, a, by positivity, by norm_num⟩ (.cons ⟨_, 0, b, by positivity, by norm_num⟩ .nil)
  obtain ⟨_, h2, _⟩ := C46_facades h
  exact C86_optimum (s := { tape := t }) exSum_admissible rfl (by rintro ⟨h, _⟩; cases h) rfl (by norm_num [exSumCfg]) exSum_uncertain
    (by simp) h ⟨⟨20, none, rfl⟩, by decide, by decide⟩ rfl (by simp [exSumCfg] at h2; show _ < 20; omega) hp
    (o := -1) (by simp [Cfg.objective, exSumCfg, sumNums])

/-- And there are such runs. -/
example : ∃ t s1, (SingleFacade.binary true [⟨0, 3, 1⟩, ⟨-1, 1, 1 / 2⟩]).optimize exSumCfg none { tape := t } = (.ok (), s1) :=
  C70_completable_partial (s := {}) exSum_admissible rfl (by decide +kernel)

end BaumEva
