import Verif.Props.MachineRuns
/-!
# C99-C101: where the objective is called, and using results as input of another run
-/
namespace BaumEva
open Spec

/-! ## C99: the search range in machine arithmetic -/

/-- C99, full claim: in binary64 `BinaryGA` calls the objective only with values inside the ranges of the genes. -/
def FloatInBox : Prop :=
  ∀ (gray : Bool) (gens : List BinGene) (c : Cfg) (ov : Option ℚ) (s s' : St ℚ), c.arith = .binary64 →
    Admissible (.binary gray gens) c s.conds → (∀ g ∈ gens, Machine fl g.hi) → binaryGA c gray gens ov s = (.ok (), s') →
    ∀ x ∈ evaluated s s', List.Forall₂ InGene gens x

/-- One generation of three individuals over the gene `(0, 3.1, 1)`, maximising the value. -/
def exEdgeCfg : Cfg :=
  { numGenerations := 1, numIndivid := 3, obj1 := fun x => .ok (.sc (-(sumNums x))), childrenPercent := 1 / 2, tournamentSize := 2,
    mutationLvl := .str "weak", arith := .binary64 }

theorem exEdge_admissible : Admissible (.binary false [exFloatGene]) exEdgeCfg none where
  genes := by
    refine ⟨?_, ?_, .inr ⟨exFloatGene, by simp, by decide +kernel⟩⟩
    · intro g hg; simp only [List.mem_singleton] at hg; subst hg; decide +kernel
    · intro g hg; simp only [List.mem_singleton] at hg; subst hg; unfold Degenerate; decide +kernel
  input := by simp [exEdgeCfg]
  room := by simp [exEdgeCfg]
  size := by simp [exEdgeCfg]
  size_lt := by simp [exEdgeCfg]
  level := .inr ⟨by simp, by simp [exEdgeCfg]⟩
  transfer := .inl rfl
  objective := .inl ⟨.inl rfl, fun _ _ => ⟨_, rfl⟩⟩
  arith := by
    refine .inr ⟨fl_rounding, fun _ _ e => ?_⟩
    injection e with _ e
    subst e
    intro g hg
    simp only [List.mem_singleton] at hg
    subst hg
    exact ⟨by unfold Machine; decide +kernel, by unfold Machine; decide +kernel, by decide +kernel⟩

def exEdge : Except PyErr Unit × St ℚ := binaryGA exEdgeCfg false [exFloatGene] none { tape := [3, 3, 3] }

set_option maxRecDepth 100000 in
theorem exEdge_values : exEdge.1 = .ok () ∧ [.num (6980579422424270 / 2251799813685248)] ∈ evaluated { tape := [3, 3, 3] } exEdge.2 := by
  decide +kernel

/-- C99 is false: the objective is called with 3.1000000000000005 although the gene ends at 3.1. -/
theorem C99_float_box_refuted : ¬ FloatInBox := by
  intro h
  obtain ⟨h1, h2⟩ := exEdge_values
  have h3 := h false [exFloatGene] exEdgeCfg none { tape := [3, 3, 3] } exEdge.2 rfl exEdge_admissible (by
    intro g hg; simp only [List.mem_singleton] at hg; subst hg; unfold Machine; decide +kernel) (Prod.ext h1 rfl) _ h2
  cases h3 with
  | cons h4 _ =>
    obtain ⟨q, hq, _, h5⟩ := h4
    injection hq with hq
    subst hq
    exact absurd h5 (by decide +kernel)

/-- Every point the objective is called with is decoded from a bit string of the right length. -/
theorem evaluated_decoded {c : Cfg} {gray : Bool} {gens : List BinGene} {ov : Option ℚ} {s s' : St ℚ} (hg : Proper gens)
    (h : binaryGA c gray gens ov s = (.ok (), s')) :
    ∃ at_, Prepared at_ gray gens ∧ at_.arith = c.arith ∧ ∀ x ∈ evaluated s s', ∃ geno, IsBits geno ∧
      geno.length = at_.idxBits.getLastD 0 ∧ decodeIndivid at_ geno = .ok x := by
  have h' : (SingleFacade.binary gray gens).optimize c ov s = (.ok (), s') := h
  obtain ⟨_, _, m1, _⟩ := C71_budget h'
  obtain ⟨at_, hprep, har, hwf⟩ := C48_binary hg h
  refine ⟨at_, hprep, har, ?_⟩
  intro x hx
  obtain ⟨l, hl, y, hy, e⟩ := m1 x hx
  obtain ⟨g, p, _, w2, w3, w4, w5, _⟩ := hwf l hl y hy
  have e' : y.phenotype = some x := e
  rw [w2] at e'
  injection e' with e'
  subst e'
  exact ⟨g, w3, w4, w5⟩

/-- C99 as far as it holds, for every rounding: the objective is called with one number per gene, a point of the equidistant
grid up to 16 unit roundoffs of the larger end of the gene, never below the lower end, and on grids with a step of at least 16
unit roundoffs only the last grid point can lie above the upper end.  Missing: the last grid point may do so. -/
theorem C99_float_box_partial {c : Cfg} {gray : Bool} {gens : List BinGene} {ov : Option ℚ} {s s' : St ℚ} (R : Rounding c.arith.rnd)
    (hg : Proper gens) (hm : ∀ g ∈ gens, Machine c.arith.rnd g.lo) (h : binaryGA c gray gens ov s = (.ok (), s')) :
    ∃ ps, List.Forall₂ (fun g p => geneParamsR c.arith.rnd g = .ok p) gens ps ∧ ∀ x ∈ evaluated s s', x.length = gens.length ∧
      ∀ (k : Nat) (g : BinGene) (p : GeneParams) (v : Val), gens[k]? = some g → ps[k]? = some p → x[k]? = some v →
        ∃ (q : ℚ) (i : Nat), v = .num q ∧ i < 2 ^ p.numBits ∧
          |q - (g.lo + (i : ℚ) * ((g.hi - g.lo) / (2 ^ p.numBits - 1)))| ≤ 16 * ulp * max |g.lo| |g.hi| ∧ g.lo ≤ q ∧
          (Coarse 16 g p.numBits → i + 1 < 2 ^ p.numBits → q ≤ g.hi) := by
  obtain ⟨at_, hprep, har, hwf⟩ := evaluated_decoded hg h
  have hf := hprep.forallR
  rw [har] at hf
  refine ⟨at_.params, hf, ?_⟩
  intro x hx
  obtain ⟨geno, w1, w2, w3⟩ := hwf x hx
  rw [hprep.decodeR w1 (by rw [w2, hprep.total])] at w3
  injection w3 with w3
  subst w3
  rw [har]
  exact ⟨pointsR_length hf.length_eq, pointsR_near R hf hg hm geno⟩

/-- The run of the counterexample meets the hypotheses. -/
example : ∃ ps, List.Forall₂ (fun g p => geneParamsR fl g = .ok p) [exFloatGene] ps ∧
    ∀ x ∈ evaluated { tape := [3, 3, 3] } exEdge.2, x.length = 1 ∧
      ∀ (k : Nat) (g : BinGene) (p : GeneParams) (v : Val), [exFloatGene][k]? = some g → ps[k]? = some p → x[k]? = some v →
        ∃ (q : ℚ) (i : Nat), v = .num q ∧ i < 2 ^ p.numBits ∧
          |q - (g.lo + (i : ℚ) * ((g.hi - g.lo) / (2 ^ p.numBits - 1)))| ≤ 16 * ulp * max |g.lo| |g.hi| ∧ g.lo ≤ q ∧
          (Coarse 16 g p.numBits → i + 1 < 2 ^ p.numBits → q ≤ g.hi) :=
  C99_float_box_partial (c := exEdgeCfg) fl_rounding exEdge_admissible.genes.1 exEdge_admissible.arith.lo (Prod.ext exEdge_values.1 rfl)

/-! ## C100: results as input -/

/-- A point whose bit string is restored by encoding is evaluated when it is supplied. -/
theorem supplied_evaluated {c : Cfg} {gray : Bool} {gens : List BinGene} {ov : Option ℚ} {s s' : St ℚ} {input : List (List Val)} {at_ : Attrs}
    {x geno : List Val} (hg : Proper gens) (hi : c.input = some input) (h : binaryGA c gray gens ov s = (.ok (), s'))
    (hp : Prepared at_ gray gens) (ha : at_.arith = c.arith) (hx : x ∈ input) (he : adopt at_ x = .ok geno)
    (hd : decodeIndivid at_ geno = .ok x) : x ∈ evaluated s s' := by
  have h' : (SingleFacade.binary gray gens).optimize c ov s = (.ok (), s') := h
  obtain ⟨_, _, _, m2⟩ := C71_budget h'
  obtain ⟨at', hprep, har, hwf⟩ := C48_binary hg h
  obtain ⟨p, s0, sa, sb, k, _, hcs, hst, hcalls, hk⟩ := SingleFacade.run_full h'
  have hl := (SingleFacade.ledger hst (evaluated_verdict _) (evaluated_judges _ _) hk).init
  obtain ⟨s1, hcr⟩ := hst.created
  have hprep0 := (C10_fill_binary hcr).1
  rw [hi] at hcr
  obtain ⟨_, hc⟩ := C11_input_encoded hcr
  obtain ⟨hpar, _⟩ := Prepared.same ((hst.arith).trans ha.symm) hp hprep0
  obtain ⟨hpar', hoff'⟩ := Prepared.same (har.trans ha.symm) hp hprep
  obtain ⟨i, hix⟩ := List.getElem?_of_mem hx
  obtain ⟨r, bits, hr, hbits, henc⟩ := hc i x hix
  have he' : encodeIndividR at_.arith.rnd gray gens at_.params x = .ok geno := by
    unfold adopt at he
    rw [hp.spec] at he
    exact he
  rw [hpar, hst.arith, ← ha, he'] at henc
  injection henc with henc
  subst henc
  obtain ⟨l, hl, y, hy, e⟩ := hl r (List.mem_of_getElem? hr)
  obtain ⟨g, ph, w1, w2, _, _, w5, _⟩ := hwf l hl y hy
  rw [e, hbits] at w1
  injection w1 with w1
  subst w1
  have hd' : decodeIndivid at' geno = .ok x := by
    unfold decodeIndivid at hd ⊢
    rw [hp.spec] at hd
    rw [hprep.spec, hpar', hoff', har, ← ha]
    exact hd
  rw [hd'] at w5
  injection w5 with w5
  subst w5
  obtain ⟨g, hg', ha⟩ := m2 l hl y hy
  have ha' : y.phenotype = some g := ha
  rw [w2] at ha'
  injection ha' with ha'
  subst ha'
  exact hg'

/-- C100: a point evaluated in one run (in particular its best solution) is evaluated in every other run on the same genes that
is given the point as input individual. -/
theorem C100_reevaluated {f : SingleFacade} {c c2 : Cfg} {ov ov2 : Option ℚ} {s s1 t t1 : St ℚ} {input : List (List Val)} {x : List Val}
    (hx1 : c.arith = .exact) (hx2 : c2.arith = .exact) (hg : ∀ gray gens, f = .binary gray gens → Proper gens)
    (h1 : f.optimize c ov s = (.ok (), s1)) (h2 : f.optimize c2 ov2 t = (.ok (), t1)) (hi : c2.input = some input)
    (he : x ∈ evaluated s s1) (hx : x ∈ input) : x ∈ evaluated t t1 := by
  cases f with
  | binary gray gens =>
    have hp := hg gray gens rfl
    obtain ⟨at_, hprep, har, hwf⟩ := evaluated_decoded hp (show binaryGA c gray gens ov s = (.ok (), s1) from h1)
    obtain ⟨geno, w1, w2, w3⟩ := hwf x he
    exact supplied_evaluated hp hi (show binaryGA c2 gray gens ov2 t = (.ok (), t1) from h2) hprep (by rw [har, hx1, hx2]) hx
      (C06_decode_encode_identity hprep (har.trans hx1) hp w1 w2 w3) w3
  | combinatory a b k => exact C73_warm_start (by simp) hi h2 x hx
  | categorical gens => exact C73_warm_start (by simp) hi h2 x hx

/-- C100: a run that is given the best solution of another run on the same task reports a solution that is at least as good. -/
theorem C100_no_worse {f : SingleFacade} {c c2 : Cfg} {ov : Option ℚ} {s s1 t t1 : St ℚ} {input : List (List Val)} {x : List Val}
    {b gen : Nat} (hx1 : c.arith = .exact) (hx2 : c2.arith = .exact) (hg : ∀ gray gens, f = .binary gray gens → Proper gens)
    (hn1 : ¬ Constrained c s.conds) (hn2 : ¬ Constrained c2 t.conds) (hobj : c2.objective = c.objective)
    (h1 : f.optimize c ov s = (.ok (), s1)) (h2 : f.optimize c2 ov t = (.ok (), t1)) (hb : s1.ga.best = some (.single b gen))
    (ha : argument f.spec.hasPhenotype (s1.heap b) = some x) (hi : c2.input = some input) (hx : x ∈ input) :
    ∃ o b2 gen2 o2, (s1.heap b).objScore = some (.sc o) ∧ t1.ga.best = some (.single b2 gen2) ∧
      (t1.heap b2).objScore = some (.sc o2) ∧ cost ov o2 ≤ cost ov o := by
  obtain ⟨b', gen', g, o, k1, k2, k3, k4, k5, _⟩ := C72_best_of_all hx1 hn1 h1
  rw [hb] at k1
  injection k1 with k1
  injection k1 with k1 _
  subst k1
  rw [ha] at k2
  injection k2 with k2
  subst k2
  obtain ⟨b2, gen2, g2, o2, m1, _, _, _, m5, m6⟩ := C72_best_of_all hx2 hn2 h2
  obtain ⟨o', n1, n2⟩ := m6 x (C100_reevaluated hx1 hx2 hg h1 h2 hi k3 hx)
  rw [hobj, k4] at n1
  injection n1 with n1
  injection n1 with n1
  subst n1
  exact ⟨o, b2, gen2, o2, k5, m1, m5, n2⟩

/-- The points of a run are points the objective can be called with. -/
theorem evaluated_points {f : SingleFacade} {c : Cfg} {ov : Option ℚ} {s s1 : St ℚ} (ha : Admissible f c s.conds)
    (h : f.optimize c ov s = (.ok (), s1)) : ∀ x ∈ evaluated s s1, f.Points c.arith x := by
  intro x hx
  cases f with
  | binary gray gens =>
    obtain ⟨at_, hprep, har, hwf⟩ := evaluated_decoded ha.genes.1 (show binaryGA c gray gens ov s = (.ok (), s1) from h)
    obtain ⟨geno, w1, w2, w3⟩ := hwf x hx
    rw [hprep.decodeR w1 (by rw [w2, hprep.total])] at w3
    have hr := ha.arith
    rw [← har] at hr ⊢
    have hf := hprep.forallR
    injection w3 with w3'
    subst w3'
    refine pointsR_nearGene hr.rounding hf ha.genes.1 hr.lo geno ?_
    intro hex
    obtain ⟨xs, y1, y2⟩ := C05_decode_in_range hprep hex ha.genes.1 w1 w2
    rw [hprep.decodeR w1 (by rw [w2, hprep.total])] at y1
    injection y1 with y1
    rw [y1]; exact y2
  | combinatory a b k =>
    obtain ⟨_, _, m1, _⟩ := C71_budget h
    obtain ⟨l, hl, y, hy, e⟩ := m1 x hx
    obtain ⟨g, w1, w2⟩ := C48_combinatory ha.input h l hl y hy
    have e' : y.genotype = some x := e
    rw [w1] at e'
    injection e' with e'
    subst e'
    exact w2
  | categorical gens =>
    obtain ⟨_, _, m1, _⟩ := C71_budget h
    obtain ⟨l, hl, y, hy, e⟩ := m1 x hx
    obtain ⟨g, w1, w2⟩ := C48_categorical ha.input h l hl y hy
    have e' : y.genotype = some x := e
    rw [w1] at e'
    injection e' with e'
    subst e'
    exact w2

/-- C100: results are accepted: an admissible call stays admissible when its input is replaced by points an earlier admissible
run on the same task evaluated, so (C65) it raises no exception. -/
theorem C100_accepted {f : SingleFacade} {c : Cfg} {ov ov2 : Option ℚ} {s s1 t t1 : St ℚ} {l : List (List Val)} {e : PyErr} (hx : c.arith = .exact)
    (ha : Admissible f c s.conds) (h1 : f.optimize c ov s = (.ok (), s1)) (hl : ∀ x ∈ l, x ∈ evaluated s s1)
    (hn : l.length ≤ c.numIndivid) (ht : t.conds = s.conds) (h2 : f.optimize { c with input := some l } ov2 t = (.error e, t1)) :
    e = .exhausted ∧ t1.tape = [] := by
  refine C65_no_exception (c := { c with input := some l }) ?_ h2
  rw [ht]
  refine { ha with
    input := ?_, room := hn, transfer := ha.transfer, objective := ha.objective }
  intro x hxl
  have := evaluated_points ha h1 x (hl x hxl)
  cases f with
  | binary gray gens =>
    refine List.Forall₂.imp ?_ this
    intro g v hv
    rw [hx] at hv
    exact nearGene_exact.mp hv
  | combinatory a b k => exact this
  | categorical gens => exact this

/-- Two runs, the second with the best solution of the first as input. -/
def exStart : Except PyErr Unit × St ℚ := binaryGA exSumCfg true [⟨0, 3, 1⟩, ⟨-1, 1, 1 / 2⟩] none { tape := exTape }

def exRestart : Except PyErr Unit × St ℚ :=
  binaryGA { exSumCfg with input := some [[.num 0, .num (-3 / 7)]] } true [⟨0, 3, 1⟩, ⟨-1, 1, 1 / 2⟩] none { tape := exTape }

set_option maxRecDepth 100000 in
theorem exStart_values : exStart.1 = .ok () ∧ exStart.2.ga.best = some (.single 18 2) ∧
    (exStart.2.heap 18).phenotype = some [.num 0, .num (-3 / 7)] := by decide +kernel

set_option maxRecDepth 100000 in
theorem exRestart_ok : exRestart.1 = .ok () := by decide +kernel

/-- The hypotheses of `C100_no_worse` are met by these runs. -/
example : ∃ o b2 gen2 o2, (exStart.2.heap 18).objScore = some (.sc o) ∧ exRestart.2.ga.best = some (.single b2 gen2) ∧
    (exRestart.2.heap b2).objScore = some (.sc o2) ∧ cost none o2 ≤ cost none o :=
  C100_no_worse (f := .binary true [⟨0, 3, 1⟩, ⟨-1, 1, 1 / 2⟩]) (c := exSumCfg)
    (c2 := { exSumCfg with input := some [[.num 0, .num (-3 / 7)]] }) (x := [.num 0, .num (-3 / 7)]) rfl rfl
    (fun _ _ e => by injection e with _ e; subst e; exact exSum_admissible.genes.1)
    (by unfold Constrained; decide) (by unfold Constrained; decide) rfl
    (Prod.ext exStart_values.1 rfl) (Prod.ext exRestart_ok rfl) exStart_values.2.1 exStart_values.2.2 rfl (by simp)

/-! ## C101: the same in machine arithmetic -/

/-- C101, full claim: in binary64 a point evaluated in an admissible run is accepted as input of another run. -/
def FloatReusable : Prop :=
  ∀ (gray : Bool) (gens : List BinGene) (c : Cfg) (ov : Option ℚ) (s s1 t t1 : St ℚ) (x : List Val) (e : PyErr), c.arith = .binary64 →
    Admissible (.binary gray gens) c s.conds → (∀ g ∈ gens, Machine fl g.hi) → binaryGA c gray gens ov s = (.ok (), s1) →
    x ∈ evaluated s s1 → t.conds = s.conds → binaryGA { c with input := some [x] } gray gens ov t = (.error e, t1) → e = .exhausted

set_option maxRecDepth 100000 in
theorem exEdge_again : (binaryGA { exEdgeCfg with input := some [[.num (6980579422424270 / 2251799813685248)]] } false [exFloatGene] none
    ({ tape := [3, 3, 3] } : St ℚ)).1 = .error .exception := by decide +kernel

/-- C101 is false: 3.1000000000000005, the best solution of a run over the gene `(0, 3.1, 1)`, is rejected as input. -/
theorem C101_float_reuse_refuted : ¬ FloatReusable := by
  intro h
  obtain ⟨h1, h2⟩ := exEdge_values
  have h3 := exEdge_again
  rcases hx : binaryGA { exEdgeCfg with input := some [[.num (6980579422424270 / 2251799813685248)]] } false [exFloatGene] none
    ({ tape := [3, 3, 3] } : St ℚ) with ⟨o, t1⟩
  rw [hx] at h3
  simp only at h3
  subst h3
  have := h false [exFloatGene] exEdgeCfg none { tape := [3, 3, 3] } exEdge.2 _ t1 _ .exception rfl exEdge_admissible (by
    intro g hg; simp only [List.mem_singleton] at hg; subst hg; unfold Machine; decide +kernel) (Prod.ext h1 rfl) h2 rfl hx
  cases this

/-- The grids of the genes have steps of at least 64 unit roundoffs of the larger end. -/
def SingleFacade.CoarseGrids (f : SingleFacade) (ar : Arith) : Prop :=
  ∀ gray gens, f = .binary gray gens → Proper gens ∧ ∀ g ∈ gens, ∀ p, geneParamsR ar.rnd g = .ok p → Coarse 64 g p.numBits

/-- C101 as far as it holds, for every rounding: points of an admissible run that lie in the search space are accepted as input by
another run, and (on coarse grids) evaluated again unchanged.  Missing: the last grid point when it lies above the upper end,
and finer grids. -/
theorem C101_float_reuse_partial {f : SingleFacade} {c : Cfg} {ov ov2 : Option ℚ} {s s1 t t1 : St ℚ} {l : List (List Val)}
    {r : Except PyErr Unit} (ha : Admissible f c s.conds) (h1 : f.optimize c ov s = (.ok (), s1))
    (hl : ∀ x ∈ l, x ∈ evaluated s s1 ∧ f.Space x) (hn : l.length ≤ c.numIndivid) (ht : t.conds = s.conds)
    (h2 : f.optimize { c with input := some l } ov2 t = (r, t1)) :
    (∀ e, r = .error e → e = .exhausted ∧ t1.tape = []) ∧
      (f.CoarseGrids c.arith → r = .ok () → ∀ x ∈ l, x ∈ evaluated t t1) := by
  constructor
  · rintro e rfl
    refine C65_no_exception (c := { c with input := some l }) ?_ h2
    rw [ht]
    exact { ha with input := fun x hx => (hl x hx).2, room := hn, transfer := ha.transfer, objective := ha.objective }
  · rintro hc rfl x hx
    obtain ⟨hx1, hx2⟩ := hl x hx
    cases f with
    | binary gray gens =>
      obtain ⟨hp, hco⟩ := hc gray gens rfl
      obtain ⟨at_, hprep, har, hwf⟩ := evaluated_decoded hp (show binaryGA c gray gens ov s = (.ok (), s1) from h1)
      obtain ⟨geno, w1, w2, w3⟩ := hwf x hx1
      refine supplied_evaluated (geno := geno) hp (c := { c with input := some l }) rfl
        (show binaryGA _ gray gens ov2 t = (.ok (), t1) from h2) hprep har hx ?_ w3
      have hR := ha.arith.rounding
      rw [← har] at hR hco
      obtain ⟨offs, e1, e2⟩ := hprep.ok
      unfold adopt
      rw [hprep.spec]
      refine C92_float_roundtrip_partial hR hp e1 ?_ w1 (by rw [w2, hprep.total]) ?_ hx2
      · have hf := hprep.forallR
        rw [List.forall₂_iff_get] at hf ⊢
        exact ⟨hf.1, fun i b1 b2 => hco _ (List.get_mem _ _) _ (hf.2 i b1 b2)⟩
      · unfold decodeIndivid at w3
        rw [hprep.spec, e2] at w3
        exact w3
    | combinatory a b k => exact C73_warm_start (by simp) rfl h2 x hx
    | categorical gens => exact C73_warm_start (by simp) rfl h2 x hx

/-- The hypotheses are met: the first grid point of the gene `(0, 3.1, 1)`. -/
def exFloor : Except PyErr Unit × St ℚ := binaryGA exEdgeCfg false [exFloatGene] none { tape := [0, 1, 2] }

set_option maxRecDepth 100000 in
theorem exFloor_values : exFloor.1 = .ok () ∧ [.num 0] ∈ evaluated { tape := [0, 1, 2] } exFloor.2 := by decide +kernel

example : (SingleFacade.binary false [exFloatGene]).CoarseGrids .binary64 := by
  intro gray gens e
  injection e with _ e
  subst e
  refine ⟨exEdge_admissible.genes.1, ?_⟩
  intro g hg p hp
  simp only [List.mem_singleton] at hg
  subst hg
  have h1 : geneParamsR fl exFloatGene = .ok exFloatParams := by decide +kernel
  rw [show Arith.binary64.rnd = fl from rfl, h1] at hp
  injection hp with hp
  subst hp
  unfold Coarse
  decide +kernel

example {t1 : St ℚ} {e : PyErr}
    (h : binaryGA { exEdgeCfg with input := some [[.num 0]] } false [exFloatGene] none ({ tape := [1, 2] } : St ℚ) = (.error e, t1)) :
    e = .exhausted ∧ t1.tape = [] :=
  (C101_float_reuse_partial (f := .binary false [exFloatGene]) (c := exEdgeCfg) (ov := none) (ov2 := none) (s := { tape := [0, 1, 2] }) (t := { tape := [1, 2] })
    (l := [[.num 0]]) exEdge_admissible
    (Prod.ext exFloor_values.1 rfl)
    (by
      intro x hx
      simp only [List.mem_singleton] at hx
      subst hx
      exact ⟨exFloor_values.2, .cons ⟨0, rfl, by decide +kernel, by decide +kernel⟩ .nil⟩) (by simp [exEdgeCfg]) rfl h).1 e rfl

end BaumEva
