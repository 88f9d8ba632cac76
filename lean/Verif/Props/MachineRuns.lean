import Verif.Props.MultiNoCrash
import Verif.Props.Ledger
/-!
# C97, C98: whole runs in machine arithmetic
-/
namespace BaumEva
open Spec

/-! ## admissible calls in binary64 -/

/-- The genes of the examples are machine numbers. -/
theorem exGenes_machine : ∀ g ∈ ([⟨0, 3, 1⟩, ⟨-1, 1, 1 / 2⟩] : List BinGene), MachineGene Arith.binary64.rnd g := by
  intro g hg
  simp only [List.mem_cons, List.not_mem_nil, or_false] at hg
  rcases hg with rfl | rfl
  · exact ⟨by unfold Machine; decide +kernel, by unfold Machine; decide +kernel, by norm_num⟩
  · exact ⟨by unfold Machine; decide +kernel, by unfold Machine; decide +kernel, by norm_num⟩

theorem exGenes_computes (gray : Bool) : (SingleFacade.binary gray [⟨0, 3, 1⟩, ⟨-1, 1, 1 / 2⟩]).Computes .binary64 :=
  .inr ⟨fl_rounding, fun _ _ e => by injection e with _ e; subst e; exact exGenes_machine⟩

/-- `BinaryGA` in binary64: the call is admissible, so C65 and C70 apply to it. -/
theorem exSum_admissible64 : Admissible (.binary true [⟨0, 3, 1⟩, ⟨-1, 1, 1 / 2⟩]) { exSumCfg with arith := .binary64 } none where
  genes := exSum_admissible.genes
  input := exSum_admissible.input
  room := exSum_admissible.room
  size := exSum_admissible.size
  size_lt := exSum_admissible.size_lt
  level := exSum_admissible.level
  transfer := exSum_admissible.transfer
  objective := .inl ⟨.inl rfl, fun _ _ => ⟨_, rfl⟩⟩
  arith := exGenes_computes true

/-- `VEGA` in binary64: the call is admissible, so C87 and C90 apply to it. -/
theorem exPair_vega64 : VegaAdmissible true [⟨0, 3, 1⟩, ⟨-1, 1, 1 / 2⟩] { exPairCfg with arith := .binary64 } (some [0, 0]) none 2 2 where
  task := exPair_task rfl rfl rfl rfl rfl (exGenes_computes true)
  counts := exPair_vega.counts
  enough := exPair_vega.enough
  target := exPair_vega.target
  size := exPair_vega.size
  transfer := exPair_vega.transfer

/-- `CombinatoryGA` and `CategoricalGA` are admissible in every rounding: they have no genes to represent. -/
theorem SingleFacade.Computes.of_rounding {f : SingleFacade} {ar : Arith} (R : Rounding ar.rnd) (hf : ∀ gray gens, f ≠ .binary gray gens) :
    f.Computes ar := .inr ⟨R, fun gray gens e => absurd e (hf gray gens)⟩

/-! ## FFGA -/

/-- C97, full claim: `FFGA.optimize()` raises no exception in binary64. -/
def FfgaFloatSafe : Prop :=
  ∀ (gray : Bool) (gens : List BinGene) (c : Cfg) (s s' : St ℚ) (e : PyErr), c.arith = .binary64 → FfgaCall gray gens c s.conds →
    ffga c gray gens s = (.error e, s') → e = .exhausted

/-- Seven equal individuals, to be optimised over two generations in binary64. -/
def exSevenCfg : Cfg :=
  { numGenerations := 2, numIndivid := 7, obj1 := fun x => .ok (.tup [sumNums x, (sumNums x - 2) ^ 2]), childrenPercent := 1 / 2,
    input := some (List.replicate 7 [.num 0, .num 0]), arith := .binary64 }

theorem exSeven_call : FfgaCall true [⟨0, 3, 1⟩, ⟨-1, 1, 1⟩] exSevenCfg none where
  task := ⟨2, {
    genes := by
      refine ⟨?_, ?_, .inl (by simp)⟩
      · intro g hg
        simp only [List.mem_cons, List.not_mem_nil, or_false] at hg
        rcases hg with rfl | rfl <;> norm_num
      · intro g hg
        unfold Degenerate
        simp only [List.mem_cons, List.not_mem_nil, or_false] at hg
        rcases hg with rfl | rfl <;> norm_num [abs_of_pos]
    input := by
      intro x hx
      simp only [exSevenCfg, Option.getD_some, List.mem_replicate] at hx
      rw [hx.2]
      exact .cons ⟨0, rfl, by norm_num, by norm_num⟩ (.cons ⟨0, rfl, by norm_num, by norm_num⟩ .nil)
    room := by simp [exSevenCfg]
    level := .inr ⟨by simp, by simp [exSevenCfg]⟩
    plain := rfl
    uniform := by
      intro x y p q hx hy
      simp only [exSevenCfg, Except.ok.injEq, Ret.tup.injEq] at hx hy
      subst hx hy
      rfl
    objective := .inl ⟨.inl rfl, fun x _ => ⟨_, rfl, rfl⟩⟩
    arith := by
      refine .inr ⟨fl_rounding, fun _ _ e => ?_⟩
      injection e with _ e
      subst e
      intro g hg
      simp only [List.mem_cons, List.not_mem_nil, or_false] at hg
      rcases hg with rfl | rfl
      · exact ⟨by unfold Machine; decide +kernel, by unfold Machine; decide +kernel, by norm_num⟩
      · exact ⟨by unfold Machine; decide +kernel, by unfold Machine; decide +kernel, by norm_num⟩ }⟩
  some := by simp [exSevenCfg]
  transfer := .inl rfl

set_option maxRecDepth 100000 in
theorem exSeven_raises : (ffga exSevenCfg true [⟨0, 3, 1⟩, ⟨-1, 1, 1⟩] { tape := [0, 2 ^ 53 - 1] }).1 = .error .indexError := by
  decide +kernel

/-- C97 is false of `FFGA`: with seven equal individuals and `random() = 1 - 2^-53` an admissible call raises `IndexError`. -/
theorem C97_ffga_float_refuted : ¬ FfgaFloatSafe := by
  intro h
  rcases hx : ffga exSevenCfg true [⟨0, 3, 1⟩, ⟨-1, 1, 1⟩] { tape := [0, 2 ^ 53 - 1] } with ⟨o, s'⟩
  have h1 := exSeven_raises
  rw [hx] at h1
  simp only at h1
  subst h1
  have := h _ _ _ _ _ _ rfl exSeven_call hx
  cases this

/-- C97 for `FFGA` as far as it holds, for every rounding: an admissible call raises nothing if no random number is among the
`8 n` largest of the `2^53` possible ones, `n` bounding the sizes of the populations.  This includes the draws of a seeded
generator.  Missing: those random numbers. -/
theorem C97_ffga_float_partial {c : Cfg} {gray : Bool} {gens : List BinGene} {s s' : St ℚ} {e : PyErr}
    (ha : FfgaCall gray gens c s.conds) (hB : 16 * c.ffgaLargest ≤ 2 ^ 53)
    (hD : Modest (fun x => x % 2 ^ 53 + 8 * c.ffgaLargest < 2 ^ 53) s)
    (h : ffga c gray gens s = (.error e, s')) : e = .exhausted ∧ s'.tape = [] := by
  obtain ⟨n, ht⟩ := ha.task
  revert h
  suffices hs : Safe (ffga c gray gens) s from hs e s'
  refine facade_safe ht.genes ht.input ht.room ht.arith ht.level ?_ rfl ?_
  · rcases ha.transfer with h | h
    · rw [h]; exact ⟨_, rfl⟩
    · rw [h.1]; exact ⟨_, rfl⟩
  intro fit tr sa sb s0 hfit hconds htr hmod hlvl hst
  obtain ⟨hsafe, _⟩ := ffga_multiSafe (by rw [hconds]; exact ha) hfit htr hlvl hst (by
    intro k x hk _ har hal hne hlen hpos
    refine balanced_safe_on (B := c.ffgaLargest) ?_ (by rw [har]; exact ht.arith.rounding)
      (hk.keeps (modest_frame _) (ffgaOps_frame (modest_frame _) fit .balanced .onePoint .binString tr) (hmod _ hD)) hlen hB hal hne ?_
    · intro a b h; unfold scoreKey; rw [h.score]
    · intro r hr
      obtain ⟨q, hq, h0⟩ := hpos r hr
      exact ⟨q, by unfold scoreKey; rw [hq], h0⟩)
  exact ⟨hsafe.evolve, fun k s7 hk => hsafe.print hk⟩

/-- The hypotheses are met by the same call with other draws. -/
example {s' : St ℚ} {e : PyErr} (h : ffga exSevenCfg true [⟨0, 3, 1⟩, ⟨-1, 1, 1⟩] { tape := [0, 2 ^ 53 - 200] } = (.error e, s')) :
    e = .exhausted ∧ s'.tape = [] :=
  C97_ffga_float_partial exSeven_call (by decide +kernel) ⟨by decide +kernel, by simp⟩ h

/-! ## C98: the reported best -/

/-- C98, full claim: in binary64, with objective values and target that are machine numbers, no point evaluated in an
unconstrained run is better than the reported one. -/
def FloatBestOfAll : Prop :=
  ∀ (f : SingleFacade) (c : Cfg) (ov : Option ℚ) (s s' : St ℚ), c.arith = .binary64 → (∀ x o, c.objective x = .ok (.sc o) → Machine fl o) →
    (∀ t, ov = some t → Machine fl t) → ¬ Constrained c s.conds → f.optimize c ov s = (.ok (), s') →
    ∃ b gen o, s'.ga.best = some (.single b gen) ∧ (s'.heap b).objScore = some (.sc o) ∧
      ∀ g ∈ evaluated s s', ∃ o', c.objective g = .ok (.sc o') ∧ cost ov o ≤ cost ov o'

/-- One gene with the values 0 and 1, target 0, objective value 0 at 0 and `2^-60` at 1. -/
def exTieCfg : Cfg :=
  { numGenerations := 1, numIndivid := 3, obj1 := fun x => .ok (.sc (if x = [.num 0] then 0 else 1 / 2 ^ 60)), childrenPercent := 1 / 2,
    tournamentSize := 2, mutationLvl := .float (1 / 100), input := some [[.num 1], [.num 0], [.num 1]], arith := .binary64 }

def exTie : Except PyErr Unit × St ℚ := (SingleFacade.categorical [.range 0 1 1]).optimize exTieCfg (some 0) {}

set_option maxRecDepth 100000 in
theorem exTie_values : exTie.1 = .ok () ∧ exTie.2.ga.best = some (.single 3 0) ∧ (exTie.2.heap 3).objScore = some (.sc (1 / 2 ^ 60)) ∧
    [.num 0] ∈ evaluated {} exTie.2 := by
  decide +kernel

/-- C98 is false: the target 0 is hit at the point 0, yet the run reports the point 1, whose score rounds to 1 as well. -/
theorem C98_float_best_refuted : ¬ FloatBestOfAll := by
  intro h
  obtain ⟨h1, h2, h3, h4⟩ := exTie_values
  obtain ⟨b, gen, o, e1, e2, e3⟩ := h (.categorical [.range 0 1 1]) exTieCfg (some 0) {} exTie.2 rfl (by
    intro x o hx
    have hx : Except.ok (Ret.sc (if x = [.num 0] then 0 else 1 / 2 ^ 60)) = (.ok (.sc o) : Except PyErr Ret) := hx
    injection hx with hx
    injection hx with hx
    subst hx
    unfold Machine
    split <;> decide +kernel) (by
    intro t ht
    injection ht with ht
    subst ht
    unfold Machine
    decide +kernel) (by unfold Constrained; decide) (Prod.ext h1 rfl)
  rw [h2] at e1
  injection e1 with e1
  injection e1 with e1
  subst e1
  rw [h3] at e2
  injection e2 with e2
  injection e2 with e2
  obtain ⟨o', a1, a2⟩ := e3 _ h4
  have a1 : Except.ok (Ret.sc (if ([.num 0] : List Val) = [.num 0] then 0 else 1 / 2 ^ 60)) = (.ok (.sc o') : Except PyErr Ret) := a1
  rw [if_pos rfl] at a1
  injection a1 with a1
  injection a1 with a1
  rw [← e2, ← a1] at a2
  norm_num [cost] at a2

/-- `o'` is not better than `o` by more than the rounding of the score hides: exactly none without a target, a relative
`16 ulp` of the score otherwise. -/
def NotVisiblyBetter (ov : Option ℚ) (o' o : ℚ) : Prop :=
  match ov with
  | none => o ≤ o'
  | some t => 1 + |t - o| < (1 + 16 * ulp) * (1 + |t - o'|)

/-- C98 as far as it holds, for every rounding: the best solution is a point the objective was called with, `obj_score` is the
value there, and with machine-valued objectives no evaluated point is smaller when minimising, or closer to the target by more
than a relative `16 ulp` of `1 + distance`.  Missing: differences below that. -/
theorem C98_float_best_partial {f : SingleFacade} {c : Cfg} {ov : Option ℚ} {s s' : St ℚ} (R : Rounding c.arith.rnd)
    (hm : ∀ x o, c.objective x = .ok (.sc o) → Machine c.arith.rnd o) (hn : ¬ Constrained c s.conds)
    (h : f.optimize c ov s = (.ok (), s')) :
    ∃ b gen g o, s'.ga.best = some (.single b gen) ∧ argument f.spec.hasPhenotype (s'.heap b) = some g ∧
      g ∈ evaluated s s' ∧ c.objective g = .ok (.sc o) ∧ (s'.heap b).objScore = some (.sc o) ∧
      ∀ g' ∈ evaluated s s', ∃ o', c.objective g' = .ok (.sc o') ∧ NotVisiblyBetter ov o' o := by
  obtain ⟨b, gen, g, o, h1, h2, h3, h4, h5, h6⟩ := best_earned hn h
  refine ⟨b, gen, g, o, h1, h2, h3, h4, h5, fun g' hg' => ?_⟩
  obtain ⟨o', e1, e2⟩ := h6 g' hg'
  refine ⟨o', e1, ?_⟩
  unfold NotVisiblyBetter
  cases ov with
  | none =>
    simp only [earned, add_zero] at e2
    rw [hm _ _ h4, hm _ _ e1] at e2
    change o ≤ o'
    linarith
  | some t =>
    obtain ⟨v, v', b1, b2, _, _, _, _, b3⟩ := C95_float_score_partial R (t := t) (o := o') (o' := o) (pen := 0) (pen' := 0) le_rfl le_rfl
    rw [← hyperbolaR_earned b1, ← hyperbolaR_earned b2] at e2
    by_contra hc
    have := b3 (by simp only [add_zero]; exact not_lt.mp hc)
    linarith

/-- The run above meets the hypotheses. -/
example : ∃ b gen g o, exTie.2.ga.best = some (.single b gen) ∧ argument false (exTie.2.heap b) = some g ∧
    g ∈ evaluated {} exTie.2 ∧ exTieCfg.objective g = .ok (.sc o) ∧ (exTie.2.heap b).objScore = some (.sc o) ∧
    ∀ g' ∈ evaluated {} exTie.2, ∃ o', exTieCfg.objective g' = .ok (.sc o') ∧ NotVisiblyBetter (some 0) o' o :=
  C98_float_best_partial (f := .categorical [.range 0 1 1]) fl_rounding (by
    intro x o hx
    have hx : Except.ok (Ret.sc (if x = [.num 0] then 0 else 1 / 2 ^ 60)) = (.ok (.sc o) : Except PyErr Ret) := hx
    injection hx with hx
    injection hx with hx
    subst hx
    unfold Machine exTieCfg
    change fl _ = _
    split <;> decide +kernel) (by unfold Constrained; decide) (Prod.ext exTie_values.1 rfl)

end BaumEva
