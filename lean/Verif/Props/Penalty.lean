import Verif.Proofs.Penalty
import Verif.Spec.Penalty
import Mathlib.Tactic.NormNum
import Mathlib.Tactic.FieldSimp
/-!
# C32, C33, C37 - C40: scores and penalties
-/
namespace BaumEva
open Spec

/-! ## C32, C33: the score -/

theorem hyperbola_target {t o pen : ℚ} {ind : Ind ℚ} (ho : ind.objScore = some (.sc o)) (hp : 0 ≤ pen) :
    hyperbola .exact (some t) ind pen = .ok (1 / (1 + |t - o| + pen)) := by
  unfold hyperbola
  rw [ho]
  have := abs_nonneg (t - o)
  exact if_neg (by change ¬ 1 + |t - o| + pen = 0; linarith)

/-- C32: the score with target lies in (0, 1] and is 1 exactly on target without penalty. -/
theorem C32_target_range {t o pen : ℚ} {ind : Ind ℚ} (ho : ind.objScore = some (.sc o)) (hp : 0 ≤ pen) :
    ∃ sc, hyperbola .exact (some t) ind pen = .ok sc ∧ 0 < sc ∧ sc ≤ 1 ∧ (sc = 1 ↔ o = t ∧ pen = 0) := by
  refine ⟨_, hyperbola_target ho hp, ?_, ?_, ?_⟩
  · have := abs_nonneg (t - o); positivity
  · have := abs_nonneg (t - o)
    rw [div_le_one (by linarith)]; linarith
  · have h1 := abs_nonneg (t - o)
    rw [div_eq_one_iff_eq (by linarith)]
    constructor
    · intro h
      have h2 : |t - o| = 0 := by linarith
      have h3 := abs_eq_zero.mp h2
      exact ⟨by linarith, by linarith⟩
    · rintro ⟨rfl, rfl⟩; simp

/-- C32: a smaller sum of distance and penalty gives a larger score. -/
theorem C32_target_order {t o₁ o₂ p₁ p₂ : ℚ} {x y : Ind ℚ} (hx : x.objScore = some (.sc o₁)) (hy : y.objScore = some (.sc o₂))
    (h1 : 0 ≤ p₁) (h2 : 0 ≤ p₂) : ∃ sx sy, hyperbola .exact (some t) x p₁ = .ok sx ∧ hyperbola .exact (some t) y p₂ = .ok sy ∧
      (sy < sx ↔ |t - o₁| + p₁ < |t - o₂| + p₂) ∧
      (p₁ = p₂ → (sy < sx ↔ |t - o₁| < |t - o₂|)) ∧ (|t - o₁| = |t - o₂| → (sy < sx ↔ p₁ < p₂)) := by
  have key : 1 / (1 + |t - o₂| + p₂) < 1 / (1 + |t - o₁| + p₁) ↔ |t - o₁| + p₁ < |t - o₂| + p₂ := by
    have ha := abs_nonneg (t - o₁)
    have hb := abs_nonneg (t - o₂)
    rw [div_lt_div_iff_of_pos_left (by norm_num) (by linarith) (by linarith)]
    constructor <;> intro h <;> linarith
  refine ⟨_, _, hyperbola_target hx h1, hyperbola_target hy h2, key, ?_, ?_⟩
  · rintro rfl; rw [key]; constructor <;> intro h <;> linarith
  · intro e; rw [key, e]; constructor <;> intro h <;> linarith

/-- C33: without target the score reverses the order of objective plus penalty. -/
theorem C33_minimisation {o₁ o₂ p₁ p₂ : ℚ} {x y : Ind ℚ} (hx : x.objScore = some (.sc o₁)) (hy : y.objScore = some (.sc o₂)) :
    ∃ sx sy, hyperbola .exact none x p₁ = .ok sx ∧ hyperbola .exact none y p₂ = .ok sy ∧ (sy < sx ↔ o₁ + p₁ < o₂ + p₂) := by
  refine ⟨-(o₁ + p₁), -(o₂ + p₂), by simp [hyperbola, hyperbolaR, Arith.exact, hx], by simp [hyperbola, hyperbolaR, Arith.exact, hy], ?_⟩
  constructor <;> intro h <;> linarith

/-! ## C37: dynamic penalty -/

/-- Value of the dynamic penalty in generation `g`. -/
theorem dynamic_value {ar : Arith} {δ c : ℚ} {α β : Exponent} {conds : List Cond} {vals : List ℚ} {t : ℚ} (g : Nat) (best : BestArg)
    (hl : conds.length = vals.length) (ht : sumCond ar β conds vals 0 = .ok t) :
    (newDynamic δ c α β).value ar conds vals g best = .ok (ar.rnd (ar.rnd (δ * α.pow ar (ar.rnd (c * g))) * t)) := by
  unfold Penalty.value newDynamic
  rw [if_pos rfl]
  simp only [PenImpl.execute, ne_eq, not_true_eq_false, if_false, hl, ht, Option.getD_some]
  rfl

/-- With exact arithmetic: the formula of the dynamic penalty. -/
theorem dynamic_exact {δ c : ℚ} {α β : Nat} {conds : List Cond} {vals : List ℚ} (g : Nat) (best : BestArg)
    (hs : KnownSigns conds) (hl : conds.length = vals.length) :
    (newDynamic δ c (.nat α) (.nat β)).value .exact conds vals g best = .ok (δ * (c * g) ^ α * totalExcess β conds vals) := by
  rw [dynamic_value g best hl (sumCond_eq 0 hs hl), zero_add]
  rfl

/-- C37: with positive parameters and from generation 1 on the penalty exists, is at least 0, is 0 exactly when
all constraints hold, and does not decrease from one generation to a later one; in every arithmetic. -/
theorem C37_dynamic {ar : Arith} (R : Rounding ar.rnd) {δ c : ℚ} {α β : Exponent} {conds : List Cond} {vals : List ℚ} (hδ : 0 < δ) (hc : 0 < c)
    (hα : GrowingPower α) (hβ : PositivePower β) (hs : KnownSigns conds) (hl : conds.length = vals.length) (best : BestArg) :
    ∃ pen : Nat → ℚ, (∀ g, (newDynamic δ c α β).value ar conds vals g best = .ok (pen g)) ∧ (∀ g, 0 ≤ pen g) ∧
      (∀ g, 1 ≤ g → (pen g = 0 ↔ AllHold conds vals)) ∧ (∀ g g', g ≤ g' → pen g ≤ pen g') := by
  obtain ⟨t, ht, h0, hz⟩ := sumCond_sign R hβ hs hl le_rfl
  have hcg : ∀ g : Nat, 0 ≤ ar.rnd (c * g) := fun g => R.nonneg (by positivity)
  have hw : ∀ g : Nat, 0 ≤ ar.rnd (δ * α.pow ar (ar.rnd (c * g))) := fun g => R.nonneg (mul_nonneg hδ.le (growing_at hα R (hcg g)))
  refine ⟨_, fun g => dynamic_value g best hl ht, fun g => R.nonneg (mul_nonneg (hw g) h0), ?_, ?_⟩
  · intro g hg
    have hg' : (0 : ℚ) < g := by exact_mod_cast hg
    have hpos : 0 < ar.rnd (δ * α.pow ar (ar.rnd (c * g))) := R.pos (mul_pos hδ (hα.pos ar R _ (R.pos (by positivity))))
    rcases h0.eq_or_lt with h0 | h0
    · rw [← h0, mul_zero, R.zero]
      have := hz.mp h0.symm
      simp [this.2]
    · have h1 : 0 < ar.rnd (ar.rnd (δ * α.pow ar (ar.rnd (c * g))) * t) := R.pos (mul_pos hpos h0)
      constructor
      · intro h; exact absurd h h1.ne'
      · intro h; exact absurd (hz.mpr ⟨rfl, h⟩) h0.ne'
  · intro g g' h
    have hg : (g : ℚ) ≤ g' := by exact_mod_cast h
    refine R.mono (mul_le_mul_of_nonneg_right (R.mono (mul_le_mul_of_nonneg_left ?_ hδ.le)) h0)
    exact hα.mono ar R _ _ (hcg g) (R.mono (mul_le_mul_of_nonneg_left hg hc.le))

/-- C37: with exact arithmetic and natural exponents the penalty is `delta * (c * generation)**alpha` times the sum of the violations to the
power `betta`. -/
theorem C37_formula {δ c : ℚ} {α β : Nat} {conds : List Cond} {vals : List ℚ} (g : Nat) (best : BestArg)
    (hs : KnownSigns conds) (hl : conds.length = vals.length) :
    (newDynamic δ c (.nat α) (.nat β)).value .exact conds vals g best = .ok (δ * (c * g) ^ α * totalExcess β conds vals) :=
  dynamic_exact g best hs hl

/-- C37: a wrong number of values or an unknown sign raises. -/
theorem C37_dynamic_rejects {ar : Arith} {δ c : ℚ} {α β : Exponent} {conds : List Cond} {vals : List ℚ} (g : Nat) (best : BestArg)
    (h : conds.length ≠ vals.length ∨ ¬ KnownSigns conds) :
    (newDynamic δ c α β).value ar conds vals g best = .error .exception := by
  unfold Penalty.value newDynamic
  rw [if_pos rfl]
  simp only [PenImpl.execute, ne_eq, not_true_eq_false, if_false]
  by_cases hl : conds.length = vals.length
  · have hs : ¬ KnownSigns conds := by rcases h with h | h
                                       · exact absurd hl h
                                       · exact h
    rw [if_neg (by simpa using hl), sumCond_unknown 0 hs hl]; rfl
  · rw [if_pos hl]

/-! ## C38: adaptive penalty -/

/-- C38: the constructor refuses small or equal coefficients and accepts all others. -/
theorem C38_constructor (δ b1 b2 : ℚ) (β : Exponent) :
    (∃ p, newAdaptive δ b1 b2 β = .ok p) ↔ 1 < b1 ∧ 1 < b2 ∧ b1 ≠ b2 := by
  unfold newAdaptive
  constructor
  · rintro ⟨p, h⟩
    split at h
    · simp at h
    · split at h
      · simp at h
      · split at h
        · simp at h
        · exact ⟨by linarith, by linarith, by assumption⟩
  · rintro ⟨h1, h2, h3⟩
    rw [if_neg (by linarith), if_neg (by linarith), if_neg h3]
    exact ⟨_, rfl⟩

theorem newAdaptive_ok {δ b1 b2 : ℚ} {β : Exponent} {p : Penalty} (h : newAdaptive δ b1 b2 β = .ok p) :
    p = ⟨"AdaptivePenalty", .adaptive δ b1 b2 β⟩ ∧ 1 < b1 ∧ 1 < b2 := by
  have := (C38_constructor δ b1 b2 β).mp ⟨p, h⟩
  unfold newAdaptive at h
  rw [if_neg (by linarith), if_neg (by linarith), if_neg this.2.2] at h
  simp at h
  exact ⟨h.symm, this.1, this.2.1⟩

/-- Value of the adaptive penalty from generation 1 on. -/
theorem adaptive_value {ar : Arith} {δ b1 b2 : ℚ} {β : Exponent} {conds : List Cond} {vals : List ℚ} {t : ℚ} (hl : conds.length = vals.length)
    (ht : sumCond ar β conds vals 0 = .ok t) {g : Nat} (hg : 1 ≤ g) (feasible : Bool) :
    (⟨"AdaptivePenalty", .adaptive δ b1 b2 β⟩ : Penalty).value ar conds vals g (.ind feasible) =
      .ok (ar.rnd (ar.rnd (δ * if feasible then ar.rnd (ar.rnd (1 / b1) * 10) else ar.rnd (b2 * 10)) * t)) := by
  unfold Penalty.value
  rw [if_neg (show ¬ "AdaptivePenalty" = "DynamicPenalty" by decide), if_pos rfl]
  simp only [PenImpl.execute, hl, ne_eq, not_true_eq_false, if_false, ht, Option.getD_some, reduceCtorEq, bind, Except.bind, pure, Except.pure]
  rw [if_pos (by omega)]
  cases feasible <;> simp

/-- C38: from generation 1 on the weight depends on the feasibility of the best solution; in every arithmetic the penalty is at least 0, and
0 exactly when all constraints hold. -/
theorem C38_adaptive {ar : Arith} (R : Rounding ar.rnd) {δ b1 b2 : ℚ} {β : Exponent} {p : Penalty} {conds : List Cond} {vals : List ℚ}
    (hp : newAdaptive δ b1 b2 β = .ok p) (hs : KnownSigns conds) (hl : conds.length = vals.length) (hδ : 0 < δ) (hβ : PositivePower β)
    {g : Nat} (hg : 1 ≤ g) (feasible : Bool) :
    ∃ pen, p.value ar conds vals g (.ind feasible) = .ok pen ∧ 0 ≤ pen ∧ (pen = 0 ↔ AllHold conds vals) := by
  obtain ⟨rfl, h1, h2⟩ := newAdaptive_ok hp
  obtain ⟨t, ht, h0, hz⟩ := sumCond_sign R hβ hs hl le_rfl
  refine ⟨_, adaptive_value hl ht hg feasible, ?_⟩
  have hw : 0 < ar.rnd (δ * if feasible then ar.rnd (ar.rnd (1 / b1) * 10) else ar.rnd (b2 * 10)) := by
    refine R.pos (mul_pos hδ ?_)
    cases feasible
    · exact R.pos (by linarith)
    · have : 0 < ar.rnd (1 / b1) := R.pos (by apply div_pos <;> linarith)
      exact R.pos (by linarith)
  rcases h0.eq_or_lt with h0 | h0
  · rw [← h0, mul_zero, R.zero]
    have := hz.mp h0.symm
    simp [this.2]
  · have h1 := R.pos (mul_pos hw h0)
    refine ⟨h1.le, ?_⟩
    constructor
    · intro h; exact absurd h h1.ne'
    · intro h; exact absurd (hz.mpr ⟨rfl, h⟩) h0.ne'

/-- C38: the formula, with exact arithmetic and a natural exponent. -/
theorem C38_formula {δ b1 b2 : ℚ} {β : Nat} {p : Penalty} {conds : List Cond} {vals : List ℚ}
    (hp : newAdaptive δ b1 b2 (.nat β) = .ok p) (hs : KnownSigns conds) (hl : conds.length = vals.length)
    {g : Nat} (hg : 1 ≤ g) (feasible : Bool) :
    p.value .exact conds vals g (.ind feasible) =
      .ok (if feasible then δ * (10 / b1) * totalExcess β conds vals else δ * b2 * 10 * totalExcess β conds vals) := by
  obtain ⟨rfl, h1, h2⟩ := newAdaptive_ok hp
  rw [adaptive_value hl (sumCond_eq 0 hs hl) hg feasible]
  simp only [Arith.exact]
  cases feasible
  · simp only [Bool.false_eq_true, if_false]
    congr 1; ring
  · simp only [if_true]
    congr 1; ring

/-! ## C39: infeasible individuals are worse -/

/-- C39, full claim: in every generation an infeasible individual gets a lower score than a feasible one with
the same objective value. -/
def InfeasibleBelow : Prop := ∀ (p : Penalty) (conds : List Cond) (vals vals' : List ℚ) (g : Nat) (feasible : Bool)
  (objValue : Option ℚ) (x : Ind ℚ) (o pen pen' sc sc' : ℚ), PositivePenalty p → KnownSigns conds →
  conds.length = vals.length → conds.length = vals'.length → AllHold conds vals → ¬ AllHold conds vals' →
  x.objScore = some (.sc o) → p.value .exact conds vals g (.ind feasible) = .ok pen → p.value .exact conds vals' g (.ind feasible) = .ok pen' →
  hyperbola .exact objValue x pen = .ok sc → hyperbola .exact objValue x pen' = .ok sc' → sc' < sc

theorem hyperbola_strict {objValue : Option ℚ} {x : Ind ℚ} {o pen pen' sc sc' : ℚ} (ho : x.objScore = some (.sc o))
    (h0 : 0 ≤ pen) (hlt : pen < pen') (h1 : hyperbola .exact objValue x pen = .ok sc) (h2 : hyperbola .exact objValue x pen' = .ok sc') :
    sc' < sc := by
  cases objValue with
  | none =>
    obtain ⟨sx, sy, e1, e2, h⟩ := C33_minimisation (p₁ := pen) (p₂ := pen') ho ho
    rw [e1] at h1; rw [e2] at h2
    simp at h1 h2
    subst h1; subst h2
    exact h.mpr (by linarith)
  | some t =>
    obtain ⟨sx, sy, e1, e2, h, _⟩ := C32_target_order (t := t) ho ho h0 (h0.trans hlt.le)
    rw [e1] at h1; rw [e2] at h2
    simp at h1 h2
    subst h1; subst h2
    exact h.mpr (by linarith)

/-- C39 holds from generation 1 on. -/
theorem C39_infeasible_below_partial {p : Penalty} {conds : List Cond} {vals vals' : List ℚ} {g : Nat} {feasible : Bool}
    {objValue : Option ℚ} {x : Ind ℚ} {o pen pen' sc sc' : ℚ} (hp : PositivePenalty p) (hs : KnownSigns conds)
    (hl : conds.length = vals.length) (hl' : conds.length = vals'.length) (hok : AllHold conds vals)
    (hbad : ¬ AllHold conds vals') (ho : x.objScore = some (.sc o)) (hv : p.value .exact conds vals g (.ind feasible) = .ok pen)
    (hv' : p.value .exact conds vals' g (.ind feasible) = .ok pen') (h1 : hyperbola .exact objValue x pen = .ok sc)
    (h2 : hyperbola .exact objValue x pen' = .ok sc') (hg : 1 ≤ g) : sc' < sc := by
  have hpen : pen = 0 ∧ 0 < pen' := by
    rcases hp with ⟨δ, c, α, β, hδ, hc, hα, hβ, rfl⟩ | ⟨δ, b1, b2, β, hδ, hβ, hp⟩
    · obtain ⟨f, e, _, z, _⟩ := C37_dynamic (ar := .exact) id_rounding hδ hc hα.toGrowingPower hβ hs hl (.ind feasible)
      obtain ⟨f', e', n', z', _⟩ := C37_dynamic (ar := .exact) id_rounding hδ hc hα.toGrowingPower hβ hs hl' (.ind feasible)
      rw [e] at hv; rw [e'] at hv'
      simp at hv hv'
      subst hv; subst hv'
      refine ⟨(z g hg).mpr hok, lt_of_le_of_ne (n' g) ?_⟩
      intro h; exact hbad ((z' g hg).mp h.symm)
    · obtain ⟨q, e, _, z⟩ := C38_adaptive (ar := .exact) id_rounding hp hs hl hδ hβ hg feasible
      obtain ⟨q', e', n', z'⟩ := C38_adaptive (ar := .exact) id_rounding hp hs hl' hδ hβ hg feasible
      rw [e] at hv; rw [e'] at hv'
      simp at hv hv'
      subst hv; subst hv'
      refine ⟨z.mpr hok, lt_of_le_of_ne n' ?_⟩
      intro h; exact hbad (z'.mp h.symm)
  obtain ⟨rfl, hpos⟩ := hpen
  exact hyperbola_strict ho le_rfl hpos h1 h2

/-- C39 fails in generation 0: every penalty of the library with growing weight is 0 there, whatever the
violation, in every arithmetic. -/
theorem C39_generation_zero {ar : Arith} (R : Rounding ar.rnd) {p : Penalty} (hp : PositivePenalty p) {conds : List Cond} {vals : List ℚ}
    (hs : KnownSigns conds) (hl : conds.length = vals.length) (best : BestArg) (hb : best ≠ .notPassed) :
    p.value ar conds vals 0 best = .ok 0 := by
  rcases hp with ⟨δ, c, α, β, hδ, hc, hα, hβ, rfl⟩ | ⟨δ, b1, b2, β, hδ, hβ, hp⟩
  · obtain ⟨t, ht, _⟩ := sumCond_sign R hβ hs hl le_rfl
    rw [dynamic_value 0 best hl ht, Nat.cast_zero, mul_zero, R.zero, hα.zero ar R, mul_zero, R.zero, zero_mul, R.zero]
  · obtain ⟨rfl, h1, h2⟩ := newAdaptive_ok hp
    obtain ⟨t, ht, _⟩ := sumCond_sign R hβ hs hl le_rfl
    unfold Penalty.value
    rw [if_neg (show ¬ "AdaptivePenalty" = "DynamicPenalty" by decide), if_pos rfl]
    simp only [PenImpl.execute, hl, ne_eq, not_true_eq_false, if_false, ht, Option.getD_some, if_neg hb]
    simp [bind, Except.bind, pure, Except.pure, R.zero]

/-- C39 is false in general: generation 0. -/
theorem C39_infeasible_below_refuted : ¬ InfeasibleBelow := by
  intro h
  have hp : PositivePenalty (newDynamic 1 1 1 1) := .inl ⟨1, 1, 1, 1, by norm_num, by norm_num, positive_nat le_rfl, positive_nat le_rfl, rfl⟩
  have hs : KnownSigns [.le] := by intro c hc; simp at hc; exact .inl hc
  have := h (newDynamic 1 1 1 1) [.le] [0] [5] 0 true none { objScore := some (.sc 0) } 0 0 0 0 0 hp hs rfl rfl
    (by simp [AllHold, Holds]) (by simp [AllHold, Holds]) rfl
    (C39_generation_zero (ar := .exact) id_rounding hp hs rfl _ (by decide)) (C39_generation_zero (ar := .exact) id_rounding hp hs rfl _ (by decide))
    (by simp [hyperbola, hyperbolaR, Arith.exact]) (by simp [hyperbola, hyperbolaR, Arith.exact])
  exact lt_irrefl _ this

/-! ## C40: static penalty -/

theorem contains_iff (iv : Interval) (v : ℚ) : iv.contains v = true ↔ Within iv v := by
  unfold Interval.contains Within
  rw [Bool.and_eq_true]
  constructor
  · rintro ⟨h1, h2⟩
    constructor
    · intro a e; rw [e] at h1; simpa using h1
    · intro b e; rw [e] at h2; simpa using h2
  · rintro ⟨h1, h2⟩
    constructor
    · cases e : iv.lo with
      | none => rfl
      | some a => simpa using h1 a e
    · cases e : iv.hi with
      | none => rfl
      | some b => simpa using h2 b e

/-- C40, full claim: a violated constraint is charged by the coefficient of the interval containing its value. -/
def StaticCharges : Prop := ∀ (eqI : List (Nat × List Interval)) (eqR : List (Nat × List ℚ))
  (ineqI : List (Nat × List Interval)) (ineqR : List (Nat × List ℚ)) (p : Penalty) (conds : List Cond)
  (vals qs : List ℚ) (g : Nat) (best : BestArg), newStatic eqI eqR ineqI ineqR = .ok p → KnownSigns conds →
  conds.length = vals.length → conds.length = qs.length →
  (∀ (i : Nat) (v q : ℚ), conds[i]? = some .le → vals[i]? = some v → qs[i]? = some q → ¬ v ≤ 0 → CoefOf ineqI ineqR i v q) →
  (∀ (i : Nat) (v q : ℚ), conds[i]? = some .ne → vals[i]? = some v → qs[i]? = some q → v ≠ 0 → CoefOf eqI eqR i v q) →
  p.value .exact conds vals g best = .ok (charged conds vals qs)

theorem static_value {ar : Arith} {eqI : List (Nat × List Interval)} {eqR : List (Nat × List ℚ)} {ineqI : List (Nat × List Interval)}
    {ineqR : List (Nat × List ℚ)} {p : Penalty} (hp : newStatic eqI eqR ineqI ineqR = .ok p) {conds : List Cond}
    {vals : List ℚ} (hl : conds.length = vals.length) (g : Nat) (best : BestArg) :
    p.value ar conds vals g best = staticSum ar eqI ineqI eqR conds vals 0 0 none := by
  unfold newStatic at hp
  split at hp
  · simp at hp
  · split at hp
    · simp at hp
    · simp only [Except.ok.injEq] at hp
      subst hp
      unfold Penalty.value
      rw [if_neg (show ¬ "StaticPenalty" = "DynamicPenalty" by decide),
        if_neg (show ¬ "StaticPenalty" = "AdaptivePenalty" by decide)]
      simp [PenImpl.execute, hl]

theorem static_le {eqI ineqI : List (Nat × List Interval)} {eqR ineqR : List (Nat × List ℚ)} :
    ∀ {conds : List Cond} {vals qs : List ℚ} (i : Nat) (acc : ℚ) (res : Option ℚ),
    (∀ c ∈ conds, c = .le) → conds.length = vals.length → conds.length = qs.length →
    (∀ (j : Nat) (v q : ℚ), vals[j]? = some v → qs[j]? = some q → ¬ v ≤ 0 →
      (∃ iv, ineqI.lookup (i + j) = some [iv]) ∧ eqR.lookup (i + j) = ineqR.lookup (i + j) ∧ CoefOf ineqI ineqR (i + j) v q) →
    staticSum .exact eqI ineqI eqR conds vals i acc res = .ok (acc + charged conds vals qs) := by
  intro conds
  induction conds with
  | nil => intro vals qs i acc res _ _ _ _; simp [staticSum, charged]
  | cons c cs ih =>
    intro vals qs i acc res hc hl hl' hco
    obtain ⟨v, vs, rfl⟩ : ∃ v vs, vals = v :: vs := by cases vals with
      | nil => simp at hl
      | cons v vs => exact ⟨v, vs, rfl⟩
    obtain ⟨q, qs', rfl⟩ : ∃ v vs, qs = v :: vs := by cases qs with
      | nil => simp at hl'
      | cons v vs => exact ⟨v, vs, rfl⟩
    obtain rfl := hc c List.mem_cons_self
    have ih' := fun acc res => ih (vals := vs) (qs := qs') (i + 1) acc res
      (fun c h => hc c (List.mem_cons_of_mem _ h)) (by simpa using hl) (by simpa using hl')
      (fun j v q hv hq hn => by
        have := hco (j + 1) v q (by simpa using hv) (by simpa using hq) hn
        rwa [show i + (j + 1) = i + 1 + j by omega] at this)
    rw [staticSum]
    by_cases hv : v ≤ 0
    · rw [if_pos hv, ih']
      simp [charged, excess, hv]
    · rw [if_neg hv]
      obtain ⟨⟨iv, hiv⟩, hr, ivs, rs, k, iv', e1, e2, e3, e4, _, e5⟩ := hco 0 v q (by simp) (by simp) hv
      simp only [Nat.add_zero] at hiv hr e1 e2
      rw [hiv] at e1
      simp only [Option.some.injEq] at e1
      subst e1
      have hk : k = 0 := by
        cases k with
        | zero => rfl
        | succ k => simp at e3
      subst hk
      simp at e3
      subst e3
      rw [hiv, hr, e2]
      simp only [staticIntervals]
      rw [if_pos ((contains_iff _ _).mpr e4), e5]
      simp only
      rw [ih', charged, excess_le]
      simp only [Arith.exact]
      congr 1; ring

/-- C40 for constraints `'<='` only, with a single interval for each violated one, when the coefficients of
equalities and inequalities agree. -/
theorem C40_static_partial {eqI : List (Nat × List Interval)} {eqR : List (Nat × List ℚ)}
    {ineqI : List (Nat × List Interval)} {ineqR : List (Nat × List ℚ)} {p : Penalty} {conds : List Cond}
    {vals qs : List ℚ} (g : Nat) (best : BestArg) (hp : newStatic eqI eqR ineqI ineqR = .ok p)
    (hc : ∀ c ∈ conds, c = .le) (hl : conds.length = vals.length) (hl' : conds.length = qs.length)
    (hco : ∀ (i : Nat) (v q : ℚ), vals[i]? = some v → qs[i]? = some q → ¬ v ≤ 0 → CoefOf ineqI ineqR i v q)
    (hone : ∀ (i : Nat) (v : ℚ), vals[i]? = some v → ¬ v ≤ 0 → (∃ iv, ineqI.lookup i = some [iv]) ∧ eqR.lookup i = ineqR.lookup i) :
    p.value .exact conds vals g best = .ok (charged conds vals qs) := by
  rw [static_value hp hl]
  have := static_le (eqI := eqI) (ineqI := ineqI) (eqR := eqR) (ineqR := ineqR) (qs := qs) 0 0 none hc hl hl' (by
    intro j v q hv hq hn
    rw [Nat.zero_add]
    exact ⟨(hone j v hv hn).1, (hone j v hv hn).2, hco j v q hv hq hn⟩)
  rw [this, zero_add]

/-- C40 is false: a violated equality costs nothing. -/
theorem C40_static_refuted : ¬ StaticCharges := by
  intro h
  have := h [(0, [⟨none, none⟩])] [(0, [1])] [] [] _ [.ne] [1] [1] 0 .none rfl
    (by intro c hc; simp at hc; exact .inr hc) rfl rfl
    (by intro i v q hc; cases i <;> simp at hc)
    (by
      intro i v q hc hv hq hn
      cases i with
      | succ i => simp at hc
      | zero =>
        simp at hv hq
        subst hv; subst hq
        refine ⟨[⟨none, none⟩], [1], 0, ⟨none, none⟩, rfl, rfl, rfl, ⟨by simp, by simp⟩, ?_, rfl⟩
        intro k' iv' e _
        cases k' with
        | zero => rfl
        | succ k' => simp at e)
  revert this
  decide +kernel

/-- The defect behind C40 for equalities: their violations never cost anything, whatever the tables. -/
theorem C40_equalities_free {ar : Arith} {eqI : List (Nat × List Interval)} {eqR : List (Nat × List ℚ)}
    {ineqI : List (Nat × List Interval)} {ineqR : List (Nat × List ℚ)} {p : Penalty} {vals : List ℚ}
    {conds : List Cond} (g : Nat) (best : BestArg) (hp : newStatic eqI eqR ineqI ineqR = .ok p) (hc : ∀ c ∈ conds, c = .ne)
    (hl : conds.length = vals.length) (hv : ∀ v ∈ vals, v ≠ 0) : p.value ar conds vals g best = .ok 0 := by
  rw [static_value hp hl]
  have key : ∀ (conds : List Cond) (vals : List ℚ) (i : Nat) (acc : ℚ) (res : Option ℚ), (∀ c ∈ conds, c = .ne) →
      conds.length = vals.length → (∀ v ∈ vals, v ≠ 0) → staticSum ar eqI ineqI eqR conds vals i acc res = .ok acc := by
    intro conds
    induction conds with
    | nil => intro vals i acc res _ _ _; rw [staticSum]
    | cons c cs ih =>
      intro vals i acc res hc hl hv
      cases vals with
      | nil => simp at hl
      | cons v vs =>
        obtain rfl := hc c List.mem_cons_self
        rw [staticSum]
        rw [if_pos (hv v List.mem_cons_self)]
        exact ih vs _ _ _ (fun c h => hc c (List.mem_cons_of_mem _ h)) (by simpa using hl)
          (fun v h => hv v (List.mem_cons_of_mem _ h))
  exact key conds vals 0 0 none hc hl hv

theorem staticIntervals_ok {ar : Arith} {coef : Option (List ℚ)} {v mag : ℚ} : ∀ {ivs : List Interval} {k : Nat} {res out : Option ℚ},
    staticIntervals ar coef v mag ivs k res = .ok out →
    (∀ iv ∈ ivs, Within iv v) ∧ (ivs ≠ [] → ∃ cs c, coef = some cs ∧ cs[k + ivs.length - 1]? = some c ∧ out = some (ar.rnd (c * mag))) ∧
    (ivs = [] → out = res) := by
  intro ivs
  induction ivs with
  | nil => intro k res out h; simp [staticIntervals] at h; exact ⟨by simp, by simp, fun _ => h.symm⟩
  | cons iv ivs ih =>
    intro k res out h
    rw [staticIntervals.eq_def] at h
    simp only at h
    split at h
    · rename_i hin
      cases coef with
      | none => simp at h
      | some cs =>
        simp only at h
        cases hk : cs[k]? with
        | none => rw [hk] at h; simp at h
        | some c =>
          rw [hk] at h
          simp only at h
          obtain ⟨a1, a2, a3⟩ := ih h
          refine ⟨?_, ?_, by simp⟩
          · intro x hx
            rcases List.mem_cons.mp hx with rfl | hx
            · exact (contains_iff _ _).mp hin
            · exact a1 x hx
          · intro _
            by_cases hn : ivs = []
            · subst hn
              exact ⟨cs, c, rfl, by simpa using hk, a3 rfl⟩
            · obtain ⟨cs', c', e1, e2, e3⟩ := a2 hn
              refine ⟨cs', c', e1, ?_, e3⟩
              rw [List.length_cons]
              rwa [show k + (ivs.length + 1) - 1 = k + 1 + ivs.length - 1 by omega]
    · simp at h

/-- The defect behind C40 for several intervals: a violated `'<='` constraint whose value is outside of one of its
intervals makes the evaluation fail. -/
theorem C40_intervals_raise {ar : Arith} {eqI : List (Nat × List Interval)} {eqR : List (Nat × List ℚ)}
    {ineqI : List (Nat × List Interval)} {ineqR : List (Nat × List ℚ)} {p : Penalty} {conds : List Cond} {vals : List ℚ}
    (g : Nat) (best : BestArg) (hp : newStatic eqI eqR ineqI ineqR = .ok p) (hl : conds.length = vals.length)
    {i : Nat} {v : ℚ} {ivs : List Interval} {iv : Interval} (hc : conds[i]? = some .le) (hv : vals[i]? = some v) (hpos : 0 < v)
    (hi : ineqI.lookup i = some ivs) (hm : iv ∈ ivs) (hout : ¬ Within iv v) :
    ∃ e, p.value ar conds vals g best = .error e := by
  rw [static_value hp hl]
  have key : ∀ (conds : List Cond) (vals : List ℚ) (b k : Nat) (acc : ℚ) (res : Option ℚ), conds[k]? = some .le →
      vals[k]? = some v → b + k = i → ∃ e, staticSum ar eqI ineqI eqR conds vals b acc res = .error e := by
    intro conds
    induction conds with
    | nil => intro vals b k acc res h; simp at h
    | cons c cs ih =>
      intro vals b k acc res hc hv hk
      cases vals with
      | nil => exact ⟨_, rfl⟩
      | cons w ws =>
        cases k with
        | zero =>
          simp at hc hv
          subst hc; subst hv
          simp at hk; subst hk
          rw [staticSum]
          rw [if_neg (by linarith), hi]
          simp only
          cases hs : staticIntervals ar (eqR.lookup b) w (max 0 w) ivs 0 res with
          | error e => exact ⟨e, rfl⟩
          | ok o => exact absurd ((staticIntervals_ok hs).1 iv hm) hout
        | succ k =>
          have ih' := fun acc res => ih ws (b + 1) k acc res (by simpa using hc) (by simpa using hv) (by omega)
          cases c with
          | optimize => exact ⟨_, rfl⟩
          | other _ => exact ⟨_, rfl⟩
          | ne =>
            rw [staticSum]
            split
            · exact ih' _ _
            · split
              · exact ⟨_, rfl⟩
              · split
                · exact ⟨_, rfl⟩
                · exact ⟨_, rfl⟩
                · exact ih' _ _
          | le =>
            rw [staticSum]
            split
            · exact ih' _ _
            · split
              · exact ⟨_, rfl⟩
              · split
                · exact ⟨_, rfl⟩
                · exact ⟨_, rfl⟩
                · exact ih' _ _
  exact key conds vals 0 i 0 none hc hv (by omega)

/-- The defect behind C40 for coefficients: those of the inequalities are never read. -/
theorem C40_coefficients_unused {ar : Arith} {eqI : List (Nat × List Interval)} {eqR : List (Nat × List ℚ)}
    {ineqI : List (Nat × List Interval)} {ineqR ineqR' : List (Nat × List ℚ)} {p p' : Penalty} {conds : List Cond}
    {vals : List ℚ} (g : Nat) (best : BestArg) (hp : newStatic eqI eqR ineqI ineqR = .ok p)
    (hp' : newStatic eqI eqR ineqI ineqR' = .ok p') (hl : conds.length = vals.length) :
    p.value ar conds vals g best = p'.value ar conds vals g best := by
  rw [static_value hp hl, static_value hp' hl]

/-- What the static penalty computes when it succeeds and no table is empty: only violated `'<='` constraints
count, with the last coefficient of the *equality* table. -/
theorem C40_exact {eqI : List (Nat × List Interval)} {eqR : List (Nat × List ℚ)}
    {ineqI : List (Nat × List Interval)} {ineqR : List (Nat × List ℚ)} {p : Penalty} {conds : List Cond} {vals : List ℚ}
    (g : Nat) (best : BestArg) {pen : ℚ} (hp : newStatic eqI eqR ineqI ineqR = .ok p) (hl : conds.length = vals.length)
    (h1 : ∀ i, eqI.lookup i ≠ some []) (h2 : ∀ i, ineqI.lookup i ≠ some []) (h : p.value .exact conds vals g best = .ok pen) :
    ∃ qs : List ℚ, qs.length = conds.length ∧ pen = charged conds vals qs ∧
      (∀ (i : Nat) (q : ℚ), conds[i]? = some .ne → qs[i]? = some q → q = 0) ∧
      (∀ (i : Nat) (v q : ℚ), conds[i]? = some .le → vals[i]? = some v → qs[i]? = some q → 0 < v →
        ∃ ivs rs, ineqI.lookup i = some ivs ∧ (∀ iv ∈ ivs, Within iv v) ∧ eqR.lookup i = some rs ∧
          rs[ivs.length - 1]? = some q) := by
  rw [static_value hp hl] at h
  have key : ∀ (conds : List Cond) (vals : List ℚ) (b : Nat) (acc : ℚ) (res : Option ℚ) (pen : ℚ),
      conds.length = vals.length → staticSum .exact eqI ineqI eqR conds vals b acc res = .ok pen →
      ∃ qs : List ℚ, qs.length = conds.length ∧ pen = acc + charged conds vals qs ∧
      (∀ (i : Nat) (q : ℚ), conds[i]? = some .ne → qs[i]? = some q → q = 0) ∧
      (∀ (i : Nat) (v q : ℚ), conds[i]? = some .le → vals[i]? = some v → qs[i]? = some q → 0 < v →
        ∃ ivs rs, ineqI.lookup (b + i) = some ivs ∧ (∀ iv ∈ ivs, Within iv v) ∧ eqR.lookup (b + i) = some rs ∧
          rs[ivs.length - 1]? = some q) := by
    intro conds
    induction conds with
    | nil =>
      intro vals b acc res pen _ h
      rw [staticSum] at h
      simp at h
      exact ⟨[], rfl, by simp [charged, h], by simp, by simp⟩
    | cons c cs ih =>
      intro vals b acc res pen hl h
      cases vals with
      | nil => simp at hl
      | cons v vs =>
        have hl' : cs.length = vs.length := by simpa using hl
        -- extending the list of coefficients
        have ext : ∀ (q : ℚ) (acc' : ℚ) (res' : Option ℚ), staticSum .exact eqI ineqI eqR cs vs (b + 1) acc' res' = .ok pen →
            acc' = acc + (q * excess c v) ^ 2 → (c = .ne → q = 0) →
            (c = .le → 0 < v → ∃ ivs rs, ineqI.lookup b = some ivs ∧ (∀ iv ∈ ivs, Within iv v) ∧ eqR.lookup b = some rs ∧
              rs[ivs.length - 1]? = some q) →
            ∃ qs : List ℚ, qs.length = (c :: cs).length ∧ pen = acc + charged (c :: cs) (v :: vs) qs ∧
            (∀ (i : Nat) (q : ℚ), (c :: cs)[i]? = some .ne → qs[i]? = some q → q = 0) ∧
            (∀ (i : Nat) (w q : ℚ), (c :: cs)[i]? = some .le → (v :: vs)[i]? = some w → qs[i]? = some q → 0 < w →
              ∃ ivs rs, ineqI.lookup (b + i) = some ivs ∧ (∀ iv ∈ ivs, Within iv w) ∧ eqR.lookup (b + i) = some rs ∧
                rs[ivs.length - 1]? = some q) := by
          intro q acc' res' hs hacc hne hle
          obtain ⟨qs, e1, e2, e3, e4⟩ := ih vs (b + 1) acc' res' pen hl' hs
          refine ⟨q :: qs, by simp [e1], ?_, ?_, ?_⟩
          · rw [e2, hacc, charged]; ring
          · intro i q' hi hq
            cases i with
            | zero => simp at hi hq; subst hq; exact hne hi
            | succ i => exact e3 i q' (by simpa using hi) (by simpa using hq)
          · intro i w q' hi hw hq hpos
            cases i with
            | zero => simp at hi hw hq; subst hq; subst hw; exact hle hi hpos
            | succ i =>
              have := e4 i w q' (by simpa using hi) (by simpa using hw) (by simpa using hq) hpos
              rwa [show b + (i + 1) = b + 1 + i by omega]
        cases c with
        | optimize => simp [staticSum] at h
        | other _ => simp [staticSum] at h
        | ne =>
          rw [staticSum] at h
          split at h
          · exact ext 0 acc (some 0) h (by ring) (fun _ => rfl) (fun h => by simp at h)
          · rename_i hv
            have hv0 : v = 0 := by simpa using hv
            cases hi : eqI.lookup b with
            | none => rw [hi] at h; simp at h
            | some ivs =>
              rw [hi] at h
              simp only at h
              cases hs : staticIntervals .exact (eqR.lookup b) v |v| ivs 0 res with
              | error e => rw [hs] at h; simp at h
              | ok o =>
                rw [hs] at h
                obtain ⟨_, a2, _⟩ := staticIntervals_ok hs
                obtain ⟨rs, q, _, _, rfl⟩ := a2 (fun e => h1 b (by rw [hi, e]))
                simp only at h
                refine ext 0 _ _ h ?_ (fun _ => rfl) (fun h => by simp at h)
                rw [hv0]; simp [Arith.exact]
        | le =>
          rw [staticSum] at h
          split at h
          · rename_i hv
            exact ext 0 acc (some 0) h (by ring) (fun _ => rfl) (fun _ hpos => by linarith)
          · rename_i hv
            cases hi : ineqI.lookup b with
            | none => rw [hi] at h; simp at h
            | some ivs =>
              rw [hi] at h
              simp only at h
              cases hs : staticIntervals .exact (eqR.lookup b) v (max 0 v) ivs 0 res with
              | error e => rw [hs] at h; simp at h
              | ok o =>
                rw [hs] at h
                obtain ⟨a1, a2, _⟩ := staticIntervals_ok hs
                obtain ⟨rs, q, e1, e2, rfl⟩ := a2 (fun e => h2 b (by rw [hi, e]))
                simp only at h
                refine ext q _ _ h ?_ (fun h => by simp at h) (fun _ _ => ⟨ivs, rs, hi, a1, e1, ?_⟩)
                · rw [excess_le]; rfl
                · rwa [Nat.zero_add] at e2
  obtain ⟨qs, e1, e2, e3, e4⟩ := key conds vals 0 0 none pen hl h
  refine ⟨qs, e1, by rw [e2, zero_add], e3, ?_⟩
  intro i v q hc hv hq hpos
  have := e4 i v q hc hv hq hpos
  rwa [Nat.zero_add] at this

/-! ## The hypotheses are met by concrete cases -/

/-- C40: an empty list of intervals for an equality that holds.  The constraint is charged what the constraint before it was charged;
as the first constraint it raises `UnboundLocalError`. -/
theorem C40_empty_table {eqI : List (Nat × List Interval)} {eqR : List (Nat × List ℚ)} {ineqI : List (Nat × List Interval)}
    {ineqR : List (Nat × List ℚ)} {p : Penalty} (g : Nat) (best : BestArg) (hp : newStatic eqI eqR ineqI ineqR = .ok p) :
    (∀ {iv : Interval} {q v : ℚ} {rs : List ℚ}, eqI.lookup 1 = some [] → ineqI.lookup 0 = some [iv] → Within iv v → 0 < v →
      eqR.lookup 0 = some (q :: rs) → p.value .exact [.le, .ne] [v, 0] g best = .ok (2 * (q * v) ^ 2)) ∧
    ∀ ar, eqI.lookup 0 = some [] → p.value ar [.ne] [0] g best = .error .unboundLocal := by
  constructor
  · intro iv q v rs h1 h2 hw hv h3
    rw [static_value hp rfl]
    simp only [staticSum, if_neg (not_le.mpr hv), h2, staticIntervals, (contains_iff iv v).mpr hw, h3, if_true, List.getElem?_cons_zero,
      ne_eq, not_true_eq_false, if_false, h1, Arith.exact_rnd, id, max_eq_right hv.le]
    congr 1
    ring
  · intro ar h1
    rw [static_value hp rfl]
    simp only [staticSum, ne_eq, not_true_eq_false, if_false, h1, staticIntervals]

example : KnownSigns [.le, .ne, .le] := by intro c hc; simp at hc; tauto
example : ∃ p, newAdaptive 1 2 3 2 = .ok p := (C38_constructor 1 2 3 2).mpr (by norm_num)
example : PositivePenalty (newDynamic 1 (1/2) 2 2) :=
  .inl ⟨1, 1/2, 2, 2, by norm_num, by norm_num, positive_nat (by norm_num), positive_nat (by norm_num), rfl⟩
example : (newDynamic 1 (1/2) 2 2).value .exact [.le, .ne] [3, -2] 4 .none = .ok 52 := by
  refine (C37_formula (α := 2) (β := 2) 4 .none (by intro c hc; simp at hc; tauto) rfl).trans ?_
  norm_num [totalExcess, excess]
example : AllHold [.le, .ne] [-3, 0] ∧ ¬ AllHold [.le, .ne] [1, 0] := by simp [AllHold, Holds]
example : CoefOf [(0, [⟨some 0, some 5⟩, ⟨some 5, none⟩])] [(0, [2, 7])] 0 6 7 := by
  refine ⟨_, _, 1, ⟨some 5, none⟩, rfl, rfl, rfl, ⟨by norm_num, by simp⟩, ?_, rfl⟩
  intro k' iv' h hw
  rcases k' with _ | _ | k'
  · simp at h; subst h; have := hw.2 5 rfl; norm_num at this
  · rfl
  · simp at h
example : ∃ p, newStatic [(0, [])] [(0, [3])] [(0, [⟨some 0, none⟩])] [(0, [3])] = .ok p ∧
    p.value .exact [.le] [2] 5 .none = .ok 36 := ⟨_, rfl, by decide +kernel⟩

end BaumEva
