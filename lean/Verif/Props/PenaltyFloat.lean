import Verif.Props.MachineRuns
import Mathlib.Algebra.Order.Ring.Pow
/-!
# C105, C106: penalties in machine arithmetic
-/
namespace BaumEva
open Spec

/-! ## relative errors -/

/-- `x` is `y` up to `k` rounding errors. -/
structure Spec.NearBy (k : Nat) (x y : ℚ) : Prop where
  low : (1 - ulp) ^ k * y ≤ x
  high : x ≤ (1 + ulp) ^ k * y

theorem ulp_lt_one : ulp < 1 := by unfold ulp; norm_num

theorem lowPow_pos (k : Nat) : 0 < (1 - ulp) ^ k := by
  have := ulp_lt_one
  exact pow_pos (by linarith) k

theorem highPow_pos (k : Nat) : 0 < (1 + ulp) ^ k := by
  have := ulp_pos
  exact pow_pos (by linarith) k

theorem Spec.NearBy.nonneg {k : Nat} {x y : ℚ} (h : NearBy k x y) (hy : 0 ≤ y) : 0 ≤ x :=
  (mul_nonneg (lowPow_pos k).le hy).trans h.1

theorem nearBy_refl (x : ℚ) : NearBy 0 x x := ⟨by simp, by simp⟩

theorem Spec.NearBy.mono {k l : Nat} {x y : ℚ} (h : NearBy k x y) (hy : 0 ≤ y) (hkl : k ≤ l) : NearBy l x y := by
  have hu := ulp_pos
  have hu' := ulp_lt_one
  constructor
  · refine le_trans (mul_le_mul_of_nonneg_right ?_ hy) h.1
    exact pow_le_pow_of_le_one (by linarith) (by linarith) hkl
  · refine h.2.trans (mul_le_mul_of_nonneg_right ?_ hy)
    exact pow_le_pow_right₀ (by linarith) hkl

theorem Spec.NearBy.rnd {rnd : ℚ → ℚ} (R : Rounding rnd) {k : Nat} {x y : ℚ} (h : NearBy k x y) (hy : 0 ≤ y) : NearBy (k + 1) (rnd x) y := by
  have hu := ulp_pos
  have hu' := ulp_lt_one
  have hx := h.nonneg hy
  constructor
  · refine le_trans ?_ (R.lower hx)
    rw [pow_succ', mul_assoc]
    exact mul_le_mul_of_nonneg_left h.1 (by linarith)
  · refine (R.upper hx).trans ?_
    rw [pow_succ', mul_assoc]
    exact mul_le_mul_of_nonneg_left h.2 (by linarith)

theorem Spec.NearBy.mul {k l : Nat} {x y x' y' : ℚ} (h : NearBy k x y) (h' : NearBy l x' y') (hy : 0 ≤ y) (hy' : 0 ≤ y') :
    NearBy (k + l) (x * x') (y * y') := by
  have h0 := h.nonneg hy
  have h0' := h'.nonneg hy'
  constructor
  · calc (1 - ulp) ^ (k + l) * (y * y') = ((1 - ulp) ^ k * y) * ((1 - ulp) ^ l * y') := by rw [pow_add]; ring
      _ ≤ x * x' := mul_le_mul h.1 h'.1 (mul_nonneg (lowPow_pos l).le hy') h0
  · calc x * x' ≤ ((1 + ulp) ^ k * y) * ((1 + ulp) ^ l * y') := mul_le_mul h.2 h'.2 h0' (mul_nonneg (highPow_pos k).le hy)
      _ = (1 + ulp) ^ (k + l) * (y * y') := by rw [pow_add]; ring

theorem Spec.NearBy.pow {k : Nat} {x y : ℚ} (h : NearBy k x y) (hy : 0 ≤ y) (n : Nat) : NearBy (k * n) (x ^ n) (y ^ n) := by
  induction n with
  | zero => simpa using nearBy_refl 1
  | succ n ih =>
    rw [pow_succ, pow_succ, Nat.mul_succ]
    exact ih.mul h (pow_nonneg hy n) hy

theorem Spec.NearBy.add {k : Nat} {x y x' y' : ℚ} (h : NearBy k x y) (h' : NearBy k x' y') : NearBy k (x + x') (y + y') :=
  ⟨by rw [mul_add]; exact add_le_add h.1 h'.1, by rw [mul_add]; exact add_le_add h.2 h'.2⟩

/-- In terms of the relative error: `k` roundings err by at most `2 k` units of the last place. -/
theorem Spec.NearBy.error {k : Nat} {x y : ℚ} (h : NearBy k x y) (hy : 0 ≤ y) (hk : k ≤ 2 ^ 52) : |x - y| ≤ 2 * k * ulp * y := by
  have hu := ulp_pos
  have hu' := ulp_lt_one
  have hk' : (k : ℚ) * ulp ≤ 1 / 2 := by
    have : (k : ℚ) ≤ 2 ^ 52 := by exact_mod_cast hk
    unfold ulp
    rw [mul_one_div, div_le_iff₀ (by positivity)]
    norm_num at *
    linarith
  have hk0 : 0 ≤ (k : ℚ) * ulp := by positivity
  have low : 1 - k * ulp ≤ (1 - ulp) ^ k := by
    have := one_add_mul_le_pow (a := -ulp) (by linarith) k
    have e : (1 : ℚ) + -ulp = 1 - ulp := by ring
    rw [e] at this
    linarith
  have prod : (1 + ulp) ^ k * (1 - ulp) ^ k ≤ 1 := by
    rw [← mul_pow]
    apply pow_le_one₀
    · exact mul_nonneg (by linarith) (by linarith)
    · nlinarith
  have high : (1 + ulp) ^ k ≤ 1 + 2 * (k * ulp) := by
    have h1 : (1 + ulp) ^ k * (1 - k * ulp) ≤ 1 := (mul_le_mul_of_nonneg_left low (highPow_pos k).le).trans prod
    have h2 : 1 ≤ (1 + 2 * (k * ulp)) * (1 - k * ulp) := by nlinarith
    have h3 : (0 : ℚ) < 1 - k * ulp := by linarith
    exact le_of_mul_le_mul_right (h1.trans h2) h3
  have a := mul_le_mul_of_nonneg_right low hy
  have b := mul_le_mul_of_nonneg_right high hy
  have c : 0 ≤ k * ulp * y := mul_nonneg hk0 hy
  rw [abs_le]
  constructor
  · have := h.1; linarith
  · have := h.2; linarith

/-! ## C105: the computed penalty -/

theorem sumCond_near {ar : Arith} (R : Rounding ar.rnd) {n : Nat} : ∀ {conds : List Cond} {vals : List ℚ} {acc a : ℚ} {m : Nat},
    KnownSigns conds → conds.length = vals.length → 0 ≤ a → 1 ≤ m → NearBy m acc a →
    ∃ t, sumCond ar (.nat n) conds vals acc = .ok t ∧ NearBy (m + conds.length) t (a + totalExcess n conds vals) := by
  intro conds
  induction conds with
  | nil => intro vals acc a m _ _ _ _ h; exact ⟨acc, rfl, by simpa [totalExcess] using h⟩
  | cons c cs ih =>
    intro vals acc a m hs hl ha hm h
    cases vals with
    | nil => simp at hl
    | cons v vs =>
      have hs' : KnownSigns cs := fun x hx => hs x (List.mem_cons_of_mem _ hx)
      have hl' : cs.length = vs.length := by simpa using hl
      have step : ∀ x, x = excess c v → ∃ t, sumCond ar (.nat n) cs vs (ar.rnd (acc + (Exponent.nat n).pow ar x)) = .ok t ∧
          NearBy (m + (c :: cs).length) t (a + totalExcess n (c :: cs) (v :: vs)) := by
        rintro x rfl
        have hx : 0 ≤ excess c v ^ n := pow_nonneg (excess_nonneg c v) n
        have h1 : NearBy m (ar.rnd (excess c v ^ n)) (excess c v ^ n) := ((nearBy_refl _).rnd R hx).mono hx hm
        have h2 := (h.add h1).rnd R (add_nonneg ha hx)
        obtain ⟨t, e1, e2⟩ := ih hs' hl' (add_nonneg ha hx) (Nat.le_succ_of_le hm) h2
        refine ⟨t, e1, ?_⟩
        rw [List.length_cons]
        have : totalExcess n (c :: cs) (v :: vs) = excess c v ^ n + totalExcess n cs vs := by
          simp [totalExcess]
        have e : m + (cs.length + 1) = m + 1 + cs.length := by omega
        rw [this, e, ← add_assoc a]
        exact e2
      rcases hs c List.mem_cons_self with rfl | rfl
      · exact step _ (excess_le v).symm
      · exact step _ (excess_ne v).symm

/-- C105: in every arithmetic the dynamic penalty with natural exponents is
`delta * (c * generation)**alpha * sum of violations**betta` up to `alpha + number of constraints + 4` roundings. -/
theorem C105_dynamic {ar : Arith} (R : Rounding ar.rnd) {δ c : ℚ} {α β : Nat} {conds : List Cond} {vals : List ℚ} (hδ : 0 ≤ δ) (hc : 0 ≤ c)
    (hs : KnownSigns conds) (hl : conds.length = vals.length) (g : Nat) (best : BestArg) :
    ∃ pen, (newDynamic δ c (.nat α) (.nat β)).value ar conds vals g best = .ok pen ∧
      NearBy (α + conds.length + 4) pen (δ * (c * g) ^ α * totalExcess β conds vals) ∧
      (α + conds.length + 4 ≤ 2 ^ 52 → |pen - δ * (c * g) ^ α * totalExcess β conds vals| ≤
        2 * (α + conds.length + 4 : Nat) * ulp * (δ * (c * g) ^ α * totalExcess β conds vals)) := by
  obtain ⟨t, ht, hn⟩ := sumCond_near R (n := β) (acc := 0) (a := 0) (m := 1) hs hl le_rfl le_rfl ⟨by simp, by simp⟩
  rw [zero_add] at hn
  have hT := totalExcess_nonneg β conds vals
  have hcg : 0 ≤ c * (g : ℚ) := by positivity
  have hcp : 0 ≤ (c * (g : ℚ)) ^ α := by positivity
  have h1 := (((nearBy_refl _).rnd R hcg).pow hcg α).rnd R hcp
  have h2 := (((nearBy_refl δ).mul h1 hδ hcp).rnd R (mul_nonneg hδ hcp))
  have h3 := (h2.mul hn (mul_nonneg hδ hcp) hT).rnd R (mul_nonneg (mul_nonneg hδ hcp) hT)
  have e : 0 + ((0 + 1) * α + 1) + 1 + (1 + conds.length) + 1 = α + conds.length + 4 := by ring
  rw [e] at h3
  exact ⟨_, dynamic_value g best hl ht, h3, h3.error (mul_nonneg (mul_nonneg hδ hcp) hT)⟩

/-- C105: the adaptive penalty from generation 1 on is `delta * 10 / betta_1` or `delta * 10 * betta_2` times the sum of violations up to
`number of constraints + 5` roundings. -/
theorem C105_adaptive {ar : Arith} (R : Rounding ar.rnd) {δ b1 b2 : ℚ} {β : Nat} {p : Penalty} {conds : List Cond} {vals : List ℚ}
    (hp : newAdaptive δ b1 b2 (.nat β) = .ok p) (hδ : 0 ≤ δ) (hs : KnownSigns conds) (hl : conds.length = vals.length)
    {g : Nat} (hg : 1 ≤ g) (feasible : Bool) :
    ∃ pen, p.value ar conds vals g (.ind feasible) = .ok pen ∧
      NearBy (conds.length + 5) pen (δ * (if feasible then 10 / b1 else 10 * b2) * totalExcess β conds vals) ∧
      (conds.length + 5 ≤ 2 ^ 52 → |pen - δ * (if feasible then 10 / b1 else 10 * b2) * totalExcess β conds vals| ≤
        2 * (conds.length + 5 : Nat) * ulp * (δ * (if feasible then 10 / b1 else 10 * b2) * totalExcess β conds vals)) := by
  obtain ⟨rfl, h1, h2⟩ := newAdaptive_ok hp
  obtain ⟨t, ht, hn⟩ := sumCond_near R (n := β) (acc := 0) (a := 0) (m := 1) hs hl le_rfl le_rfl ⟨by simp, by simp⟩
  rw [zero_add] at hn
  have hT := totalExcess_nonneg β conds vals
  have hw0 : (0 : ℚ) ≤ if feasible then 10 / b1 else 10 * b2 := by
    split
    · apply div_nonneg <;> linarith
    · linarith
  have hw : NearBy 2 (if feasible then ar.rnd (ar.rnd (1 / b1) * 10) else ar.rnd (b2 * 10)) (if feasible then 10 / b1 else 10 * b2) := by
    cases feasible
    · simp only [Bool.false_eq_true, if_false]
      have : (0 : ℚ) ≤ 10 * b2 := by linarith
      rw [mul_comm b2]
      exact ((nearBy_refl _).rnd R this).mono this (by norm_num)
    · simp only [if_true]
      have hb : (0 : ℚ) ≤ 1 / b1 := by apply div_nonneg <;> linarith
      have := ((((nearBy_refl _).rnd R hb).mul (nearBy_refl 10) hb (by norm_num)).rnd R (mul_nonneg hb (by norm_num)))
      have e : 1 / b1 * 10 = 10 / b1 := by ring
      rwa [e] at this
  have h3 := ((nearBy_refl δ).mul hw hδ hw0).rnd R (mul_nonneg hδ hw0)
  have h4 := (h3.mul hn (mul_nonneg hδ hw0) hT).rnd R (mul_nonneg (mul_nonneg hδ hw0) hT)
  have e : 0 + 2 + 1 + (1 + conds.length) + 1 = conds.length + 5 := by ring
  rw [e] at h4
  exact ⟨_, adaptive_value hl ht hg feasible, h4, h4.error (mul_nonneg (mul_nonneg hδ hw0) hT)⟩

/-- Two constraints, one violated by the double next to `1/10`, generation 3, in binary64: the penalty errs. -/
example : ∃ pen, (newDynamic 1 1 1 2).value .binary64 [.le, .ne] [fl (1 / 10), 0] 3 .notPassed = .ok pen ∧
    pen ≠ 1 * (1 * 3) ^ 1 * totalExcess 2 [.le, .ne] [fl (1 / 10), 0] ∧
    |pen - 1 * (1 * 3) ^ 1 * totalExcess 2 [.le, .ne] [fl (1 / 10), 0]| ≤ 14 * ulp * (1 * (1 * 3) ^ 1 * totalExcess 2 [.le, .ne] [fl (1 / 10), 0]) := by
  obtain ⟨pen, h1, _, h2⟩ := C105_dynamic fl_rounding (ar := .binary64) (δ := 1) (c := 1) (α := 1) (β := 2) (conds := [.le, .ne])
    (vals := [fl (1 / 10), 0]) (by norm_num) (by norm_num) (by intro c hc; simp at hc; tauto) rfl 3 .notPassed
  refine ⟨pen, h1, ?_, ?_⟩
  · have h3 : (newDynamic 1 1 1 2).value .binary64 [.le, .ne] [fl (1 / 10), 0] 3 .notPassed ≠
        .ok (1 * (1 * 3) ^ 1 * totalExcess 2 [.le, .ne] [fl (1 / 10), 0]) := by decide +kernel
    intro e
    exact h3 (h1.trans (by rw [e]))
  · have := h2 (by decide)
    norm_num at this ⊢
    exact this

example : ∃ p pen, newAdaptive 1 3 2 2 = .ok p ∧ p.value .binary64 [.le] [2] 1 (.ind true) = .ok pen ∧
    NearBy 6 pen (1 * (10 / 3) * totalExcess 2 [.le] [2]) := by
  obtain ⟨p, hp⟩ := (C38_constructor 1 3 2 2).mpr (by norm_num)
  obtain ⟨pen, h1, h2, _⟩ := C105_adaptive fl_rounding (ar := .binary64) (conds := [.le]) (vals := [2]) (g := 1) hp (by norm_num)
    (by intro c hc; simp at hc; tauto) rfl le_rfl true
  exact ⟨p, pen, hp, h1, h2⟩

/-! ## C106: constrained runs -/

/-- C106: in a constrained run in any arithmetic the best solution is a point the objective was called with, `obj_score` is the value at the
position of `optimize`, the flag `feasible` tells exactly whether the constraints hold there, and no feasible point evaluated in the run is
smaller when minimising, or closer to the target by more than a relative `16 ulp` of `1 + distance`. -/
theorem C106_float_feasible {f : SingleFacade} {c : Cfg} {ov : Option ℚ} {s s' : St ℚ} {p : Penalty} {cs : List Cond}
    (R : Rounding c.arith.rnd) (hm : ∀ x vs v, c.objective x = .ok (.tup vs) → v ∈ vs → Machine c.arith.rnd v)
    (hp : c.penalty = some p) (hpos : PositivePenalty p) (hcs : s.conds = some cs) (hlen : 2 ≤ cs.length)
    (hone : cs.count .optimize = 1) (hk : KnownSigns (cs.filter fun k => k ≠ .optimize)) (h : f.optimize c ov s = (.ok (), s')) :
    ∃ b gen g vs v, s'.ga.best = some (.single b gen) ∧ argument f.spec.hasPhenotype (s'.heap b) = some g ∧
      g ∈ evaluated s s' ∧ c.objective g = .ok (.tup vs) ∧ vs[cs.idxOf .optimize]? = some v ∧ (s'.heap b).objScore = some (.sc v) ∧
      ((s'.heap b).feasible = true ↔ Satisfies cs vs) ∧
      ∀ g' ∈ evaluated s s', ∃ vs', c.objective g' = .ok (.tup vs') ∧
        (Satisfies cs vs' → ∃ v', vs'[cs.idxOf .optimize]? = some v' ∧ NotVisiblyBetter ov v' v) := by
  obtain ⟨_, _, m1, m2⟩ := C71_budget h
  have htr := (C74_truthful hp hcs hlen hone h).1
  obtain ⟨q, s0, sa, sb, k, hf, hsa, hst, hcalls, hk'⟩ := f.run_full h
  obtain ⟨b, gen, w, h1, h2, ⟨l, h3, h4⟩, h5⟩ := best_in_generations hst.fresh hk'
  obtain ⟨g, vs, v, pen, a1, a2, a3, a4, a5, a6, a7⟩ := htr l h3 _ h4
  obtain ⟨g1, c5, c6⟩ := m2 l h3 _ h4
  rw [a1] at c6
  injection c6 with c6
  subst c6
  refine ⟨b, gen, g, vs, v, h1, a1, c5, a2, a3, a4, a5, ?_⟩
  intro g' hg'
  obtain ⟨l', hl', x, hx, e1⟩ := m1 g' hg'
  obtain ⟨g2, vs', v', pen', b1, b2, b3, b4, b5, b6, b7⟩ := htr l' hl' x hx
  rw [e1] at b1
  injection b1 with b1
  subst b1
  refine ⟨vs', b2, fun hsat => ⟨v', b3, ?_⟩⟩
  obtain ⟨w', e2, e3⟩ := h5 l' hl' x hx
  rw [b6] at e2
  rw [h2] at a6
  injection e2 with e2
  injection a6 with a6
  rw [← e2, a6] at e3
  obtain ⟨q1, _⟩ := a7 R hpos hk
  obtain ⟨_, q4⟩ := b7 R hpos hk
  rw [q4 (b5.mpr hsat)] at e3
  have mv := hm _ _ _ a2 (List.mem_of_getElem? a3)
  have mv' := hm _ _ _ b2 (List.mem_of_getElem? b3)
  unfold NotVisiblyBetter
  cases ov with
  | none =>
    simp only [earned, add_zero] at e3
    rw [mv'] at e3
    have := R.mono (show v ≤ v + pen by linarith)
    rw [mv] at this
    change v ≤ v'
    linarith
  | some t =>
    obtain ⟨y, y', z1, z2, _, _, _, _, z3⟩ := C95_float_score_partial R (t := t) (o := v') (o' := v) (pen := 0) (pen' := pen) le_rfl q1
    rw [← hyperbolaR_earned z1, ← hyperbolaR_earned z2] at e3
    by_contra hc
    have := z3 (by have := not_lt.mp hc; rw [add_zero]; linarith)
    linarith

/-- The sum of three digits divided by ten is to be minimised and to be at least eight tenths, in binary64. -/
def exTenthCfg : Cfg :=
  { exCfg with obj1 := fun x => .ok (.tup [fl (sumNums x / 10), fl (8 / 10 - sumNums x / 10)]), penalty := some (newDynamic 1 1 1 2),
               arith := .binary64 }

def exTenth : Except PyErr Unit × St ℚ := exFacade.optimize exTenthCfg none { tape := exTape, conds := some [.optimize, .le] }

set_option maxRecDepth 100000 in
theorem exTenth_ok : exTenth.1 = .ok () ∧ (evaluated { tape := exTape, conds := some [.optimize, .le] } exTenth.2).length ≠ 0 := by decide +kernel

/-- This run meets the hypotheses. -/
example : ∃ b gen g vs v, exTenth.2.ga.best = some (.single b gen) ∧ argument false (exTenth.2.heap b) = some g ∧
    g ∈ evaluated { tape := exTape, conds := some [.optimize, .le] } exTenth.2 ∧ exTenthCfg.objective g = .ok (.tup vs) ∧ vs[0]? = some v ∧
    (exTenth.2.heap b).objScore = some (.sc v) ∧ ((exTenth.2.heap b).feasible = true ↔ Satisfies [.optimize, .le] vs) ∧
    ∀ g' ∈ evaluated { tape := exTape, conds := some [.optimize, .le] } exTenth.2, ∃ vs', exTenthCfg.objective g' = .ok (.tup vs') ∧
      (Satisfies [.optimize, .le] vs' → ∃ v', vs'[0]? = some v' ∧ NotVisiblyBetter none v' v) :=
  C106_float_feasible (f := exFacade) (c := exTenthCfg) (ov := none) (s := { tape := exTape, conds := some [.optimize, .le] }) fl_rounding (by
    intro x vs v hx hv
    have hx : Except.ok (Ret.tup [fl (sumNums x / 10), fl (8 / 10 - sumNums x / 10)]) = (.ok (.tup vs) : Except PyErr Ret) := hx
    injection hx with hx
    injection hx with hx
    subst hx
    simp only [List.mem_cons, List.not_mem_nil, or_false] at hv
    rcases hv with rfl | rfl <;> exact fl_idem _) rfl
    (.inl ⟨1, 1, 1, 2, by norm_num, by norm_num, positive_nat le_rfl, positive_nat (by norm_num), rfl⟩) rfl (by simp) (by decide)
    (by unfold KnownSigns; decide) (by rw [← exTenth_ok.1]; rfl)

end BaumEva
