import Verif.Model.Fitness
import Verif.Spec.Fitness
import Verif.Spec.Penalty
import Verif.Proofs.Float
import Mathlib.Tactic.Linarith
import Mathlib.Tactic.Positivity
import Mathlib.Tactic.Ring
import Mathlib.Algebra.Order.BigOperators.Group.List
/-!
# Lemmas about penalties and constraints
-/
namespace BaumEva
open Spec

theorem condHolds_iff (c : Cond) (v : ℚ) : condHolds c v = true ↔ Holds c v := by
  cases c <;> simp [condHolds, Holds]

theorem excess_nonneg (c : Cond) (v : ℚ) : 0 ≤ excess c v := by
  cases c <;> simp only [excess] <;> split <;> linarith

theorem excess_eq_zero (c : Cond) (v : ℚ) : excess c v = 0 ↔ Holds c v := by
  cases c <;> simp only [excess, Holds]
  case le => split <;> constructor <;> intro h <;> first | assumption | linarith
  all_goals
    split
    · constructor <;> intro h <;> linarith
    · rfl

theorem excess_le (v : ℚ) : excess .le v = max 0 v := by
  simp only [excess]; split
  · rw [max_eq_left ‹_›]
  · rw [max_eq_right (by linarith)]

theorem excess_ne (v : ℚ) : excess .ne v = |v| := by
  simp only [excess]; split
  · rw [abs_of_neg ‹_›]
  · rw [abs_of_nonneg (by linarith)]

theorem totalExcess_nonneg (k : Nat) (conds : List Cond) (vals : List ℚ) : 0 ≤ totalExcess k conds vals := by
  unfold totalExcess
  apply List.sum_nonneg
  intro x hx
  obtain ⟨p, _, rfl⟩ := List.mem_map.mp hx
  exact pow_nonneg (excess_nonneg _ _) _

theorem totalExcess_eq_zero {k : Nat} (hk : 1 ≤ k) (conds : List Cond) (vals : List ℚ) :
    totalExcess k conds vals = 0 ↔ AllHold conds vals := by
  unfold totalExcess AllHold
  induction conds.zip vals with
  | nil => simp
  | cons p ps ih =>
    rw [List.map_cons, List.sum_cons, List.forall_mem_cons, ← ih, ← excess_eq_zero]
    have h1 : 0 ≤ excess p.1 p.2 ^ k := pow_nonneg (excess_nonneg _ _) _
    have h2 : 0 ≤ (ps.map fun p => excess p.1 p.2 ^ k).sum := by
      apply List.sum_nonneg
      intro x hx
      obtain ⟨q, _, rfl⟩ := List.mem_map.mp hx
      exact pow_nonneg (excess_nonneg _ _) _
    constructor
    · intro h
      have h3 : excess p.1 p.2 ^ k = 0 := by linarith
      exact ⟨pow_eq_zero_iff (by omega) |>.mp h3, by linarith⟩
    · rintro ⟨h3, h4⟩
      rw [h3, h4, zero_pow (by omega)]; simp

/-! ## exponents -/

theorem growing_nat (n : Nat) : GrowingPower (.nat n) where
  nonneg := fun _ R => R.nonneg (by positivity)
  pos := fun _ R _ hx => R.pos (by positivity)
  mono := fun _ R _ _ h0 h => R.mono (pow_le_pow_left₀ h0 h n)

theorem positive_nat {n : Nat} (hn : 1 ≤ n) : PositivePower (.nat n) where
  toGrowingPower := growing_nat n
  zero := fun ar R => by
    show ar.rnd (0 ^ n) = 0
    rw [zero_pow (by omega), R.zero]

theorem growing_at {e : Exponent} (h : GrowingPower e) {ar : Arith} (R : Rounding ar.rnd) {x : ℚ} (hx : 0 ≤ x) : 0 ≤ e.pow ar x := by
  rcases hx.eq_or_lt with rfl | hx
  · exact h.nonneg ar R
  · exact (h.pos ar R x hx).le

/-! ## the sum of the violations -/

/-- With exact arithmetic: the sum of powers. -/
theorem sumCond_eq {k : Nat} : ∀ {conds : List Cond} {vals : List ℚ} (acc : ℚ), KnownSigns conds →
    conds.length = vals.length → sumCond .exact (.nat k) conds vals acc = .ok (acc + totalExcess k conds vals) := by
  intro conds
  induction conds with
  | nil => intro vals acc _ _; simp [sumCond, totalExcess]
  | cons c cs ih =>
    intro vals acc hs hl
    cases vals with
    | nil => simp at hl
    | cons v vs =>
      have hs' : KnownSigns cs := fun x hx => hs x (List.mem_cons_of_mem _ hx)
      have hl' : cs.length = vs.length := by simpa using hl
      rcases hs c List.mem_cons_self with rfl | rfl
      · rw [sumCond, ih _ hs' hl', ← excess_le]
        simp only [totalExcess, List.zip_cons_cons, List.map_cons, List.sum_cons, add_assoc, Exponent.nat, Arith.exact]
      · rw [sumCond, ih _ hs' hl', ← excess_ne]
        simp only [totalExcess, List.zip_cons_cons, List.map_cons, List.sum_cons, add_assoc, Exponent.nat, Arith.exact]

/-- In any arithmetic: the sum is not negative, and it is 0 only if nothing is violated. -/
theorem sumCond_sign {ar : Arith} (R : Rounding ar.rnd) {e : Exponent} (he : PositivePower e) : ∀ {conds : List Cond} {vals : List ℚ} {acc : ℚ},
    KnownSigns conds → conds.length = vals.length → 0 ≤ acc →
    ∃ t, sumCond ar e conds vals acc = .ok t ∧ 0 ≤ t ∧ (t = 0 ↔ acc = 0 ∧ AllHold conds vals) := by
  intro conds
  induction conds with
  | nil => intro vals acc _ _ h0; exact ⟨acc, rfl, h0, by simp [AllHold]⟩
  | cons c cs ih =>
    intro vals acc hs hl h0
    cases vals with
    | nil => simp at hl
    | cons v vs =>
      have hs' : KnownSigns cs := fun x hx => hs x (List.mem_cons_of_mem _ hx)
      have hl' : cs.length = vs.length := by simpa using hl
      have hstep : sumCond ar e (c :: cs) (v :: vs) acc = sumCond ar e cs vs (ar.rnd (acc + e.pow ar (excess c v))) := by
        rcases hs c List.mem_cons_self with rfl | rfl
        · rw [sumCond, ← excess_le]
        · rw [sumCond, ← excess_ne]
      have hx := excess_nonneg c v
      have hp : 0 ≤ e.pow ar (excess c v) := growing_at he.toGrowingPower R hx
      obtain ⟨t, h1, h2, h3⟩ := ih (acc := ar.rnd (acc + e.pow ar (excess c v))) hs' hl' (R.nonneg (by linarith))
      refine ⟨t, by rw [hstep, h1], h2, h3.trans ?_⟩
      unfold AllHold
      rw [List.zip_cons_cons, List.forall_mem_cons, ← excess_eq_zero, ← and_assoc]
      refine and_congr_left fun _ => ?_
      constructor
      · intro h
        rcases hx.eq_or_lt with hx | hx
        · refine ⟨?_, hx.symm⟩
          rw [← hx, he.zero ar R, add_zero] at h
          rcases h0.eq_or_lt with h0 | h0
          · exact h0.symm
          · exact absurd h (R.pos h0).ne'
        · have := he.pos ar R _ hx
          exact absurd h (R.pos (by linarith)).ne'
      · rintro ⟨ha, hb⟩
        simp only at hb
        rw [ha, hb, he.zero ar R, add_zero, R.zero]

theorem sumCond_unknown {ar : Arith} {k : Exponent} : ∀ {conds : List Cond} {vals : List ℚ} (acc : ℚ), ¬ KnownSigns conds →
    conds.length = vals.length → sumCond ar k conds vals acc = .error .exception := by
  intro conds
  induction conds with
  | nil => intro vals acc h _; exact absurd (fun c hc => by simp at hc) h
  | cons c cs ih =>
    intro vals acc hs hl
    cases vals with
    | nil => simp at hl
    | cons v vs =>
      have hl' : cs.length = vs.length := by simpa using hl
      have key : (c = .le ∨ c = .ne) → ¬ KnownSigns cs := by
        intro hc hcs
        apply hs
        intro x hx
        rcases List.mem_cons.mp hx with rfl | hx
        · exact hc
        · exact hcs x hx
      cases c with
      | le => rw [sumCond]; exact ih _ (key (.inl rfl)) hl'
      | ne => rw [sumCond]; exact ih _ (key (.inr rfl)) hl'
      | optimize => rfl
      | other _ => rfl

/-! ## Which values the constraints get -/

/-- Positions of `'optimize'`. -/
def optIdx (cs : List Cond) : List Nat := (List.range cs.length).filter fun i : Nat => cs[i]? = some .optimize

theorem optIdx_snoc (cs : List Cond) (c : Cond) :
    optIdx (cs ++ [c]) = optIdx cs ++ (if c = .optimize then [cs.length] else []) := by
  unfold optIdx
  rw [List.length_append, List.length_singleton, List.range_succ, List.filter_append]
  congr 1
  · apply List.filter_congr
    intro i hi
    rw [List.getElem?_append_left (List.mem_range.mp hi)]
  · by_cases h : c = .optimize <;> simp [h]

theorem zip_append_of_le {α β : Type} : ∀ (a : List α) (x y : List β), a.length ≤ x.length → a.zip (x ++ y) = a.zip x
  | [], _, _, _ => by simp
  | _ :: _, [], _, h => by simp at h
  | a :: as, x :: xs, y, h => by
    rw [List.cons_append, List.zip_cons_cons, List.zip_cons_cons, zip_append_of_le as xs y (by simpa using h)]

theorem append_zip_of_le {α β : Type} : ∀ (a b : List α) (x : List β), x.length ≤ a.length → (a ++ b).zip x = a.zip x
  | _, _, [], _ => by simp
  | [], _, _ :: _, h => by simp at h
  | a :: as, b, x :: xs, h => by
    rw [List.cons_append, List.zip_cons_cons, List.zip_cons_cons, append_zip_of_le as b xs (by simpa using h)]

/-- Repeated popping from the right end leaves the values at the other positions. -/
theorem popAll_opt : ∀ (cs : List Cond) (vs : List ℚ) {pr : List ℚ × List ℚ},
    popAll (optIdx cs).reverse vs = .ok pr →
    pr.1 = (((cs.zip vs).filter fun p => p.1 = .optimize).map Prod.snd).reverse ∧
    pr.2 = ((cs.zip vs).filter fun p => p.1 ≠ .optimize).map Prod.snd ++ vs.drop cs.length := by
  intro cs
  induction cs using List.reverseRecOn with
  | nil => intro vs pr h; simp [optIdx, popAll] at h; subst h; simp
  | append_singleton cs c ih =>
    intro vs pr h
    rw [optIdx_snoc] at h
    by_cases hc : c = .optimize
    · subst hc
      rw [if_pos rfl, List.reverse_append, List.reverse_singleton, List.singleton_append, popAll] at h
      cases hv : vs[cs.length]? with
      | none => rw [hv] at h; simp at h
      | some v =>
        rw [hv] at h
        simp only at h
        cases hr : popAll (optIdx cs).reverse (vs.eraseIdx cs.length) with
        | error e => rw [hr] at h; simp [bind, Except.bind] at h
        | ok q =>
          rw [hr] at h
          simp only [bind, Except.bind, pure, Except.pure, Except.ok.injEq] at h
          subst h
          obtain ⟨h1, h2⟩ := ih _ hr
          have hlt : cs.length < vs.length := by
            rw [List.getElem?_eq_some_iff] at hv; exact hv.1
          have hvs : vs = vs.take cs.length ++ v :: vs.drop (cs.length + 1) := by
            conv_lhs => rw [← List.take_append_drop cs.length vs]
            congr 1
            rw [List.drop_eq_getElem_cons hlt]
            congr 1
            rw [List.getElem?_eq_some_iff] at hv
            exact hv.2
          have hlen : cs.length = (vs.take cs.length).length := by rw [List.length_take]; omega
          have e1 : vs.eraseIdx cs.length = vs.take cs.length ++ vs.drop (cs.length + 1) :=
            List.eraseIdx_eq_take_drop_succ vs cs.length
          have e2 : cs.zip (vs.eraseIdx cs.length) = cs.zip (vs.take cs.length) := by
            rw [e1, zip_append_of_le _ _ _ hlen.le]
          have e3 : (cs ++ [Cond.optimize]).zip vs = cs.zip (vs.take cs.length) ++ [(Cond.optimize, v)] := by
            conv_lhs => rw [hvs]
            rw [List.zip_append hlen]; simp
          have e4 : (vs.eraseIdx cs.length).drop cs.length = vs.drop (cs.length + 1) := by
            rw [e1, List.drop_append, ← hlen]; simp
          rw [e2] at h1 h2
          rw [e4] at h2
          constructor
          · rw [h1, e3]; simp
          · rw [h2, e3]; simp
    · rw [if_neg hc, List.append_nil] at h
      obtain ⟨h1, h2⟩ := ih _ h
      by_cases hlt : cs.length < vs.length
      · have hd : vs.drop cs.length = vs[cs.length] :: vs.drop (cs.length + 1) := List.drop_eq_getElem_cons hlt
        have hlen : cs.length = (vs.take cs.length).length := by rw [List.length_take]; omega
        have hvs : vs = vs.take cs.length ++ vs[cs.length] :: vs.drop (cs.length + 1) := by
          rw [← hd, List.take_append_drop]
        have e3 : (cs ++ [c]).zip vs = cs.zip (vs.take cs.length) ++ [(c, vs[cs.length])] := by
          conv_lhs => rw [hvs]
          rw [List.zip_append hlen, List.zip_cons_cons, List.zip_nil_left]
        have e2 : cs.zip vs = cs.zip (vs.take cs.length) := by
          conv_lhs => rw [hvs]
          rw [zip_append_of_le _ _ _ hlen.le]
        rw [e2] at h1 h2
        rw [e3, h1, h2, hd]
        simp [hc]
      · have hvl : vs.length ≤ cs.length := by omega
        have e3 : (cs ++ [c]).zip vs = cs.zip vs := append_zip_of_le _ _ _ hvl
        rw [e3, h1, h2, List.drop_eq_nil_of_le hvl, List.drop_eq_nil_of_le (by simp; omega)]
        exact ⟨rfl, rfl⟩

theorem zip_filter_fst (cs : List Cond) (vs : List ℚ) (p : Cond → Bool) :
    ∃ more, cs.filter p = ((cs.zip vs).filter fun q => p q.1).map Prod.fst ++ more ∧ (cs.length ≤ vs.length → more = []) := by
  induction cs generalizing vs with
  | nil => exact ⟨[], by simp, fun _ => rfl⟩
  | cons c cs ih =>
    cases vs with
    | nil => exact ⟨(c :: cs).filter p, by simp, by simp⟩
    | cons v vs =>
      obtain ⟨more, h1, h2⟩ := ih vs
      refine ⟨more, ?_, fun h => h2 (by simpa using h)⟩
      rw [List.zip_cons_cons, List.filter_cons, List.filter_cons]
      by_cases hp : p c <;> simp [hp, h1]

/-- The constraints are paired with the values at their own positions. -/
theorem zip_opt {cs : List Cond} {vs : List ℚ} {rest : List ℚ}
    (h : rest = ((cs.zip vs).filter fun p => p.1 ≠ .optimize).map Prod.snd ++ vs.drop cs.length) :
    (cs.filter fun c => c ≠ .optimize).zip rest = (cs.zip vs).filter fun p => p.1 ≠ .optimize := by
  obtain ⟨more, h1, h2⟩ := zip_filter_fst cs vs (fun c => decide (c ≠ .optimize))
  rw [h1, h, List.zip_append (by simp)]
  have : ∀ l : List (Cond × ℚ), (l.map Prod.fst).zip (l.map Prod.snd) = l := by
    intro l; induction l with
    | nil => rfl
    | cons a l ih => simp [ih]
  rw [this]
  have hz : more.zip (vs.drop cs.length) = [] := by
    by_cases hl : cs.length ≤ vs.length
    · rw [h2 hl]; simp
    · rw [List.drop_eq_nil_of_le (by omega)]; simp
  rw [hz, List.append_nil]

theorem all_zip_iff (cs : List Cond) (vs : List ℚ) :
    ((cs.zip vs).filter fun p => p.1 ≠ .optimize).all (fun p => condHolds p.1 p.2) = true ↔ Satisfies cs vs := by
  rw [List.all_eq_true]
  unfold Satisfies
  constructor
  · intro h j c v hc hne hv
    rw [← condHolds_iff]
    apply h (c, v)
    rw [List.mem_filter]
    refine ⟨?_, by simpa using hne⟩
    rw [List.mem_iff_getElem?]
    exact ⟨j, by rw [List.getElem?_zip_eq_some]; exact ⟨hc, hv⟩⟩
  · intro h p hp
    obtain ⟨h1, h2⟩ := List.mem_filter.mp hp
    obtain ⟨j, hj⟩ := List.mem_iff_getElem?.mp h1
    obtain ⟨a, b⟩ := List.getElem?_zip_eq_some.mp hj
    rw [condHolds_iff]
    exact h j _ _ a (by simpa using h2) b

theorem optIdx_of_not_mem {cs : List Cond} (h : Cond.optimize ∉ cs) : optIdx cs = [] := by
  unfold optIdx
  rw [List.filter_eq_nil_iff]
  intro i _
  simp only [decide_eq_true_eq]
  intro e
  exact h (List.mem_of_getElem? e)

theorem single_opt {cs : List Cond} (h : cs.count .optimize = 1) :
    optIdx cs = [cs.idxOf .optimize] ∧ cs.erase .optimize = cs.filter fun c => c ≠ .optimize := by
  have hm : Cond.optimize ∈ cs := by rw [← List.count_pos_iff]; omega
  obtain ⟨a, b, rfl, ha⟩ := List.eq_append_cons_of_mem hm
  have hb : Cond.optimize ∉ b := by
    intro hb
    rw [List.count_append, List.count_cons_self] at h
    have := List.count_pos_iff.mpr hb
    omega
  constructor
  · have hi : (a ++ Cond.optimize :: b).idxOf .optimize = a.length := by
      rw [List.idxOf_append_of_notMem ha]; simp
    rw [hi]
    clear hi h hm
    have base : optIdx (a ++ [Cond.optimize]) = [a.length] := by
      rw [optIdx_snoc, optIdx_of_not_mem ha]; simp
    induction b using List.reverseRecOn with
    | nil => exact base
    | append_singleton b c ih =>
      have hc : c ≠ .optimize := by rintro rfl; simp at hb
      have := ih (fun h => hb (by simp [h]))
      rw [show a ++ Cond.optimize :: (b ++ [c]) = (a ++ Cond.optimize :: b) ++ [c] by simp, optIdx_snoc, this, if_neg hc]
      simp
  · rw [List.erase_append_right _ ha, List.erase_cons_head, List.filter_append]
    rw [List.filter_cons_of_neg (by simp)]
    rw [List.filter_eq_self.mpr, List.filter_eq_self.mpr]
    · intro x hx; simp; rintro rfl; exact hb hx
    · intro x hx; simp; rintro rfl; exact ha hx

end BaumEva
