import Verif.Spec.Pareto
import Verif.Proofs.Fitness
/-!
# Ranks and the Pareto front
-/
namespace BaumEva
variable {σ : Type}

/-! ## dominance -/

theorem AsGood.refl (x : List ℚ) : AsGood x x := List.forall₂_same.mpr fun _ _ => le_rfl

theorem AsGood.trans {x y z : List ℚ} (h1 : AsGood x y) (h2 : AsGood y z) : AsGood x z := by
  unfold AsGood at *
  induction h1 generalizing z with
  | nil => cases h2; exact .nil
  | cons h _ ih => cases h2 with | cons h' t => exact .cons (h.trans h') (ih t)

theorem AsGood.antisymm {x y : List ℚ} (h1 : AsGood x y) (h2 : AsGood y x) : x = y := by
  unfold AsGood at *
  induction h1 with
  | nil => rfl
  | cons h _ ih => cases h2 with | cons h' t => rw [le_antisymm h h', ih t]

theorem AsGood.length {x y : List ℚ} (h : AsGood x y) : x.length = y.length := List.Forall₂.length_eq h

theorem dominates_iff {x y : List ℚ} : Dominates x y ↔ AsGood x y ∧ x ≠ y := by
  unfold Dominates
  refine and_congr_right fun h => ?_
  constructor
  · rintro ⟨i, a, b, h1, h2, h3⟩ rfl
    rw [h1] at h2
    injection h2 with h2
    exact absurd h2 h3.ne
  · intro hne
    by_contra hc
    push Not at hc
    apply hne
    apply List.ext_getElem? 
    intro i
    have hl := h.length
    by_cases hi : i < x.length
    · have h1 : x[i]? = some x[i] := List.getElem?_eq_getElem hi
      have h2 : y[i]? = some (y[i]'(hl ▸ hi)) := List.getElem?_eq_getElem _
      have h3 := hc i _ _ h1 h2
      have h4 : x[i] ≤ y[i]'(hl ▸ hi) := (List.forall₂_iff_get.mp h).2 i hi (hl ▸ hi)
      rw [h1, h2, le_antisymm h4 h3]
    · rw [List.getElem?_eq_none (by omega), List.getElem?_eq_none (by omega)]

theorem Dominates.irrefl (x : List ℚ) : ¬ Dominates x x := by
  rw [dominates_iff]; simp

theorem Dominates.asGood {x y : List ℚ} (h : Dominates x y) : AsGood x y := h.1

theorem Dominates.trans_asGood {x y z : List ℚ} (h1 : AsGood x y) (h2 : Dominates y z) : Dominates x z := by
  rw [dominates_iff] at h2 ⊢
  refine ⟨h1.trans h2.1, ?_⟩
  rintro rfl
  exact h2.2 (h2.1.antisymm h1)

theorem Dominates.asymm {x y : List ℚ} (h1 : Dominates x y) (h2 : Dominates y x) : False := by
  rw [dominates_iff] at h1 h2
  exact h1.2 (h1.1.antisymm h2.1)

theorem Dominates.trans {x y z : List ℚ} (h1 : Dominates x y) (h2 : Dominates y z) : Dominates x z :=
  Dominates.trans_asGood h1.1 h2

theorem maxScores_eq : ∀ {xs ys : List ℚ}, xs.length = ys.length →
    maxScores xs ys = .ok (List.zipWith (fun x y => if x < y then y else x) xs ys) := by
  intro xs
  induction xs with
  | nil => intro ys h; cases ys with
    | nil => rfl
    | cons _ _ => simp at h
  | cons x xs ih => intro ys h; cases ys with
    | nil => simp at h
    | cons y ys =>
      rw [maxScores, ih (by simpa using h)]
      rfl

theorem zipMax_left : ∀ {xs ys : List ℚ}, xs.length = ys.length →
    (List.zipWith (fun x y => if x < y then y else x) xs ys = xs ↔ AsGood ys xs) := by
  intro xs
  induction xs with
  | nil => intro ys h; cases ys with
    | nil => simp [AsGood]
    | cons _ _ => simp at h
  | cons x xs ih => intro ys h; cases ys with
    | nil => simp at h
    | cons y ys =>
      have := @ih ys (by simpa using h)
      unfold AsGood at this ⊢
      rw [List.zipWith_cons_cons, List.cons.injEq, this, List.forall₂_cons]
      refine and_congr_left fun _ => ?_
      split
      · rename_i h; constructor
        · intro e; exact e.le
        · intro e; exact absurd e (not_le.mpr h)
      · rename_i h; simp [not_lt.mp h]

theorem zipMax_right : ∀ {xs ys : List ℚ}, xs.length = ys.length →
    (List.zipWith (fun x y => if x < y then y else x) xs ys = ys ↔ AsGood xs ys) := by
  intro xs
  induction xs with
  | nil => intro ys h; cases ys with
    | nil => simp [AsGood]
    | cons _ _ => simp at h
  | cons x xs ih => intro ys h; cases ys with
    | nil => simp at h
    | cons y ys =>
      have := @ih ys (by simpa using h)
      unfold AsGood at this ⊢
      rw [List.zipWith_cons_cons, List.cons.injEq, this, List.forall₂_cons]
      refine and_congr_left fun _ => ?_
      split
      · rename_i h; simp [h.le]
      · rename_i h; constructor
        · intro e; exact e.le
        · intro e; exact le_antisymm e (not_lt.mp h)

open Classical in
theorem inferiorOf_eq {xs ys : List ℚ} (h : xs.length = ys.length) :
    inferiorOf xs ys = .ok (if Dominates ys xs then some true else if Dominates xs ys then some false else none) := by
  unfold inferiorOf
  by_cases he : xs = ys
  · subst he
    rw [if_pos rfl, if_neg (Dominates.irrefl _), if_neg (Dominates.irrefl _)]
  · rw [if_neg he, maxScores_eq h]
    show Except.ok _ = _
    have e1 : Dominates ys xs ↔ List.zipWith (fun x y => if x < y then y else x) xs ys = xs := by
      rw [zipMax_left h, dominates_iff]; simp [Ne.symm he]
    have e2 : Dominates xs ys ↔ List.zipWith (fun x y => if x < y then y else x) xs ys = ys := by
      rw [zipMax_right h, dominates_iff]; simp [he]
    simp only [e1, e2]

/-! ## assignment of ranks -/

theorem IsVec.vecOf {f : List Val → Except PyErr Ret} {a : Ind σ} {l : List ℚ} (h : IsVec f a l) : vecOf f a = l := by
  obtain ⟨p, h1, h2⟩ := h
  unfold BaumEva.vecOf
  rw [h1]; simp only [h2]

theorem vecOf_congr {f : List Val → Except PyErr Ret} {a b : Ind σ} (h : a.phenotype = b.phenotype) :
    vecOf f a = vecOf f b := by
  unfold vecOf; rw [h]

theorem IsVec.congr {f : List Val → Except PyErr Ret} {a b : Ind σ} {l : List ℚ} (h : a.phenotype = b.phenotype)
    (hv : IsVec f a l) : IsVec f b l := by
  obtain ⟨p, h1, h2⟩ := hv
  exact ⟨p, by rw [← h]; exact h1, h2⟩

theorem objVector_ok {t : Task σ} {r : Nat} {s s' : St σ} {l : List ℚ} (h : objVector t r s = (.ok l, s')) :
    IsVec t.obj1 (s.heap r) l ∧ s' = { s with calls := s'.calls } := by
  unfold objVector at h
  rw [bind_of_ok (getInd_run r s)] at h
  cases hp : (s.heap r).phenotype with
  | none => simp only [hp, throwE_ok] at h
  | some p =>
    simp only [hp] at h
    obtain ⟨v, s1, h1, h2⟩ := bind_ok.mp h
    obtain ⟨e1, rfl⟩ := callObj_ok.mp h1
    cases v with
    | sc q => simp only [throwE_ok] at h2
    | tup l' =>
      simp only at h2
      obtain ⟨rfl, rfl⟩ := pure_ok.mp h2
      exact ⟨⟨p, hp, e1⟩, rfl⟩

@[simp] theorem bumpRank_phenotype (a : Ind σ) : (bumpRank a).phenotype = a.phenotype := by
  unfold bumpRank; split <;> rfl

@[simp] theorem bumpRank_iter_phenotype (k : Nat) (a : Ind σ) : (bumpRank^[k] a).phenotype = a.phenotype := by
  induction k generalizing a with
  | zero => rfl
  | succ k ih => rw [Function.iterate_succ_apply, ih, bumpRank_phenotype]

theorem bumpRank_iter (k : Nat) : ∀ (q : ℚ) (a : Ind σ), bumpRank^[k] { a with rank := some (.sc q) } = { a with rank := some (.sc (q + k)) } := by
  induction k with
  | zero => intro q a; simp
  | succ k ih =>
    intro q a
    rw [Function.iterate_succ_apply]
    show bumpRank^[k] { a with rank := some (.sc (q + 1)) } = _
    rw [ih]
    push_cast
    rw [show q + 1 + (k : ℚ) = q + (k + 1) by ring]

open Classical in
/-- How often the comparison of `x` and `y` increases the rank of `r`. -/
noncomputable def bumps (f : List Val → Except PyErr Ret) (h : Nat → Ind σ) (r x y : Nat) : Nat :=
  (if r = x ∧ Dominates (vecOf f (h y)) (vecOf f (h r)) then 1 else 0) +
  (if r = y ∧ Dominates (vecOf f (h x)) (vecOf f (h r)) then 1 else 0)

theorem bumps_congr {f : List Val → Except PyErr Ret} {h h' : Nat → Ind σ} (hh : ∀ r, (h r).phenotype = (h' r).phenotype)
    (r x y : Nat) : bumps f h r x y = bumps f h' r x y := by
  unfold bumps
  rw [vecOf_congr (hh r), vecOf_congr (hh x), vecOf_congr (hh y)]

/-- `s'` is `s` after some calls and after the rank of every individual `r` was increased `k r` times. -/
def Ranked' (s s' : St σ) (k : Nat → Nat) : Prop :=
  HeapCalls s s' ∧ ∀ r, s'.heap r = bumpRank^[k r] (s.heap r)

theorem Ranked'.pheno {s s' : St σ} {k : Nat → Nat} (h : Ranked' s s' k) (r : Nat) :
    (s.heap r).phenotype = (s'.heap r).phenotype := by
  rw [h.2 r, bumpRank_iter_phenotype]

theorem Ranked'.trans {a b c : St σ} {k l : Nat → Nat} (h1 : Ranked' a b k) (h2 : Ranked' b c l) :
    Ranked' a c (fun r => k r + l r) := by
  refine ⟨?_, fun r => ?_⟩
  · have e1 := h1.1
    have e2 := h2.1
    unfold HeapCalls at *
    rw [e2, e1]
  · rw [h2.2 r, h1.2 r, ← Function.iterate_add_apply, Nat.add_comm]

theorem rankPair_ok {t : Task σ} {x y : Nat} {s s' : St σ} {u : Unit} (h : rankPair t x y s = (.ok u, s'))
    (hl : ∀ a b, IsVec t.obj1 (s.heap x) a → IsVec t.obj1 (s.heap y) b → a.length = b.length) :
    Ranked' s s' (fun r => bumps t.obj1 s.heap r x y) ∧ (∃ a, IsVec t.obj1 (s.heap x) a) ∧ ∃ b, IsVec t.obj1 (s.heap y) b := by
  unfold rankPair at h
  obtain ⟨xs, s1, h1, k1⟩ := bind_ok.mp h
  obtain ⟨v1, e1⟩ := objVector_ok h1
  obtain ⟨ys, s2, h2, k2⟩ := bind_ok.mp k1
  obtain ⟨v2, e2⟩ := objVector_ok h2
  have hh1 : s1.heap = s.heap := by rw [e1]
  have hh2 : s2.heap = s.heap := by rw [e2, ← hh1]
  rw [hh1] at v2
  obtain ⟨inf, s3, h3, h4⟩ := bind_ok.mp k2
  obtain ⟨e3, rfl⟩ := liftE_ok.mp h3
  rw [inferiorOf_eq (hl _ _ v1 v2)] at e3
  refine ⟨?_, ⟨xs, v1⟩, ys, v2⟩
  have hx := v1.vecOf
  have hy := v2.vecOf
  have hHC : ∀ h' : Nat → Ind σ, HeapCalls s { s3 with heap := h' } := by
    intro h'
    unfold HeapCalls
    rw [e2, e1]
  injection e3 with e3
  split at e3
  · rename_i hd
    subst e3
    simp only [modInd_ok] at h4
    subst h4
    refine ⟨hHC _, fun r => ?_⟩
    simp only [hh2]
    by_cases hr : r = x
    · subst hr
      have h0 : bumps t.obj1 s.heap r r y = 1 := by
        unfold bumps
        rw [hx, hy, if_pos ⟨rfl, hd⟩, if_neg (fun h => Dominates.irrefl _ h.2)]
      rw [upd_same, h0]; rfl
    · have h0 : bumps t.obj1 s.heap r x y = 0 := by
        unfold bumps
        rw [if_neg (fun h => hr h.1), if_neg]
        rintro ⟨rfl, hq⟩
        rw [hx, hy] at hq
        exact hq.asymm hd
      rw [upd_ne hr, h0]; rfl
  · rename_i hnd
    split at e3
    · rename_i hd
      subst e3
      simp only [modInd_ok] at h4
      subst h4
      refine ⟨hHC _, fun r => ?_⟩
      simp only [hh2]
      by_cases hr : r = y
      · subst hr
        have h0 : bumps t.obj1 s.heap r x r = 1 := by
          unfold bumps
          rw [hx, hy, if_neg (fun h => Dominates.irrefl _ h.2), if_pos ⟨rfl, hd⟩]
        rw [upd_same, h0]; rfl
      · have h0 : bumps t.obj1 s.heap r x y = 0 := by
          unfold bumps
          rw [if_neg (fun h : r = y ∧ _ => hr h.1), if_neg]
          rintro ⟨rfl, hq⟩
          rw [hx, hy] at hq
          exact hnd hq
        rw [upd_ne hr, h0]; rfl
    · rename_i hnd2
      subst e3
      simp only [pure_ok, true_and] at h4
      subst h4
      have := hHC s'.heap
      refine ⟨this, fun r => ?_⟩
      have h0 : bumps t.obj1 s.heap r x y = 0 := by
        unfold bumps
        rw [if_neg, if_neg]
        · rintro ⟨rfl, hq⟩; rw [hx, hy] at hq; exact hnd2 hq
        · rintro ⟨rfl, hq⟩; rw [hx, hy] at hq; exact hnd hq
      simp only [hh2, h0]; rfl

/-- Vectors of equal length on some references. -/
def VecsFit (f : List Val → Except PyErr Ret) (h : Nat → Ind σ) (l : List Nat) : Prop := SameLength f (l.map h)

theorem VecsFit.pair {f : List Val → Except PyErr Ret} {h : Nat → Ind σ} {l : List Nat} (hv : VecsFit f h l) {x y : Nat}
    (hx : x ∈ l) (hy : y ∈ l) : ∀ a b, IsVec f (h x) a → IsVec f (h y) b → a.length = b.length :=
  hv _ (List.mem_map_of_mem hx) _ (List.mem_map_of_mem hy)

theorem VecsFit.congr {f : List Val → Except PyErr Ret} {h h' : Nat → Ind σ} {l : List Nat} (hv : VecsFit f h l)
    (hh : ∀ r ∈ l, (h r).phenotype = (h' r).phenotype) : VecsFit f h' l := by
  intro a ha b hb x y hx hy
  obtain ⟨r, hr, rfl⟩ := List.mem_map.mp ha
  obtain ⟨q, hq, rfl⟩ := List.mem_map.mp hb
  exact hv.pair hr hq x y (hx.congr (hh r hr).symm) (hy.congr (hh q hq).symm)

theorem VecsFit.subset {f : List Val → Except PyErr Ret} {h : Nat → Ind σ} {l l' : List Nat} (hv : VecsFit f h l)
    (hs : ∀ r ∈ l', r ∈ l) : VecsFit f h l' := by
  intro a ha b hb
  obtain ⟨r, hr, rfl⟩ := List.mem_map.mp ha
  obtain ⟨q, hq, rfl⟩ := List.mem_map.mp hb
  exact hv.pair (hs r hr) (hs q hq)

theorem rankRow_ok {t : Task σ} {x : Nat} : ∀ {ys : List Nat} {s s' : St σ} {u : Unit},
    forEach ys (rankPair t x) s = (.ok u, s') → VecsFit t.obj1 s.heap (x :: ys) →
    Ranked' s s' (fun r => (ys.map (bumps t.obj1 s.heap r x)).sum) ∧
      (∀ y ∈ ys, (∃ a, IsVec t.obj1 (s.heap x) a) ∧ ∃ b, IsVec t.obj1 (s.heap y) b) := by
  intro ys
  induction ys with
  | nil =>
    intro s s' u h _
    rw [forEach_nil] at h
    simp at h; subst h
    exact ⟨⟨rfl, fun r => rfl⟩, by simp⟩
  | cons y ys ih =>
    intro s s' u h hv
    obtain ⟨s1, h1, h2⟩ := forEach_cons_ok.mp h
    obtain ⟨r1, v1, v2⟩ := rankPair_ok h1 (hv.pair (by simp) (by simp))
    have hph := r1.pheno
    obtain ⟨r2, v3⟩ := ih h2 ((hv.subset (l' := x :: ys) (by
      intro r hr; rcases List.mem_cons.mp hr with rfl | hr <;> simp [*])).congr fun r _ => hph r)
    refine ⟨?_, ?_⟩
    · have := r1.trans r2
      have e : (fun r => bumps t.obj1 s.heap r x y + (ys.map (bumps t.obj1 s1.heap r x)).sum) =
          fun r => ((y :: ys).map (bumps t.obj1 s.heap r x)).sum := by
        funext r
        rw [List.map_cons, List.sum_cons]
        congr 1
        congr 1
        exact List.map_congr_left fun z _ => (bumps_congr hph r x z).symm
      rw [e] at this
      exact this
    · intro z hz
      rcases List.mem_cons.mp hz with rfl | hz
      · exact ⟨v1, v2⟩
      · obtain ⟨⟨a, ha⟩, b, hb⟩ := v3 z hz
        exact ⟨⟨a, ha.congr (hph _).symm⟩, b, hb.congr (hph _).symm⟩

/-- Sum over all pairs. -/
noncomputable def pairBumps (f : List Val → Except PyErr Ret) (h : Nat → Ind σ) (r : Nat) : List Nat → Nat
  | [] => 0
  | x :: xs => (xs.map (bumps f h r x)).sum + pairBumps f h r xs

theorem pairBumps_congr {f : List Val → Except PyErr Ret} {h h' : Nat → Ind σ} (hh : ∀ r, (h r).phenotype = (h' r).phenotype)
    (r : Nat) (l : List Nat) : pairBumps f h r l = pairBumps f h' r l := by
  induction l with
  | nil => rfl
  | cons x xs ih =>
    rw [pairBumps, pairBumps, ih]
    congr 2
    exact List.map_congr_left fun z _ => bumps_congr hh r x z

theorem rankLoop_ok {t : Task σ} : ∀ {l : List Nat} {s s' : St σ} {u : Unit},
    rankLoop t l s = (.ok u, s') → VecsFit t.obj1 s.heap l →
    Ranked' s s' (fun r => pairBumps t.obj1 s.heap r l) ∧
      (2 ≤ l.length → ∀ y ∈ l, ∃ b, IsVec t.obj1 (s.heap y) b) := by
  intro l
  induction l with
  | nil =>
    intro s s' u h _
    rw [rankLoop] at h
    obtain ⟨_, rfl⟩ := pure_ok.mp h
    exact ⟨⟨rfl, fun r => rfl⟩, by simp⟩
  | cons x xs ih =>
    intro s s' u h hv
    rw [rankLoop] at h
    obtain ⟨_, s1, h1, h2⟩ := bind_ok.mp h
    obtain ⟨r1, v1⟩ := rankRow_ok h1 hv
    have hph := r1.pheno
    obtain ⟨r2, _⟩ := ih h2 ((hv.subset (l' := xs) (by intro r hr; simp [hr])).congr fun r _ => hph r)
    refine ⟨?_, ?_⟩
    · have := r1.trans r2
      have e : (fun r => (xs.map (bumps t.obj1 s.heap r x)).sum + pairBumps t.obj1 s1.heap r xs) =
          fun r => pairBumps t.obj1 s.heap r (x :: xs) := by
        funext r
        rw [pairBumps, pairBumps_congr hph]
      rw [e] at this
      exact this
    · intro hlen y hy
      cases xs with
      | nil => simp at hlen
      | cons z zs =>
        rcases List.mem_cons.mp hy with rfl | hy
        · exact (v1 z (by simp)).1
        · exact (v1 y hy).2

theorem row_arith (A B dx dy : Prop) [Decidable A] [Decidable B] [Decidable dx] [Decidable dy] (C K : Nat) :
    (if A ∧ dy then 1 else 0) + (if B ∧ dx then 1 else 0) + ((if A then C else 0) + (if dx then K else 0)) =
    (if A then C + (if dy then 1 else 0) else 0) + (if dx then K + (if B then 1 else 0) else 0) := by
  by_cases A <;> by_cases B <;> by_cases dx <;> by_cases dy <;> simp [*] <;> omega

open Classical in
/-- The double loop counts, for every occurrence of `r`, the dominating members. -/
theorem pairBumps_eq (f : List Val → Except PyErr Ret) (h : Nat → Ind σ) (r : Nat) (l : List Nat) :
    pairBumps f h r l = l.count r * dominators f (l.map h) (h r) := by
  unfold dominators
  induction l with
  | nil => rfl
  | cons x xs ih =>
    have hrow : ∀ ys : List Nat, (ys.map (bumps f h r x)).sum =
        (if r = x then (ys.map h).countP (fun b => decide (Dominates (vecOf f b) (vecOf f (h r)))) else 0) +
        (if Dominates (vecOf f (h x)) (vecOf f (h r)) then ys.count r else 0) := by
      intro ys
      induction ys with
      | nil => simp
      | cons y ys ihy =>
        rw [List.map_cons, List.sum_cons, ihy, List.map_cons, List.countP_cons, List.count_cons]
        unfold bumps
        simp only [beq_iff_eq, decide_eq_true_eq, eq_comm (a := y)]
        exact row_arith _ _ _ _ _ _
    rw [pairBumps, hrow, ih, List.map_cons, List.countP_cons, List.count_cons]
    by_cases h1 : r = x
    · subst h1
      have h4 := Dominates.irrefl (vecOf f (h r))
      simp [h4]; ring
    · have h1' : ¬ (x == r) = true := by simpa using fun e : x = r => h1 e.symm
      by_cases h4 : Dominates (vecOf f (h x)) (vecOf f (h r))
      · simp only [h1, h4, h1', if_true, if_false, decide_true]; simp; ring
      · simp only [h1, h4, h1', if_false, decide_false]; simp

theorem setRank_ok {q : ℚ} : ∀ {l : List Nat} {s s' : St σ} {u : Unit},
    forEach l (fun r => modInd r fun ind => { ind with rank := some (.sc q) }) s = (.ok u, s') →
    s' = { s with heap := fun r => if r ∈ l then { s.heap r with rank := some (.sc q) } else s.heap r } := by
  intro l
  induction l with
  | nil =>
    intro s s' u h
    rw [forEach_nil] at h
    simp at h; subst h
    simp
  | cons x xs ih =>
    intro s s' u h
    obtain ⟨s1, h1, h2⟩ := forEach_cons_ok.mp h
    rw [modInd_ok] at h1
    have := ih h2
    subst h1
    rw [this]
    congr 1
    funext r
    by_cases hx : r = x
    · subst hx; simp [upd]
    · simp [upd, hx]

/-- Complete description of `assign_ranks`: the rank of a member is one plus the number of members that dominate
it, once for every occurrence of the member. -/
theorem assignRanks_ok {t : Task σ} {s s' : St σ} {u : Unit} (h : assignRanks t s = (.ok u, s'))
    (hv : VecsFit t.obj1 s.heap s.ga.population) :
    HeapCalls s s' ∧
    (∀ r ∈ s.ga.population, s'.heap r = { s.heap r with rank := some (.sc (1 +
      (s.ga.population.count r * dominators t.obj1 (s.ga.population.map s.heap) (s.heap r) : Nat))) }) ∧
    (∀ r, r ∉ s.ga.population → s'.heap r = s.heap r) ∧
    (2 ≤ s.ga.population.length → ∀ r ∈ s.ga.population, ∃ b, IsVec t.obj1 (s.heap r) b) := by
  unfold assignRanks at h
  rw [bind_of_ok (getGa_run s)] at h
  obtain ⟨_, s1, h1, h2⟩ := bind_ok.mp h
  have e1 := setRank_ok h1
  have hph : ∀ r, (s1.heap r).phenotype = (s.heap r).phenotype := by
    intro r; rw [e1]; simp only; split <;> rfl
  obtain ⟨⟨hc, hr⟩, hvec⟩ := rankLoop_ok h2 (hv.congr fun r _ => (hph r).symm)
  simp only at hr
  refine ⟨?_, ?_, ?_, ?_⟩
  · unfold HeapCalls at *
    rw [hc, e1]
  · intro r hm
    rw [hr r, pairBumps_congr hph, pairBumps_eq, e1]
    simp only [hm, if_true]
    exact bumpRank_iter _ _ _
  · intro r hm
    rw [hr r, pairBumps_congr hph, pairBumps_eq, e1, List.count_eq_zero_of_not_mem hm]
    simp [hm]
  · intro h2 r hm
    obtain ⟨b, hb⟩ := hvec h2 r hm
    exact ⟨b, hb.congr (hph r)⟩

end BaumEva
