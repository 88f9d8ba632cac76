import Verif.Proofs.Crossover
import Verif.Model.Mutation
import Mathlib.Dynamics.PeriodicPts.Defs
import Mathlib.Dynamics.PeriodicPts.Lemmas
/-!
# Where crossover of equal tours and movement lead

Ordered crossover of a tour with itself (segment `[1, 2)`), followed by no mutation or by an exchange of two neighbours (a
movement), reaches every arrangement of the tour.
-/
namespace BaumEva
variable {α : Type} [DecidableEq α]

/-- The child of a tour and itself for the segment `[1, 2)`. -/
def turned (q : List α) : List α := orderChild q.length 1 2 q q

theorem turned_eq {a b : α} {m : List α} {z : α} (h : (a :: b :: (m ++ [z])).Nodup) :
    turned (a :: b :: (m ++ [z])) = z :: b :: a :: m := by
  have e1 : slice (a :: b :: (m ++ [z])) 1 2 = [b] := by simp [slice]
  have e2 : (a :: b :: (m ++ [z])).filter (fun x => x ∉ [b]) = a :: (m ++ [z]) := by
    rw [List.nodup_cons, List.nodup_cons] at h
    obtain ⟨h1, h2, _⟩ := h
    have hab : a ≠ b := by rintro rfl; exact h1 List.mem_cons_self
    have : (m ++ [z]).filter (fun x => x ∉ [b]) = m ++ [z] := by
      rw [List.filter_eq_self]
      intro x hx
      have : x ≠ b := by rintro rfl; exact h2 hx
      simpa using this
    rw [List.filter_cons_of_pos (by simpa using hab), List.filter_cons_of_neg (by simp), this]
  unfold turned orderChild
  simp only
  rw [e1, e2]
  have e3 : (a :: b :: (m ++ [z])).length - 2 = m.length + 1 := by simp
  rw [e3]
  simp [slice]

omit [DecidableEq α] in
/-- The shape of a list with at least three members. -/
theorem three_shape {q : List α} (h : 3 ≤ q.length) : ∃ a b m z, q = a :: b :: (m ++ [z]) := by
  match q with
  | a :: b :: c :: r =>
    obtain ⟨m, z, e⟩ : ∃ m z, c :: r = m ++ [z] :=
      ⟨(c :: r).dropLast, (c :: r).getLast (by simp), (List.dropLast_append_getLast (by simp)).symm⟩
    exact ⟨a, b, m, z, by rw [e]⟩
  | [] => simp at h
  | [_] => simp at h
  | [_, _] => simp at h

theorem turned_perm {q : List α} (h3 : 3 ≤ q.length) (hn : q.Nodup) : (turned q).Perm q := by
  obtain ⟨a, b, m, z, rfl⟩ := three_shape h3
  rw [turned_eq hn]
  rw [List.perm_iff_count]
  intro x
  simp only [List.count_cons, List.count_append, List.count_nil]
  omega

theorem turned_inj {q q' : List α} (h3 : 3 ≤ q.length) (hn : q.Nodup) (h3' : 3 ≤ q'.length) (hn' : q'.Nodup)
    (e : turned q = turned q') : q = q' := by
  obtain ⟨a, b, m, z, rfl⟩ := three_shape h3
  obtain ⟨a', b', m', z', rfl⟩ := three_shape h3'
  rw [turned_eq hn, turned_eq hn'] at e
  simp only [List.cons.injEq] at e
  obtain ⟨rfl, rfl, rfl, rfl⟩ := e
  rfl

omit [DecidableEq α] in
/-- Moving a member one place to the right exchanges neighbours. -/
theorem movement_neighbours {pre l : List α} {a b : α} :
    movement pre.length (pre.length + 1) (pre ++ a :: b :: l) = pre ++ b :: a :: l := by
  unfold movement
  rw [List.getElem?_append_right le_rfl, Nat.sub_self]
  simp only [List.getElem?_cons_zero]
  induction pre with
  | nil => rfl
  | cons x pre ih =>
    simp only [List.cons_append, List.length_cons, List.eraseIdx_cons_succ, List.insertIdx_succ_cons]
    rw [ih]

omit [DecidableEq α] in
theorem split_at {q : List α} {i : Nat} (h : i + 1 < q.length) : ∃ pre a b l, q = pre ++ a :: b :: l ∧ pre.length = i := by
  refine ⟨q.take i, q[i], q[i + 1], q.drop (i + 2), ?_, by simp; omega⟩
  rw [← List.drop_eq_getElem_cons h, ← List.drop_eq_getElem_cons (by omega : i < q.length), List.take_append_drop]

omit [DecidableEq α] in
theorem movement_perm_next {q : List α} {i : Nat} (h : i + 1 < q.length) : (movement i (i + 1) q).Perm q := by
  obtain ⟨pre, a, b, l, rfl, rfl⟩ := split_at h
  rw [movement_neighbours]
  exact List.Perm.append_left pre (List.Perm.swap a b l)

omit [DecidableEq α] in
theorem movement_twice {q : List α} {i : Nat} (h : i + 1 < q.length) : movement i (i + 1) (movement i (i + 1) q) = q := by
  obtain ⟨pre, a, b, l, rfl, rfl⟩ := split_at h
  rw [movement_neighbours, movement_neighbours]

/-- What can become of a tour in one generation of clones. -/
inductive TourStep (q : List α) : List α → Prop
  | spared : TourStep q (turned q)
  | moved {i : Nat} (h : i + 1 < q.length) : TourStep q (movement i (i + 1) (turned q))

/-- A walk of `n` steps. -/
inductive Walk : Nat → List α → List α → Prop
  | here (q : List α) : Walk 0 q q
  | step {n : Nat} {q r x : List α} (h : TourStep q r) (w : Walk n r x) : Walk (n + 1) q x

theorem Walk.trans {n m : Nat} {q r x : List α} (h1 : Walk n q r) (h2 : Walk m r x) : Walk (n + m) q x := by
  induction h1 with
  | here _ => rwa [Nat.zero_add]
  | @step n q r' x' h w ih =>
    rw [show n + 1 + m = n + m + 1 by omega]
    exact .step h (ih h2)

theorem Walk.iterate {f : List α → List α} (P : List α → Prop) (hf : ∀ q, P q → P (f q) ∧ TourStep q (f q)) : ∀ (n : Nat) {q : List α}, P q → Walk n q (f^[n] q) := by
  intro n
  induction n with
  | zero => intro q _; exact .here q
  | succ n ih =>
    intro q hq
    obtain ⟨h1, h2⟩ := hf q hq
    rw [Function.iterate_succ_apply]
    exact .step h2 (ih h1)

/-- The arrangements of a tour. -/
def Arr (base q : List α) : Prop := q.Perm base

omit [DecidableEq α] in
theorem arr_finite (base : List α) : Finite {q : List α // Arr base q} := by
  refine Set.Finite.to_subtype (Set.Finite.subset (List.finite_toSet base.permutations) ?_)
  intro q hq
  exact List.mem_permutations.mpr hq

/-- An injective operation on arrangements that is a step leads back. -/
theorem walk_back {base : List α} {f : List α → List α} (hf : ∀ q, Arr base q → Arr base (f q) ∧ TourStep q (f q))
    (hinj : ∀ q q', Arr base q → Arr base q' → f q = f q' → q = q') {q : List α} (hq : Arr base q) :
    ∃ n, f^[n] (f q) = q ∧ Walk n (f q) q := by
  have := arr_finite base
  let F : {q : List α // Arr base q} → {q : List α // Arr base q} := fun q => ⟨f q.1, (hf q.1 q.2).1⟩
  have hF : Function.Injective F := by
    intro a b e
    exact Subtype.ext (hinj _ _ a.2 b.2 (congrArg Subtype.val e))
  obtain ⟨n, hn, hp⟩ := hF.mem_periodicPts ⟨q, hq⟩
  have hit : ∀ (k : Nat) (x : {q : List α // Arr base q}), (F^[k] x).1 = f^[k] x.1 := by
    intro k
    induction k with
    | zero => intro x; rfl
    | succ k ih => intro x; rw [Function.iterate_succ_apply, Function.iterate_succ_apply, ih]
  obtain ⟨m, rfl⟩ : ∃ m, n = m + 1 := ⟨n - 1, by omega⟩
  have e : f^[m] (f q) = q := by
    have := congrArg Subtype.val (show F^[m + 1] ⟨q, hq⟩ = ⟨q, hq⟩ from hp)
    rw [hit] at this
    exact this
  refine ⟨m, e, ?_⟩
  have w := Walk.iterate (Arr base) hf m (hf q hq).1
  rwa [e] at w

/-- Neighbours can be exchanged. -/
theorem walk_swap {base : List α} (h3 : 3 ≤ base.length) (hn : base.Nodup) {pre l : List α} {a b : α}
    (hq : Arr base (pre ++ a :: b :: l)) : ∃ n, Walk n (pre ++ a :: b :: l) (pre ++ b :: a :: l) := by
  have ht : ∀ q, Arr base q → Arr base (turned q) ∧ TourStep q (turned q) := fun q hq =>
    ⟨(turned_perm (by rw [hq.length_eq]; exact h3) (hq.nodup_iff.mpr hn)).trans hq, .spared⟩
  have hlen : ∀ q, Arr base q → 3 ≤ q.length := fun q hq => by rw [hq.length_eq]; exact h3
  have hnd : ∀ q, Arr base q → q.Nodup := fun q hq => hq.nodup_iff.mpr hn
  obtain ⟨n, e, _⟩ := walk_back ht (fun q q' h1 h2 e => turned_inj (hlen q h1) (hnd q h1) (hlen q' h2) (hnd q' h2) e) hq
  -- a predecessor under `turned`
  set q := pre ++ a :: b :: l with hqd
  obtain ⟨p, hp, hpt, wp⟩ : ∃ p, Arr base p ∧ turned p = q ∧ ∃ m, Walk m q p := by
    cases n with
    | zero =>
      have e : turned q = q := e
      exact ⟨q, hq, e, 0, .here q⟩
    | succ n =>
      have hk : ∀ k, Arr base (turned^[k] q) := by
        intro k
        induction k with
        | zero => exact hq
        | succ k ih => rw [Function.iterate_succ_apply']; exact (ht _ ih).1
      refine ⟨turned^[n] (turned q), ?_, ?_, ⟨n + 1, ?_⟩⟩
      · rw [← Function.iterate_succ_apply]; exact hk _
      · exact (Function.iterate_succ_apply' turned n (turned q)).symm.trans e
      · rw [← Function.iterate_succ_apply]
        exact Walk.iterate (Arr base) ht (n + 1) hq
  obtain ⟨m, wp⟩ := wp
  have hl : pre.length + 1 < p.length := by
    rw [hp.length_eq, ← hq.length_eq, hqd]
    simp
  have hst : TourStep p (pre ++ b :: a :: l) := by
    have := TourStep.moved (q := p) hl
    rw [hpt, hqd, movement_neighbours] at this
    exact this
  exact ⟨m + 1, wp.trans (.step hst (.here _))⟩

/-- Every arrangement can be reached. -/
theorem walk_all {base : List α} (h3 : 3 ≤ base.length) (hn : base.Nodup) {q x : List α} (hq : Arr base q) (hx : Arr base x) :
    ∃ n, Walk n q x := by
  have key : ∀ {q x : List α}, q.Perm x → ∀ pre, Arr base (pre ++ q) → ∃ n, Walk n (pre ++ q) (pre ++ x) := by
    intro q x h
    induction h with
    | nil => intro pre _; exact ⟨0, .here _⟩
    | @cons a l l' _ ih =>
      intro pre hp
      obtain ⟨n, w⟩ := ih (pre ++ [a]) (by simpa using hp)
      exact ⟨n, by simpa using w⟩
    | swap a b l =>
      intro pre hp
      exact walk_swap h3 hn hp
    | @trans l1 l2 l3 p1 _ ih1 ih2 =>
      intro pre hp
      obtain ⟨n, w1⟩ := ih1 pre hp
      obtain ⟨m, w2⟩ := ih2 pre (((List.Perm.append_left pre p1).symm).trans hp)
      exact ⟨n + m, w1.trans w2⟩
  exact key (hq.trans hx.symm) [] hq

/-- A bound for the length of the walks. -/
theorem walk_bound {base : List α} (h3 : 3 ≤ base.length) (hn : base.Nodup) :
    ∃ D, ∀ q x, Arr base q → Arr base x → ∃ n ≤ D, Walk n q x := by
  have h1 : ∀ x, Arr base x → ∀ l : List (List α), ∃ D, ∀ q ∈ l, Arr base q → ∃ n ≤ D, Walk n q x := by
    intro x hx l
    induction l with
    | nil => exact ⟨0, by simp⟩
    | cons y l ih =>
      obtain ⟨D, hD⟩ := ih
      by_cases hy : Arr base y
      · obtain ⟨n, w⟩ := walk_all h3 hn hy hx
        refine ⟨max D n, fun q hq ha => ?_⟩
        rcases List.mem_cons.mp hq with rfl | hq
        · exact ⟨n, le_max_right _ _, w⟩
        · obtain ⟨k, hk, w⟩ := hD q hq ha
          exact ⟨k, hk.trans (le_max_left _ _), w⟩
      · refine ⟨D, fun q hq ha => ?_⟩
        rcases List.mem_cons.mp hq with rfl | hq
        · exact absurd ha hy
        · exact hD q hq ha
  have h2 : ∀ l : List (List α), ∃ D, ∀ x ∈ l, Arr base x → ∀ q, Arr base q → ∃ n ≤ D, Walk n q x := by
    intro l
    induction l with
    | nil => exact ⟨0, by simp⟩
    | cons y l ih =>
      obtain ⟨D, hD⟩ := ih
      by_cases hy : Arr base y
      · obtain ⟨E, hE⟩ := h1 y hy base.permutations
        refine ⟨max D E, fun x hx ha q hq => ?_⟩
        rcases List.mem_cons.mp hx with rfl | hx
        · obtain ⟨k, hk, w⟩ := hE q (List.mem_permutations.mpr hq) hq
          exact ⟨k, hk.trans (le_max_right _ _), w⟩
        · obtain ⟨k, hk, w⟩ := hD x hx ha q hq
          exact ⟨k, hk.trans (le_max_left _ _), w⟩
      · refine ⟨D, fun x hx ha => ?_⟩
        rcases List.mem_cons.mp hx with rfl | hx
        · exact absurd ha hy
        · exact hD x hx ha
  obtain ⟨D, hD⟩ := h2 base.permutations
  exact ⟨D, fun q x hq hx => hD x (List.mem_permutations.mpr hx) hx q hq⟩

end BaumEva
