import Verif.Props.Reach
import Verif.Props.Mutation
import Mathlib.Logic.Relation
/-!
# Property C68: no part of the search space is cut off from mutation
-/
namespace BaumEva
open Spec
variable {σ α : Type}

/-! ## Drawing -/

theorem Gives.pure (a : α) : Gives (σ := σ) (Pure.pure a) [] a := fun _ _ => rfl

theorem Gives.bind {β : Type} {m : M σ α} {f : α → M σ β} {t1 t2 : List Nat} {a : α} {b : β} (h1 : Gives m t1 a)
    (h2 : Gives (f a) t2 b) : Gives (m >>= f) (t1 ++ t2) b := by
  intro s u
  rw [List.append_assoc, bind_of_ok (h1 s (t2 ++ u))]
  exact h2 s u

theorem Gives.randint {a b v : Int} (h1 : a ≤ v) (h2 : v ≤ b) :
    Gives (σ := σ) (BaumEva.randint a b) [(v - a).toNat] v := by
  intro s u
  rw [List.singleton_append, randint_cons (by omega), Int.toNat_of_nonneg (by omega),
    Int.emod_eq_of_lt (by omega) (by omega), add_sub_cancel]

theorem Gives.choice {l : List α} {v : α} (h : v ∈ l) : ∃ x, Gives (σ := σ) (BaumEva.choice l) [x] v := by
  obtain ⟨i, hi, rfl⟩ := List.getElem_of_mem h
  refine ⟨i, fun s u => ?_⟩
  rw [List.singleton_append, choice_cons (List.ne_nil_of_mem h)]
  simp only [Nat.mod_eq_of_lt hi]

theorem Gives.sample [Inhabited α] {l ys : List α} {k : Int} (hl : l.Nodup) (hy : ys.Nodup) (hsub : ∀ y ∈ ys, y ∈ l)
    (hk : k = ys.length) : ∃ t, Gives (σ := σ) (BaumEva.sample l k) t ys := by
  have hle : ys.length ≤ l.length := (List.subperm_of_subset hy hsub).length_le
  obtain ⟨t, ⟨t1, t2⟩, _⟩ := pick_unique hl hy hsub
  refine ⟨t, ?_⟩
  unfold BaumEva.sample
  rw [if_neg (by omega)]
  subst hk
  exact ((sampleAux_det hle).gives (by rw [← t1.length_eq, countdown_length])).mpr t2

theorem Gives.pair {n i j : Nat} (hi : i < n) (hj : j < n) (hne : i ≠ j) :
    ∃ t, Gives (σ := σ) (BaumEva.sample (List.range n) 2) t [i, j] :=
  Gives.sample List.nodup_range (by simp [hne]) (by simp [hi, hj]) rfl

theorem Gives.triggered {q : ℚ} (h : 0 ≤ q) : Gives (σ := σ) (determinesMutation (.float q)) [0] true := by
  intro s u
  unfold determinesMutation
  have hr : BaumEva.randint 0 ((rndSamples : Int) - 1) { s with tape := [0] ++ u } = (.ok 0, { s with tape := u }) :=
    Gives.randint (a := 0) (b := (rndSamples : Int) - 1) (v := 0) (by decide) (by decide) s u
  rw [bind_of_ok hr]
  have : ((0 : Int) : ℚ) ≤ q * rndSamples := by
    simp only [Int.cast_zero]
    exact mul_nonneg h (by norm_num)
  simp only [this, decide_true]
  rfl

theorem Gives.spared {q : ℚ} (h : q < 999 / 1000) : Gives (σ := σ) (determinesMutation (.float q)) [999] false := by
  intro s u
  unfold determinesMutation
  have hr : BaumEva.randint 0 ((rndSamples : Int) - 1) { s with tape := [999] ++ u } = (.ok 999, { s with tape := u }) :=
    Gives.randint (a := 0) (b := (rndSamples : Int) - 1) (v := 999) (by decide) (by decide) s u
  rw [bind_of_ok hr]
  have : ¬ ((999 : Int) : ℚ) ≤ q * rndSamples := by
    unfold rndSamples
    push_cast
    linarith
  simp only [this, decide_false]
  rfl

/-! ## Bit strings -/

/-- C68, bit mutation: at every level from 0 to below 0.999 one mutation can turn any bit string into any other bit
string of the same length. -/
theorem C68_bits {q : ℚ} (h0 : 0 ≤ q) (h1 : q < 999 / 1000) : ∀ {g g' : List Val}, IsBits g → IsBits g' →
    g.length = g'.length → ∃ t, Gives (σ := σ) (mutateBits (.float q) g) t g' := by
  intro g
  induction g with
  | nil =>
    intro g' _ _ hl
    obtain rfl := List.length_eq_zero_iff.mp hl.symm
    exact ⟨[], Gives.pure []⟩
  | cons x xs ih =>
    intro g' hb hb' hl
    cases g' with
    | nil => simp at hl
    | cons y ys =>
      obtain ⟨t, ht⟩ := ih (fun z hz => hb z (List.mem_cons_of_mem _ hz)) (fun z hz => hb' z (List.mem_cons_of_mem _ hz))
        (by simpa using hl)
      have hx := hb x (List.mem_cons_self ..)
      have hy := hb' y (List.mem_cons_self ..)
      by_cases hxy : x = y
      · subst hxy
        exact ⟨_, Gives.bind (Gives.spared h1) (Gives.bind ht (Gives.pure _))⟩
      · refine ⟨_, Gives.bind (Gives.triggered h0) (Gives.bind ht (t2 := []) ?_)⟩
        · have : (if x = bit0 then bit1 else bit0) = y := by
            rcases hx with rfl | rfl <;> rcases hy with rfl | rfl
            · exact absurd rfl hxy
            · rfl
            · rfl
            · exact absurd rfl hxy
          simp only [if_true, this]
          exact Gives.pure _

/-! ## Categorical -/

theorem mem_range_pool {lo hi step : Int} {v : Val} (h : InPool (.range lo hi step) v) :
    step ≠ 0 ∧ v ∈ (pyRange lo (hi + 1) step).map fun i : Int => Val.num (i : ℚ) := by
  obtain ⟨i, rfl, hi'⟩ := h
  have h0 : step ≠ 0 := by rcases hi' with ⟨h, _⟩ | ⟨h, _⟩ <;> omega
  refine ⟨h0, ?_⟩
  have hlt : (i : Int) < rangeLen lo (hi + 1) step := by
    rw [rangeLen_pos_spec h0]
    rcases hi' with ⟨a, b⟩ | ⟨a, b⟩
    · left; exact ⟨a, by omega⟩
    · right; exact ⟨a, by omega⟩
  refine List.mem_map.mpr ⟨lo + step * (i : Int), ?_, rfl⟩
  unfold pyRange
  exact List.mem_map.mpr ⟨i, List.mem_range.mpr (by omega), rfl⟩

theorem one_lt_of_two {β : Type} {l : List β} {x y : β} (hx : x ∈ l) (hy : y ∈ l) (h : x ≠ y) : 1 < l.length := by
  match l, hx, hy with
  | [], hx, _ => simp at hx
  | [z], hx, hy =>
    simp only [List.mem_singleton] at hx hy
    exact absurd (hx.trans hy.symm) h
  | _ :: _ :: _, _, _ => simp

theorem mutateCatGene_gives {p : CatGene} {x y : Val} (hx : InPool p x) (hy : InPool p y) (hne : x ≠ y) :
    ∃ t, Gives (σ := σ) (mutateCatGene p x) t y := by
  cases p with
  | other => exact hx.elim
  | values l =>
    obtain ⟨d, hd⟩ := Gives.choice (σ := σ) (l := l.filter fun y => y ≠ x) (v := y) (by
      rw [List.mem_filter]; exact ⟨hy, by simpa using Ne.symm hne⟩)
    refine ⟨[d], ?_⟩
    rw [mutateCatGene, if_pos (one_lt_of_two hx hy hne)]
    exact hd
  | range lo hi step =>
    obtain ⟨h0, hx'⟩ := mem_range_pool hx
    obtain ⟨_, hy'⟩ := mem_range_pool hy
    obtain ⟨d, hd⟩ := Gives.choice (σ := σ)
      (l := ((pyRange lo (hi + 1) step).map fun i : Int => Val.num (i : ℚ)).filter fun y => y ≠ x) (v := y) (by
        rw [List.mem_filter]; exact ⟨hy', by simpa using Ne.symm hne⟩)
    refine ⟨[d], ?_⟩
    rw [mutateCatGene, if_neg h0]
    simp only
    rw [if_pos (one_lt_of_two hx' hy' hne)]
    exact hd

/-- C68, categorical mutation: at every level from 0 to below 0.999 one mutation can turn any tuple into any other
tuple of the same pools. -/
theorem C68_categorical {q : ℚ} (h0 : 0 ≤ q) (h1 : q < 999 / 1000) : ∀ {gens : List CatGene} {g g' : List Val},
    IsTuple gens g → IsTuple gens g' → ∃ t, Gives (σ := σ) (mutateCat (.float q) gens g) t g' := by
  intro gens
  induction gens with
  | nil =>
    intro g g' hg hg'
    cases hg; cases hg'
    exact ⟨[], Gives.pure []⟩
  | cons p gens ih =>
    intro g g' hg hg'
    cases hg with
    | cons a1 a2 =>
      cases hg' with
      | cons b1 b2 =>
        rename_i x xs y ys
        obtain ⟨t, ht⟩ := ih a2 b2
        by_cases hxy : x = y
        · subst hxy
          have : Gives (σ := σ) (mutateCatAt (.float q) (p :: gens) x) ([999] ++ []) x :=
            Gives.bind (Gives.spared h1) (Gives.pure x)
          exact ⟨_, Gives.bind this (Gives.bind ht (Gives.pure _))⟩
        · obtain ⟨d, hd⟩ := mutateCatGene_gives (σ := σ) a1 b1 hxy
          have : Gives (σ := σ) (mutateCatAt (.float q) (p :: gens) x) ([0] ++ d) y :=
            Gives.bind (Gives.triggered h0) hd
          exact ⟨_, Gives.bind this (Gives.bind ht (Gives.pure _))⟩

/-! ## Rearrangements -/

/-- C68: swap mutation can exchange any two positions. -/
theorem C68_swap_any {g : List Val} {i j : Nat} (hi : i < g.length) (hj : j < g.length) (hne : i ≠ j) :
    ∃ t, Gives (σ := σ) (mutateComb .swap g) t (swapGenes i j g) := by
  obtain ⟨t, ht⟩ := Gives.pair (σ := σ) hi hj hne
  exact ⟨_, Gives.bind ht (Gives.pure _)⟩

/-- C68: movement mutation can move any gene to any other position. -/
theorem C68_movement_any {g : List Val} {i j : Nat} (hi : i < g.length) (hj : j < g.length) (hne : i ≠ j) :
    ∃ t, Gives (σ := σ) (mutateComb .movement g) t (movement i j g) := by
  obtain ⟨t, ht⟩ := Gives.pair (σ := σ) hi hj hne
  exact ⟨_, Gives.bind ht (Gives.pure _)⟩

/-- C68: inversion mutation can reverse any segment of at least two genes. -/
theorem C68_inversion_any {g : List Val} {i j : Nat} (hij : i < j) (hj : j < g.length) :
    ∃ t, Gives (σ := σ) (mutateComb .inversion g) t (inversion i j g) := by
  obtain ⟨t, ht⟩ := Gives.pair (σ := σ) (n := g.length) (i := i) (j := j) (by omega) hj (by omega)
  have h1 : Gives (σ := σ) (segmentPoints 0 g.length) (t ++ []) (min i j, max i j) := by
    unfold segmentPoints
    rw [List.drop_zero]
    exact Gives.bind ht (Gives.pure _)
  rw [min_eq_left hij.le, max_eq_right hij.le] at h1
  exact ⟨_, Gives.bind h1 (Gives.pure _)⟩

/-- C68: shift mutation can move any chain of `1 .. length - 2` genes to any other place. -/
theorem C68_shift_any {g : List Val} {b c i : Nat} (hc : 1 ≤ c) (hc2 : c + 2 ≤ g.length) (hb : b + c ≤ g.length)
    (hi : i + c ≤ g.length) (hne : i ≠ b) :
    ∃ t, Gives (σ := σ) (mutateComb .shift g) t (shiftGenes b (b + c) i g) := by
  obtain ⟨x, hx⟩ := Gives.choice (σ := σ) (l := (List.range (g.length - (c : Int).toNat + 1)).filter fun x => x ≠ (b : Int).toNat)
    (v := i) (by
      rw [List.mem_filter, List.mem_range]
      exact ⟨by omega, by simpa using hne⟩)
  have h := Gives.bind (Gives.randint (σ := σ) (a := 1) (b := (g.length : Int) - 2) (v := c) (by omega) (by omega))
    (f := fun chain => do
      let s ← randint 0 ((g.length : Int) - chain)
      let e := s + chain
      let i ← choice ((List.range (g.length - chain.toNat + 1)).filter fun x => x ≠ s.toNat)
      pure (shiftGenes s.toNat e.toNat i g))
    (Gives.bind (Gives.randint (σ := σ) (a := 0) (b := (g.length : Int) - c) (v := b) (by omega) (by omega))
      (Gives.bind hx (Gives.pure _)))
  rw [show (b : Int).toNat = b by omega, show ((b : Int) + (c : Int)).toNat = b + c by omega] at h
  exact ⟨_, h⟩

/-- Exchange of two neighbours. -/
def Neighbours (g g' : List Val) : Prop := ∃ p x y r, g = p ++ x :: y :: r ∧ g' = p ++ y :: x :: r

theorem perm_neighbours {g g' : List Val} (h : g.Perm g') : Relation.ReflTransGen Neighbours g g' := by
  induction h with
  | nil => exact .refl
  | cons x _ ih =>
    have lift : ∀ {a b : List Val}, Relation.ReflTransGen Neighbours a b → Relation.ReflTransGen Neighbours (x :: a) (x :: b) := by
      intro a b h
      induction h with
      | refl => exact .refl
      | tail _ h2 ih =>
        refine ih.tail ?_
        obtain ⟨p, u, v, r, rfl, rfl⟩ := h2
        exact ⟨x :: p, u, v, r, rfl, rfl⟩
    exact lift ih
  | swap x y l => exact .single ⟨[], y, x, l, rfl, rfl⟩
  | trans _ _ h1 h2 => exact h1.trans h2

theorem neighbours_swap {p r : List Val} {x y : Val} :
    swapGenes p.length (p.length + 1) (p ++ x :: y :: r) = p ++ y :: x :: r := by
  unfold swapGenes
  simp

theorem neighbours_inversion {p r : List Val} {x y : Val} :
    inversion p.length (p.length + 1) (p ++ x :: y :: r) = p ++ y :: x :: r := by
  unfold inversion slice
  have h1 : p.drop (p.length + 1 + 1) = [] := List.drop_eq_nil_of_le (by omega)
  rw [show p.length + 1 + 1 - p.length = 2 by omega, List.drop_append, List.drop_append, h1,
    show p.length + 1 + 1 - p.length = 2 by omega]
  simp

theorem insertIdx_right {p l : List Val} {k : Nat} {x : Val} :
    (p ++ l).insertIdx (p.length + k) x = p ++ l.insertIdx k x := by
  induction p with
  | nil => simp
  | cons a p ih =>
    rw [List.cons_append, List.length_cons, Nat.add_right_comm, List.insertIdx_succ_cons, ih, List.cons_append]

theorem neighbours_movement {p r : List Val} {x y : Val} :
    movement p.length (p.length + 1) (p ++ x :: y :: r) = p ++ y :: x :: r := by
  unfold movement
  simp only [List.getElem?_append_right (le_refl p.length), Nat.sub_self, List.getElem?_cons_zero]
  rw [List.eraseIdx_append_of_length_le (le_refl _), Nat.sub_self, List.eraseIdx_cons_zero, insertIdx_right]
  simp

theorem neighbours_shift {p r : List Val} {x y : Val} :
    shiftGenes p.length (p.length + 1) (p.length + 1) (p ++ x :: y :: r) = p ++ y :: x :: r := by
  unfold shiftGenes slice
  have h1 : (p ++ x :: y :: r).drop (p.length + 1) = y :: r := by
    rw [List.drop_append, List.drop_eq_nil_of_le (by omega), Nat.add_sub_cancel_left]; rfl
  have h2 : (p ++ y :: r).take (p.length + 1) = p ++ [y] := by
    rw [List.take_append, List.take_of_length_le (by omega), Nat.add_sub_cancel_left]; rfl
  have h3 : (p ++ y :: r).drop (p.length + 1) = r := by
    rw [List.drop_append, List.drop_eq_nil_of_le (by omega), Nat.add_sub_cancel_left]; rfl
  have h4 : (p ++ x :: y :: r).take p.length = p := List.take_left
  simp only [h1, h4, h2, h3]
  simp

/-- One mutation of class `op` can turn `g` into `g'`. -/
def CanMutate (σ : Type) (op : MutOp) (g g' : List Val) : Prop := ∃ t, Gives (σ := σ) (mutateComb op g) t g'

theorem neighbours_canMutate {op : MutOp} (hop : Combinatorial op) {g g' : List Val} (h3 : op = .shift → 3 ≤ g.length)
    (h : Neighbours g g') : CanMutate σ op g g' := by
  obtain ⟨p, x, y, r, rfl, rfl⟩ := h
  have hl : p.length + 1 < (p ++ x :: y :: r).length := by simp
  unfold CanMutate
  rcases hop with rfl | rfl | rfl | rfl
  · have h := C68_inversion_any (σ := σ) (Nat.lt_succ_self _) hl
    rwa [neighbours_inversion] at h
  · have h := C68_movement_any (σ := σ) (Nat.lt_of_succ_lt hl) hl (Nat.succ_ne_self _).symm
    rwa [neighbours_movement] at h
  · have h := C68_shift_any (σ := σ) (c := 1) le_rfl (h3 rfl) hl.le hl (Nat.succ_ne_self _)
    rwa [neighbours_shift] at h
  · have h := C68_swap_any (σ := σ) (Nat.lt_of_succ_lt hl) hl (Nat.succ_ne_self _).symm
    rwa [neighbours_swap] at h

/-- C68, combinatorial mutations: by repeated mutation of any one class every rearrangement of a genotype can be
reached, and nothing else (`ShiftMutation` needs three genes). -/
theorem C68_rearrangements {op : MutOp} (hop : Combinatorial op) {g g' : List Val} (h3 : op = .shift → 3 ≤ g.length) :
    Relation.ReflTransGen (CanMutate σ op) g g' ↔ g.Perm g' := by
  constructor
  · intro h
    induction h with
    | refl => exact List.Perm.refl _
    | tail _ h2 ih =>
      obtain ⟨t, ht⟩ := h2
      have := ht {} []
      exact ih.trans (C21_permutes this).symm
  · intro h
    have hn := perm_neighbours h
    clear h
    induction hn with
    | refl => exact .refl
    | tail h1 h2 ih =>
      refine ih.tail (neighbours_canMutate hop ?_ h2)
      intro he
      have hperm : ∀ {a b : List Val}, Relation.ReflTransGen Neighbours a b → a.length = b.length := by
        intro a b h
        induction h with
        | refl => rfl
        | tail _ h2 ih =>
          obtain ⟨p, x, y, r, rfl, rfl⟩ := h2
          simpa using ih
      rw [← hperm h1]
      exact h3 he

/-! ## Crossovers -/

/-- C68: one-point crossover can cut between any two genes. -/
theorem C68_onepoint_any {len c : Nat} (p1 p2 : List Val) (h1 : 1 ≤ c) (h2 : c < len) :
    ∃ t, Gives (σ := σ) (crossGeno .onePoint len p1 p2) t (p1.take c ++ p2.drop c, p2.take c ++ p1.drop c) := by
  have h := Gives.bind (Gives.randint (σ := σ) (a := 1) (b := (len : Int) - 1) (v := c) (by omega) (by omega))
    (f := fun c : Int => (Pure.pure (onePoint c.toNat p1 p2) : M σ (List Val × List Val)))
    (Gives.pure (onePoint (c : Int).toNat p1 p2))
  rw [Int.toNat_natCast] at h
  exact ⟨_, h⟩

theorem segmentPoints_gives {len c d : Nat} (h1 : 1 ≤ c) (h2 : c < d) (h3 : d < len) :
    ∃ t, Gives (σ := σ) (segmentPoints 1 len) t (c, d) := by
  obtain ⟨t, ht⟩ := Gives.sample (σ := σ) (l := (List.range len).drop 1) (ys := [c, d]) (k := 2)
    (List.nodup_range.sublist (List.drop_sublist ..)) (by simp; omega) (by
      intro y hy
      rw [List.mem_drop_iff_getElem]
      simp only [List.mem_cons, List.not_mem_nil, or_false] at hy
      refine ⟨y - 1, by rw [List.length_range]; omega, ?_⟩
      rw [List.getElem_range]; omega) rfl
  have h : Gives (σ := σ) (segmentPoints 1 len) (t ++ []) (min c d, max c d) := Gives.bind ht (Gives.pure _)
  rw [min_eq_left h2.le, max_eq_right h2.le] at h
  exact ⟨_, h⟩

/-- C68: two-point crossover can exchange any inner segment. -/
theorem C68_twopoint_any {len c d : Nat} (p1 p2 : List Val) (h1 : 1 ≤ c) (h2 : c < d) (h3 : d < len) :
    ∃ t, Gives (σ := σ) (crossGeno .twoPoint len p1 p2) t
      (p1.take c ++ (p2.drop c).take (d - c) ++ p1.drop d, p2.take c ++ (p1.drop c).take (d - c) ++ p2.drop d) := by
  obtain ⟨t, ht⟩ := segmentPoints_gives (σ := σ) h1 h2 h3
  exact ⟨_, Gives.bind ht (Gives.pure _)⟩

/-- C68: order crossover can keep any inner segment: each child has the segment of its own parent. -/
theorem C68_order_any {len c d : Nat} (p1 p2 : List Val) (h1 : 1 ≤ c) (h2 : c < d) (h3 : d < len) :
    ∃ t, Gives (σ := σ) (crossGeno .order len p1 p2) t (orderCross len c d p1 p2) := by
  obtain ⟨t, ht⟩ := segmentPoints_gives (σ := σ) h1 h2 h3
  exact ⟨_, Gives.bind ht (Gives.pure _)⟩

theorem uniformLoop_gives {p1 p2 : List Val} : ∀ {child : List Val} {i : Nat},
    (∀ (j : Nat) (x : Val), child[j]? = some x → p1[i + j]? = some x ∨ p2[i + j]? = some x) →
    ∃ t, Gives (σ := σ) (uniformLoop p1 p2 i child.length) t child := by
  intro child
  induction child with
  | nil => intro i _; exact ⟨[], Gives.pure []⟩
  | cons x xs ih =>
    intro i h
    obtain ⟨t, ht⟩ := ih (i := i + 1) (by
      intro j y hy
      rw [Nat.add_assoc, Nat.add_comm 1 j]
      exact h (j + 1) y (by simpa using hy))
    have h0 := h 0 x rfl
    rw [Nat.add_zero] at h0
    rw [List.length_cons, uniformLoop]
    rcases h0 with h0 | h0
    · refine ⟨_, Gives.bind (Gives.randint (a := 1) (b := 2) (v := 1) (by decide) (by decide)) (t2 := t ++ []) ?_⟩
      simp only [if_true, h0]
      exact Gives.bind ht (Gives.pure _)
    · refine ⟨_, Gives.bind (Gives.randint (a := 1) (b := 2) (v := 2) (by decide) (by decide)) (t2 := t ++ []) ?_⟩
      simp only [show ¬ (2 : Int) = 1 by decide, if_false, h0]
      exact Gives.bind ht (Gives.pure _)

/-- C68: uniform crossover can produce every child all of whose genes come from a parent at the same locus. -/
theorem C68_uniform_any {p1 p2 child : List Val} (hc : ∀ (i : Nat) (x : Val), child[i]? = some x → p1[i]? = some x ∨ p2[i]? = some x) :
    ∃ t, Gives (σ := σ) (crossGeno .uniform child.length p1 p2) t (child, child) := by
  obtain ⟨t, ht⟩ := uniformLoop_gives (σ := σ) (i := 0) (p1 := p1) (p2 := p2) (child := child) (by simpa using hc)
  exact ⟨_, Gives.bind ht (Gives.pure _)⟩

/-- C68: either of the two children of a pair can be the one that is kept. -/
theorem C68_either_child {op : CrossOp} {len : Nat} {p1 p2 : List Val} {t : List Nat} {cs : List Val × List Val}
    (h : Gives (σ := σ) (crossGeno op len p1 p2) t cs) (first : Bool) :
    ∃ t', ∀ (s : St σ) (u : List Nat), ∃ s', getChild op len p1 p2 { s with tape := t' ++ u } = (.ok s.next, s') ∧
      s'.heap s.next = { genotype := some (if first then cs.1 else cs.2) } ∧ s'.tape = u := by
  refine ⟨t ++ [if first then 0 else 1], ?_⟩
  intro s u
  unfold getChild
  rw [List.append_assoc, bind_of_ok (h s _)]
  cases first with
  | true =>
    have hr : randint 1 2 { s with tape := [0] ++ u } = (.ok 1, { s with tape := u }) :=
      Gives.randint (a := 1) (b := 2) (v := 1) (by decide) (by decide) s u
    simp only [if_true]
    rw [bind_of_ok hr, alloc_run]
    exact ⟨_, rfl, by simp [upd], rfl⟩
  | false =>
    have hr : randint 1 2 { s with tape := [1] ++ u } = (.ok 2, { s with tape := u }) :=
      Gives.randint (a := 1) (b := 2) (v := 2) (by decide) (by decide) s u
    simp only [Bool.false_eq_true, if_false]
    rw [bind_of_ok hr, alloc_run]
    exact ⟨_, rfl, by simp [upd], rfl⟩

/-! ## Concrete cases -/

example : IsBits [.str "0", .str "1", .str "1"] ∧ IsBits [.str "1", .str "0", .str "1"] := by decide
example : IsTuple [.range 0 4 2, .values [.str "a", .str "b"]] [.num 4, .str "b"] := by
  refine .cons ⟨2, by norm_num, Or.inl ⟨by norm_num, by norm_num⟩⟩ (.cons ?_ .nil)
  simp [InPool]
example : ([.num 1, .num 2, .num 3] : List Val).Perm [.num 3, .num 1, .num 2] := by decide

end BaumEva
