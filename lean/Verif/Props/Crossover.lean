import Verif.Proofs.Crossover
/-!
# C14-C19: crossovers

Statements are position-wise (`child[i]?`), independent of the list surgery of the model.
-/
namespace BaumEva
variable {σ : Type}

/-! ## C14 one-point -/

/-- C14: some inner cut exists; before it child 1 is parent 1 and after it parent 2, child 2 vice versa. -/
theorem C14_one_point {p1 p2 : List Val} {L : Nat} (h1 : p1.length = L) (h2 : p2.length = L)
    {s s' : St σ} {cs : List Val × List Val} (h : crossGeno .onePoint L p1 p2 s = (.ok cs, s')) :
    ∃ c, 1 ≤ c ∧ c + 1 ≤ L ∧ cs.1.length = L ∧ cs.2.length = L ∧
      ∀ i : Nat, cs.1[i]? = (if i < c then p1[i]? else p2[i]?) ∧ cs.2[i]? = (if i < c then p2[i]? else p1[i]?) := by
  rw [crossGeno] at h
  obtain ⟨c, s1, e1, e2⟩ := bind_ok.mp h
  obtain ⟨rfl, _⟩ := pure_ok.mp e2
  obtain ⟨a, b, _⟩ := randint_ok e1
  refine ⟨c.toNat, by omega, by omega, ?_, ?_, ?_⟩
  · simp [onePoint, h1, h2]; omega
  · simp [onePoint, h1, h2]; omega
  · intro i
    have key : ∀ q1 q2 : List Val, q1.length = L → (q1.take c.toNat ++ q2.drop c.toNat)[i]? =
        if i < c.toNat then q1[i]? else q2[i]? := by
      intro q1 q2 hq
      split
      · rename_i hi
        rw [List.getElem?_append_left (by simp; omega), List.getElem?_take, if_pos hi]
      · rename_i hi
        rw [List.getElem?_append_right (by simp; omega), List.getElem?_drop]
        congr 1
        simp; omega
    exact ⟨key p1 p2 h1, key p2 p1 h2⟩

/-- C14: every inner cut is the outcome of some draw (the draw `c - 1`). -/
theorem C14_every_cut_possible {p1 p2 : List Val} {L c : Nat} (hc : 1 ≤ c) (hL : c + 1 ≤ L) (s : St σ) :
    ∃ s', crossGeno .onePoint L p1 p2 { s with tape := (c - 1) :: s.tape } =
      (.ok (p1.take c ++ p2.drop c, p2.take c ++ p1.drop c), s') := by
  rw [crossGeno]
  refine ⟨s, ?_⟩
  have : randint 1 ((L : Int) - 1) { s with tape := (c - 1) :: s.tape } = (.ok (c : Int), s) := by
    unfold randint
    rw [ite_run, if_neg (by omega)]
    rw [bind_of_ok (draw_ok.mpr ⟨s.tape, rfl, rfl⟩)]
    rw [pure_run]
    congr 2
    rw [Int.emod_eq_of_lt (by omega) (by omega)]
    omega
  rw [bind_of_ok this]
  rfl

/-- C14: genotypes with fewer than two genes are rejected with `ValueError`. -/
theorem C14_short_raises {p1 p2 : List Val} {L : Nat} (hL : L < 2) (s : St σ) :
    crossGeno .onePoint L p1 p2 s = (.error .valueError, s) := by
  rw [crossGeno]
  exact bind_of_err (randint_err (by omega) s)

/-! ## C15 two-point -/

theorem C15_two_point {p1 p2 : List Val} {L : Nat} (h1 : p1.length = L) (h2 : p2.length = L)
    {s s' : St σ} {cs : List Val × List Val} (h : crossGeno .twoPoint L p1 p2 s = (.ok cs, s')) :
    ∃ c d, 1 ≤ c ∧ c < d ∧ d + 1 ≤ L ∧ cs.1.length = L ∧ cs.2.length = L ∧
      ∀ i : Nat, cs.1[i]? = (if c ≤ i ∧ i < d then p2[i]? else p1[i]?) ∧
        cs.2[i]? = (if c ≤ i ∧ i < d then p1[i]? else p2[i]?) := by
  rw [crossGeno] at h
  obtain ⟨cd, s1, e1, e2⟩ := bind_ok.mp h
  obtain ⟨rfl, _⟩ := pure_ok.mp e2
  obtain ⟨a, b, e, _⟩ := segmentPoints_ok e1
  obtain ⟨c, d⟩ := cd
  simp only at a b e ⊢
  refine ⟨c, d, by omega, by omega, by omega, ?_, ?_, ?_⟩
  · simp [twoPoint, slice, h1, h2]; omega
  · simp [twoPoint, slice, h1, h2]; omega
  · intro i
    have key : ∀ q1 q2 : List Val, q1.length = L → q2.length = L →
        (q1.take c ++ slice q2 c d ++ q1.drop d)[i]? = if c ≤ i ∧ i < d then q2[i]? else q1[i]? := by
      intro q1 q2 hq hq2
      have hs : (slice q2 c d).length = d - c := slice_length (by omega)
      have ht : (q1.take c).length = c := by simp; omega
      by_cases hi : i < c
      · rw [if_neg (by omega), List.append_assoc, List.getElem?_append_left (by omega), List.getElem?_take,
          if_pos hi]
      · by_cases hj : i < d
        · rw [if_pos (by omega), List.append_assoc, List.getElem?_append_right (by omega),
            List.getElem?_append_left (by omega), slice_get (by omega)]
          congr 1; omega
        · rw [if_neg (by omega), List.getElem?_append_right (by simp [hs]; omega), List.getElem?_drop]
          congr 1
          simp [hs]; omega
    exact ⟨key p1 p2 h1 h2, key p2 p1 h2 h1⟩

theorem C15_short_raises {p1 p2 : List Val} {L : Nat} (hL : L < 3) (s : St σ) :
    crossGeno .twoPoint L p1 p2 s = (.error .valueError, s) := by
  rw [crossGeno]
  exact bind_of_err (segmentPoints_err (by omega) s)

/-! ## C16 uniform -/

/-- C16: both children are the same genotype, of the parents' length, gene by gene from a parent at the same
position. -/
theorem C16_uniform {p1 p2 : List Val} {L : Nat}
    {s s' : St σ} {cs : List Val × List Val} (h : crossGeno .uniform L p1 p2 s = (.ok cs, s')) :
    cs.1 = cs.2 ∧ cs.1.length = L ∧ ∀ i : Nat, i < L → (cs.1[i]? = p1[i]? ∨ cs.1[i]? = p2[i]?) := by
  rw [crossGeno] at h
  obtain ⟨g, s1, e1, e2⟩ := bind_ok.mp h
  obtain ⟨rfl, _⟩ := pure_ok.mp e2
  obtain ⟨_, hl, hg⟩ := uniformLoop_ok e1
  refine ⟨rfl, hl, ?_⟩
  intro i hi
  have hv : g[i]? = some g[i] := List.getElem?_eq_getElem (by omega)
  have := hg i _ hv
  rw [Nat.zero_add] at this
  rw [hv]
  rcases this with e | e
  · left; exact e.symm
  · right; exact e.symm

theorem uniformLoop_run {p1 p2 : List Val} : ∀ (L : Nat) (mask : List Bool) (i : Nat) (s : St σ),
    mask.length = L → i + L ≤ p1.length → i + L ≤ p2.length →
    uniformLoop p1 p2 i L { s with tape := mask.map (fun b => if b then 0 else 1) ++ s.tape } =
      (.ok ((List.range L).map fun j => if mask.getD j false then p1.getD (i + j) bit0 else p2.getD (i + j) bit0), s) := by
  intro L
  induction L with
  | zero =>
    intro mask i s hm _ _
    have : mask = [] := List.length_eq_zero_iff.mp hm
    subst this
    rfl
  | succ L ih =>
    intro mask i s hm h1 h2
    obtain ⟨b, mask, rfl⟩ := List.exists_cons_of_length_eq_add_one hm
    rw [uniformLoop]
    have hr : randint 1 2 { s with tape := (b :: mask).map (fun b => if b then 0 else 1) ++ s.tape } =
        (.ok (if b then 1 else 2), { s with tape := mask.map (fun b => if b then 0 else 1) ++ s.tape }) := by
      unfold randint
      rw [ite_run, if_neg (by decide)]
      rw [bind_of_ok (draw_ok.mpr ⟨mask.map (fun b => if b then 0 else 1) ++ s.tape, rfl, rfl⟩), pure_run]
      cases b <;> rfl
    rw [bind_of_ok hr]
    have g1 : p1[i]? = some (p1.getD i bit0) := by
      rw [List.getD_eq_getElem?_getD, List.getElem?_eq_getElem (by omega)]; rfl
    have g2 : p2[i]? = some (p2.getD i bit0) := by
      rw [List.getD_eq_getElem?_getD, List.getElem?_eq_getElem (by omega)]; rfl
    have hsrc : (if (if b = true then (1:Int) else 2) = 1 then p1 else p2)[i]? =
        some (if b = true then p1.getD i bit0 else p2.getD i bit0) := by
      cases b
      · simpa using g2
      · simpa using g1
    rw [hsrc]
    simp only
    rw [bind_of_ok (ih mask (i + 1) s (by simpa using hm) (by omega) (by omega)), pure_run]
    congr 2
    rw [List.range_succ_eq_map, List.map_cons, List.map_map]
    congr 1
    apply List.map_congr_left
    intro j _
    simp only [Function.comp, List.getD_cons_succ]
    rw [show i + 1 + j = i + (j + 1) by omega]

/-- C16: every mixture of the parents is the outcome of some draws. -/
theorem C16_every_mask_possible {p1 p2 : List Val} {L : Nat} (h1 : p1.length = L) (h2 : p2.length = L)
    (mask : List Bool) (hm : mask.length = L) (s : St σ) :
    ∃ (t : List Nat) (g : List Val) (s' : St σ), crossGeno .uniform L p1 p2 { s with tape := t } = (.ok (g, g), s') ∧
      ∀ (i : Nat) (b : Bool), mask[i]? = some b → g[i]? = if b then p1[i]? else p2[i]? := by
  refine ⟨mask.map (fun b => if b then 0 else 1) ++ s.tape,
    (List.range L).map fun j => if mask.getD j false then p1.getD (0 + j) bit0 else p2.getD (0 + j) bit0, s, ?_, ?_⟩
  · rw [crossGeno, bind_of_ok (uniformLoop_run L mask 0 s hm (by omega) (by omega)), pure_run]
  · intro i b hb
    have hi : i < L := by
      have := (List.getElem?_eq_some_iff.mp hb).1
      omega
    rw [List.getElem?_map, List.getElem?_range hi, Option.map_some, Nat.zero_add]
    have : mask.getD i false = b := by rw [List.getD_eq_getElem?_getD, hb]; rfl
    rw [this]
    cases b
    · simp only [Bool.false_eq_true, if_false]
      rw [List.getD_eq_getElem?_getD, List.getElem?_eq_getElem (by omega)]; rfl
    · simp only [if_true]
      rw [List.getD_eq_getElem?_getD, List.getElem?_eq_getElem (by omega)]; rfl

/-! ## C17 order crossover -/

/-- What the order crossover promises for one child: its own parent's genes stay at the positions `[c, d)`,
and read cyclically from `d` the other positions carry the other parent's remaining genes in that parent's
order. -/
structure OrderChildOf (L c d : Nat) (own other child : List Val) : Prop where
  length : child.length = L
  nodup : child.Nodup
  genes : ∀ x ∈ child, x ∈ own ∨ x ∈ other
  segment : ∀ i : Nat, c ≤ i → i < d → child[i]? = own[i]?
  rest : (child.drop d ++ child.take c).Sublist other
  first : ∀ k : Nat, k < L - (d - c) → (child.drop d ++ child.take c)[k]? =
    (other.filter fun x => ∀ i : Nat, c ≤ i → i < d → own[i]? ≠ some x)[k]?

theorem mem_slice_iff {α : Type} {l : List α} {c d : Nat} {x : α} :
    x ∈ slice l c d ↔ ∃ i : Nat, c ≤ i ∧ i < d ∧ l[i]? = some x := by
  constructor
  · intro h
    obtain ⟨k, hk⟩ := List.mem_iff_getElem?.mp h
    have hkd : k < d - c := by
      have h1 := (List.getElem?_eq_some_iff.mp hk).1
      unfold slice at h1
      simp at h1; omega
    rw [slice_get hkd] at hk
    exact ⟨c + k, by omega, by omega, hk⟩
  · rintro ⟨i, h1, h2, h3⟩
    apply List.mem_iff_getElem?.mpr
    refine ⟨i - c, ?_⟩
    rw [slice_get (by omega), ← h3]
    congr 1; omega

theorem orderChild_spec {L c d : Nat} {own other : List Val} (hc : c < d) (hd : d ≤ L)
    (ho : own.Nodup) (hn : other.Nodup) (h1 : own.length = L) (h2 : other.length = L) :
    OrderChildOf L c d own other (orderChild L c d own other) := by
  obtain ⟨e1, e2, e3, e4⟩ := orderChild_rest hc hd h1 hn h2
  have hfil : (other.filter fun x => x ∉ slice own c d) =
      other.filter fun x => ∀ i : Nat, c ≤ i → i < d → own[i]? ≠ some x := by
    apply List.filter_congr
    intro x _
    rw [decide_eq_decide, mem_slice_iff]
    push Not
    rfl
  have happ : (orderChild L c d own other).drop d ++ (orderChild L c d own other).take c
      = (other.filter fun x => x ∉ slice own c d).take (L - (d - c)) := by
    rw [e2, e4]
    unfold slice
    rw [show L - (d - c) = (L - d) + c by omega, List.take_add]
    congr 2
    omega
  refine ⟨e1, orderChild_nodup hd ho hn h1 h2, orderChild_mem, ?_, ?_, ?_⟩
  · intro i hi hj
    have a := slice_get (l := orderChild L c d own other) (a := c) (b := d) (i := i - c) (by omega)
    have b := slice_get (l := own) (a := c) (b := d) (i := i - c) (by omega)
    rw [e3, b, show c + (i - c) = i by omega] at a
    exact a.symm
  · rw [happ]
    exact (List.take_sublist _ _).trans List.filter_sublist
  · intro k hk
    rw [happ, ← hfil, List.getElem?_take, if_pos hk]

/-- C17: for repetition-free parents of length `L`, both children are repetition-free of length `L` etc. -/
theorem C17_order {p1 p2 : List Val} {L : Nat} (h1 : p1.length = L) (h2 : p2.length = L)
    (n1 : p1.Nodup) (n2 : p2.Nodup)
    {s s' : St σ} {cs : List Val × List Val} (h : crossGeno .order L p1 p2 s = (.ok cs, s')) :
    ∃ c d, 1 ≤ c ∧ c < d ∧ d + 1 ≤ L ∧ OrderChildOf L c d p1 p2 cs.1 ∧ OrderChildOf L c d p2 p1 cs.2 := by
  rw [crossGeno] at h
  obtain ⟨cd, s1, e1, e2⟩ := bind_ok.mp h
  obtain ⟨rfl, _⟩ := pure_ok.mp e2
  obtain ⟨a, b, e, _⟩ := segmentPoints_ok e1
  exact ⟨cd.1, cd.2, a, b, e, orderChild_spec b e.le n1 n2 h1 h2, orderChild_spec b e.le n2 n1 h2 h1⟩

/-- C17: arrangements of one set are crossed into arrangements of that set. -/
theorem C17_order_permutation {p1 p2 : List Val} {L : Nat} (h1 : p1.length = L)
    (n1 : p1.Nodup) (hp : p1.Perm p2)
    {s s' : St σ} {cs : List Val × List Val} (h : crossGeno .order L p1 p2 s = (.ok cs, s')) :
    cs.1.Perm p1 ∧ cs.2.Perm p1 := by
  have h2 : p2.length = L := hp.length_eq ▸ h1
  obtain ⟨c, d, _, _, _, a, b⟩ := C17_order h1 h2 n1 (hp.nodup_iff.mp n1) h
  have key : ∀ q : List Val, q.Nodup → q.length = L → (∀ x ∈ q, x ∈ p1 ∨ x ∈ p2) → q.Perm p1 := by
    intro q hq hl hm
    apply List.Subperm.perm_of_length_le
    · apply List.subperm_of_subset hq
      intro x hx
      rcases hm x hx with e | e
      · exact e
      · exact hp.mem_iff.mpr e
    · omega
  exact ⟨key _ a.nodup a.length a.genes, key _ b.nodup b.length fun x hx => (b.genes x hx).symm⟩

theorem C17_short_raises {p1 p2 : List Val} {L : Nat} (hL : L < 3) (s : St σ) :
    crossGeno .order L p1 p2 s = (.error .valueError, s) := by
  rw [crossGeno]
  exact bind_of_err (segmentPoints_err (by omega) s)

/-! ## C18 -/

/-- Parents `[0,1,2]` and `[1,1,1]`; the draws `0, 0` give the segment `[1, 2)`. -/
def exOrderState : St ℚ := { tape := [0, 0] }

/-- C18 refuted: with repeated genes the child can be shorter than its parents. -/
theorem C18_length_refuted : ¬ ∀ (p1 p2 : List Val) (s s' : St ℚ) (cs : List Val × List Val),
    p1.length = p2.length → crossGeno .order p1.length p1 p2 s = (.ok cs, s') → cs.1.length = p1.length := by
  intro h
  have := h [.num 0, .num 1, .num 2] [.num 1, .num 1, .num 1] exOrderState { exOrderState with tape := [] }
    ([.num 1], [.num 2, .num 1, .num 0]) rfl ?_
  · revert this; decide
  · have e : ∀ a b : Except PyErr (List Val × List Val) × St ℚ, a.1 = b.1 → a.2 = b.2 → a = b := by
      intro a b h1 h2; exact Prod.ext h1 h2
    apply e
    · decide +kernel
    · rfl

/-- C18, what holds: a child is never longer than its parents, and has their length if the *other* parent is
repetition-free.  (Missing for the full claim, and false: other parents with repetitions.) -/
theorem C18_length_partial {p1 p2 : List Val} {L : Nat} (h1 : p1.length = L) (h2 : p2.length = L)
    {s s' : St σ} {cs : List Val × List Val} (h : crossGeno .order L p1 p2 s = (.ok cs, s')) :
    cs.1.length ≤ L ∧ cs.2.length ≤ L ∧ (p2.Nodup → cs.1.length = L) ∧ (p1.Nodup → cs.2.length = L) := by
  rw [crossGeno] at h
  obtain ⟨cd, s1, e1, e2⟩ := bind_ok.mp h
  obtain ⟨rfl, _⟩ := pure_ok.mp e2
  obtain ⟨a, b, e, _⟩ := segmentPoints_ok e1
  exact ⟨orderChild_length_le b e.le, orderChild_length_le b e.le,
    fun n => (orderChild_rest b e.le h1 n h2).1, fun n => (orderChild_rest b e.le h2 n h1).1⟩

/-! ## C19 -/

/-- C19: `crossover.execute` makes one child per pair; children are new objects holding only a genotype and
`feasible = True`; no existing object changes, and nothing but the children list and the random state does. -/
theorem C19_one_child_per_pair {op : CrossOp} {s s' : St σ} (hal : ∀ r ∈ s.ga.parents, r < s.next)
    (h : crossExec op s = (.ok (), s')) :
    s.ga.parents.length = 2 * s'.ga.children.length ∧
    s'.ga.children.Nodup ∧
    (∀ r ∈ s'.ga.children, s.next ≤ r ∧ r < s'.next ∧ ∃ g, s'.heap r = { genotype := some g }) ∧
    (∀ r, r < s.next → s'.heap r = s.heap r) ∧
    s'.ga = { s.ga with children := s'.ga.children } ∧ s'.calls = s.calls ∧ s'.mutLvl = s.mutLvl ∧ s'.conds = s.conds := by
  obtain ⟨r0, g0, _, _, s1, gs, ⟨t, hd⟩, hga, hb, hl, _⟩ := crossExec_ok h hal
  have hn : s1.next = s.next := by have := congrArg St.next hd; exact this
  have hh : s1.heap = s.heap := by have := congrArg St.heap hd; exact this
  have hc : s1.calls = s.calls := by have := congrArg St.calls hd; exact this
  have hm : s1.mutLvl = s.mutLvl := by have := congrArg St.mutLvl hd; exact this
  have hk : s1.conds = s.conds := by have := congrArg St.conds hd; exact this
  have hch : s'.ga.children = List.range' s.next gs.length := by rw [hb.ga, hga, hn]; rfl
  refine ⟨by rw [hch, hl]; simp, by rw [hch]; exact List.nodup_range', ?_, ?_, ?_, hb.calls.trans hc,
    hb.mutLvl.trans hm, hb.conds.trans hk⟩
  · intro r hr
    rw [hch, List.mem_range'_1] at hr
    refine ⟨hr.1, by rw [hb.next, hn]; exact hr.2, gs[r - s.next]'(by omega), ?_⟩
    have := hb.new (r - s.next) _ (List.getElem?_eq_getElem (by omega))
    rw [hn, show s.next + (r - s.next) = r by omega] at this
    exact this
  · intro r hr
    rw [hb.old r (by rw [hn]; exact hr), hh]
  · rw [hb.ga, hga]

/-- C19: child `i` is bred from parents `2i` and `2i+1` by the class's crossover. -/
theorem C19_children_of_pairs {op : CrossOp} {s s' : St σ} (hal : ∀ r ∈ s.ga.parents, r < s.next)
    (h : crossExec op s = (.ok (), s')) :
    ∀ (i r : Nat), s'.ga.children[i]? = some r → ∃ a b p1 p2 g r0 g0, s.ga.parents[2 * i]? = some a ∧
      s.ga.parents[2 * i + 1]? = some b ∧ (s.heap a).genotype = some p1 ∧ (s.heap b).genotype = some p2 ∧
      s.ga.population.head? = some r0 ∧ (s.heap r0).genotype = some g0 ∧ (s'.heap r).genotype = some g ∧
      ∃ (s1 s2 : St σ) (cs : List Val × List Val), crossGeno op g0.length p1 p2 s1 = (.ok cs, s2) ∧
        (g = cs.1 ∨ g = cs.2) := by
  obtain ⟨r0, g0, hp0, hg0, s1, gs, ⟨t, hd⟩, hga, hb, hl, hres⟩ := crossExec_ok h hal
  have hn : s1.next = s.next := by have := congrArg St.next hd; exact this
  have hch : s'.ga.children = List.range' s.next gs.length := by rw [hb.ga, hga, hn]; rfl
  intro i r hr
  rw [hch] at hr
  obtain ⟨hi, hr⟩ := List.getElem?_eq_some_iff.mp hr
  rw [List.length_range'] at hi
  rw [List.getElem_range'] at hr
  obtain ⟨a, b, p1, p2, e1, e2, e3, e4, e5⟩ := hres i _ (List.getElem?_eq_getElem hi)
  refine ⟨a, b, p1, p2, gs[i], r0, g0, e1, e2, e3, e4, hp0, hg0, ?_, e5⟩
  have := hb.new i _ (List.getElem?_eq_getElem hi)
  rw [hn] at this
  rw [← hr, Nat.one_mul, this]

/-- C19: an odd number of parents cannot be crossed. -/
theorem C19_odd_parents_fail {op : CrossOp} {s s' : St σ} (hal : ∀ r ∈ s.ga.parents, r < s.next)
    (hodd : s.ga.parents.length % 2 = 1) : crossExec op s ≠ (.ok (), s') := by
  intro h
  have := (C19_one_child_per_pair hal h).1
  omega

/-! ## Concrete cases -/

/-- Two individuals with three genes each, used as population and parents. -/
def exCross (tape : List Nat) : St ℚ :=
  { tape := tape
    heap := fun r => if r = 0 then { genotype := some [.num 1, .num 2, .num 3], score := some 5 }
      else if r = 1 then { genotype := some [.num 3, .num 1, .num 2], score := some 7 } else {}
    next := 2
    ga := { population := [0, 1], parents := [0, 1] } }

example : (crossGeno .onePoint 3 [.num 1, .num 2, .num 3] [.num 3, .num 1, .num 2] (exCross [1])).1 =
    .ok ([.num 1, .num 2, .num 2], [.num 3, .num 1, .num 3]) := by decide +kernel
example : (crossGeno .twoPoint 3 [.num 1, .num 2, .num 3] [.num 3, .num 1, .num 2] (exCross [1, 0])).1 =
    .ok ([.num 1, .num 1, .num 3], [.num 3, .num 2, .num 2]) := by decide +kernel
example : (crossGeno .uniform 3 [.num 1, .num 2, .num 3] [.num 3, .num 1, .num 2] (exCross [1, 0, 1])).1 =
    .ok ([.num 3, .num 2, .num 2], [.num 3, .num 2, .num 2]) := by decide +kernel
example : (crossGeno .order 3 [.num 1, .num 2, .num 3] [.num 3, .num 1, .num 2] (exCross [1, 0])).1 =
    .ok ([.num 1, .num 2, .num 3], [.num 3, .num 1, .num 2]) := by decide +kernel
example : ([.num 1, .num 2, .num 3] : List Val).Nodup ∧
    ([.num 1, .num 2, .num 3] : List Val).Perm [.num 3, .num 1, .num 2] := by decide +kernel
example : ∀ op : CrossOp, (crossExec op (exCross [1, 0, 1, 0])).1 = .ok () ∧
    (crossExec op (exCross [1, 0, 1, 0])).2.ga.children = [2] ∧
    (∀ r ∈ (exCross [1, 0, 1, 0]).ga.parents, r < (exCross [1, 0, 1, 0]).next) := by
  intro op; cases op <;> decide +kernel

end BaumEva
