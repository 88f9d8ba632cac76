import Verif.Props.Pressure
import Verif.Props.Crossover
/-!
# C129: which genes of a parent stay together
-/
namespace BaumEva
open BaumEva.Spec
variable {σ : Type}

/-! ## What is counted -/

/-- The genotype of the child of two parents, if the draws are `t`. -/
def born (op : CrossOp) (p1 p2 : List Val) (s : St σ) (t : List Nat) : Option (List Val) :=
  match getChild op p1.length p1 p2 { s with tape := t } with
  | (.ok r, s') => (s'.heap r).genotype
  | _ => none

/-- The genes at the positions `i` and `j` come from different parents. -/
def Mixed (p1 p2 : List Val) (i j : Nat) (g : List Val) : Prop :=
  (g[i]? = p1[i]? ∧ g[j]? = p2[j]?) ∨ (g[i]? = p2[i]? ∧ g[j]? = p1[j]?)

/-- The genes at the positions `i .. j` all come from one parent. -/
def Intact (p1 p2 : List Val) (i j : Nat) (g : List Val) : Prop :=
  (∀ k, i ≤ k → k ≤ j → g[k]? = p1[k]?) ∨ ∀ k, i ≤ k → k ≤ j → g[k]? = p2[k]?

/-- The numbers of equally likely outcomes of the draws for one child: the cuts (or one coin per gene), and the coin for the child that is kept. -/
def crossBounds : CrossOp → Nat → List Nat
  | .onePoint, n => [n - 1, 2]
  | .twoPoint, n => [n - 1, n - 2, 2]
  | .order, n => [n - 1, n - 2, 2]
  | .uniform, n => List.replicate (n + 1) 2

/-- The draws for which the child has the property `P`. -/
def childDraws (op : CrossOp) (p1 p2 : List Val) (s : St σ) (P : List Val → Prop) : Set (List Nat) :=
  {t | Reduced (crossBounds op p1.length) t ∧ ∃ g, born op p1 p2 s t = some g ∧ P g}

/-! ## Where the genes come from -/

/-- The second cut of a sample of two: the place `y` among the rest. -/
def otherCut (x y : Nat) : Nat := if y < x then y else y + 1

/-- Whether gene `k` of the child comes from the first parent. -/
def fromFirst : CrossOp → List Nat → Nat → Bool
  | .onePoint, t, k => decide (k ≤ t.getD 0 0) == decide (t.getD 1 0 = 0)
  | .twoPoint, t, k => (!decide (min (t.getD 0 0) (otherCut (t.getD 0 0) (t.getD 1 0)) < k ∧ k ≤ max (t.getD 0 0) (otherCut (t.getD 0 0) (t.getD 1 0)))) == decide (t.getD 2 0 = 0)
  | .order, _, _ => false
  | .uniform, t, k => decide (t.getD k 0 = 0)

theorem randint_draw {a b : Int} {x : Nat} {t : List Nat} (s : St σ) (h : (x : Int) < b - a + 1) :
    randint a b { s with tape := x :: t } = (.ok (a + x), { s with tape := t }) := by
  unfold randint
  rw [ite_run, if_neg (by omega), bind_of_ok (draw_ok.mpr ⟨t, rfl, rfl⟩), pure_run, Int.emod_eq_of_lt (by omega) h]

theorem born_of {op : CrossOp} {p1 p2 : List Val} {s s1 : St σ} {t : List Nat} {cs : List Val × List Val} {z : Nat} (hz : z < 2)
    (h : crossGeno op p1.length p1 p2 { s with tape := t } = (.ok cs, { s1 with tape := [z] })) :
    born op p1 p2 s t = some (if z = 0 then cs.1 else cs.2) := by
  unfold born getChild
  rw [bind_of_ok h, bind_of_ok (randint_draw (a := 1) (b := 2) (t := []) s1 (by omega)), alloc_run]
  simp only [upd, if_true]
  have : (1 + (z : Int) = 1) ↔ z = 0 := by omega
  simp only [this]

theorem born_onePoint {p1 p2 : List Val} (hp : p2.length = p1.length) (s : St σ) {t : List Nat} (ht : Reduced (crossBounds .onePoint p1.length) t) :
    ∃ g, born .onePoint p1 p2 s t = some g ∧ ∀ k, k < p1.length → g[k]? = if fromFirst .onePoint t k then p1[k]? else p2[k]? := by
  cases ht with
  | cons h1 h2 =>
    cases h2 with
    | cons h2 h3 =>
      cases h3
      rename_i x z
      refine ⟨_, born_of (s1 := s) h2 (cs := onePoint (x + 1) p1 p2) ?_, fun k hk => ?_⟩
      · rw [crossGeno, bind_of_ok (randint_draw s (by omega)), pure_run]
        congr 3
        omega
      · have hx : x + 1 ≤ p1.length := by omega
        simp only [fromFirst, onePoint, List.getD_cons_zero, List.getD_cons_succ]
        by_cases hz : z = 0 <;> by_cases hkx : k ≤ x <;>
          simp [hz, hkx, List.getElem?_append, List.length_take, hp, Nat.min_eq_left hx, List.getElem?_drop] <;>
          (congr 1; omega)

theorem twoPoint_get {c d L : Nat} {q1 q2 : List Val} (hq : q1.length = L) (hq2 : q2.length = L) (hcd : c ≤ d) (hd : d ≤ L) (i : Nat) :
    (q1.take c ++ slice q2 c d ++ q1.drop d)[i]? = if c ≤ i ∧ i < d then q2[i]? else q1[i]? := by
  have hs : (slice q2 c d).length = d - c := slice_length (by omega)
  have ht : (q1.take c).length = c := by simp; omega
  by_cases hi : i < c
  · rw [if_neg (by omega), List.append_assoc, List.getElem?_append_left (by omega), List.getElem?_take, if_pos hi]
  · by_cases hj : i < d
    · rw [if_pos (by omega), List.append_assoc, List.getElem?_append_right (by omega),
        List.getElem?_append_left (by omega), slice_get (by omega)]
      congr 1; omega
    · rw [if_neg (by omega), List.getElem?_append_right (by simp [hs]; omega), List.getElem?_drop]
      congr 1
      simp [hs]; omega

theorem segmentPoints_draw {n x y : Nat} {t : List Nat} (s : St σ) (hx : x < n - 1) (hy : y < n - 2) :
    segmentPoints 1 n { s with tape := x :: y :: t } =
      (.ok (min x (otherCut x y) + 1, max x (otherCut x y) + 1), { s with tape := t }) := by
  have hlen : ((List.range n).drop 1).length = n - 1 := by simp
  have hget : ∀ i, i < n - 1 → ((List.range n).drop 1)[i]? = some (i + 1) := by
    intro i hi
    rw [List.getElem?_drop, List.getElem?_range (by omega), Nat.add_comm]
  have hs : sample ((List.range n).drop 1) 2 { s with tape := x :: y :: t } = (.ok [x + 1, otherCut x y + 1], { s with tape := t }) := by
    unfold sample
    rw [ite_run, if_neg (by rw [hlen]; omega)]
    show sampleAux 2 _ _ = _
    rw [sampleAux, bind_of_ok (draw_ok.mpr ⟨y :: t, rfl, rfl⟩), hlen, Nat.mod_eq_of_lt hx, hget x hx]
    simp only []
    have h2 : sampleAux 1 (((List.range n).drop 1).eraseIdx x) { s with tape := y :: t } = (.ok [otherCut x y + 1], { s with tape := t }) := by
      rw [sampleAux, bind_of_ok (draw_ok.mpr ⟨t, rfl, rfl⟩), List.length_eraseIdx, hlen, if_pos hx, show n - 1 - 1 = n - 2 by omega, Nat.mod_eq_of_lt hy]
      have : (((List.range n).drop 1).eraseIdx x)[y]? = some (otherCut x y + 1) := by
        rw [List.getElem?_eraseIdx]
        unfold otherCut
        split
        · exact hget y (by omega)
        · exact hget (y + 1) (by omega)
      rw [this]
      rfl
    rw [bind_of_ok h2, pure_run]
  unfold segmentPoints
  rw [bind_of_ok hs]
  simp only []
  rw [pure_run]
  congr 3 <;> omega

theorem born_twoPoint {p1 p2 : List Val} (hp : p2.length = p1.length) (s : St σ) {t : List Nat} (ht : Reduced (crossBounds .twoPoint p1.length) t) :
    ∃ g, born .twoPoint p1 p2 s t = some g ∧ ∀ k, k < p1.length → g[k]? = if fromFirst .twoPoint t k then p1[k]? else p2[k]? := by
  cases ht with
  | cons h1 h2 =>
    cases h2 with
    | cons h2 h3 =>
      cases h3 with
      | cons h3 h4 =>
        cases h4
        rename_i x y z
        refine ⟨_, born_of (s1 := s) h3 (cs := twoPoint (min x (otherCut x y) + 1) (max x (otherCut x y) + 1) p1 p2) ?_, fun k hk => ?_⟩
        · rw [crossGeno, bind_of_ok (segmentPoints_draw s h1 h2), pure_run]
        · have hmax : max x (otherCut x y) + 1 ≤ p1.length := by unfold otherCut; split <;> omega
          have e1 := twoPoint_get (c := min x (otherCut x y) + 1) rfl hp (by omega) hmax k
          have e2 := twoPoint_get (c := min x (otherCut x y) + 1) hp rfl (by omega) hmax k
          have e3 : (min x (otherCut x y) + 1 ≤ k ∧ k < max x (otherCut x y) + 1) ↔ (min x (otherCut x y) < k ∧ k ≤ max x (otherCut x y)) := by omega
          simp only [e3] at e1 e2
          simp only [fromFirst, twoPoint, List.getD_cons_zero, List.getD_cons_succ]
          by_cases hz : z = 0
          · rw [if_pos hz]
            refine e1.trans ?_
            split <;> rename_i h
            · rw [decide_eq_true h, decide_eq_true hz]; rfl
            · rw [decide_eq_false h, decide_eq_true hz]; rfl
          · rw [if_neg hz]
            refine e2.trans ?_
            split <;> rename_i h
            · rw [decide_eq_true h, decide_eq_false hz]; rfl
            · rw [decide_eq_false h, decide_eq_false hz]; rfl

theorem reduced_bits {n : Nat} {t : List Nat} (ht : Reduced (List.replicate n 2) t) : t.length = n ∧ ∀ x ∈ t, x < 2 := by
  unfold Reduced at ht
  have hl := ht.length_eq
  rw [List.length_replicate] at hl
  refine ⟨hl.symm, fun x hx => ?_⟩
  obtain ⟨i, hi, rfl⟩ := List.getElem_of_mem hx
  have := (List.forall₂_iff_get.mp ht).2 i (by simp; omega) hi
  simpa using this

theorem born_uniform {p1 p2 : List Val} (hp : p2.length = p1.length) (s : St σ) {t : List Nat} (ht : Reduced (crossBounds .uniform p1.length) t) :
    ∃ g, born .uniform p1 p2 s t = some g ∧ ∀ k, k < p1.length → g[k]? = if fromFirst .uniform t k then p1[k]? else p2[k]? := by
  obtain ⟨hl, hb⟩ := reduced_bits ht
  have hne : t ≠ [] := by intro h; rw [h] at hl; simp at hl
  have hsplit : t = (t.dropLast.map fun x => decide (x = 0)).map (fun b => if b then 0 else 1) ++ [t.getLast hne] := by
    conv_lhs => rw [← List.dropLast_append_getLast hne]
    rw [List.map_map]
    congr 1
    conv_lhs => rw [← List.map_id t.dropLast]
    refine List.map_congr_left fun x hx => ?_
    have := hb x (List.dropLast_subset _ hx)
    simp only [Function.comp, id, decide_eq_true_eq]
    split <;> omega
  have hrun := uniformLoop_run (p1 := p1) (p2 := p2) p1.length (t.dropLast.map fun x => decide (x = 0)) 0 { s with tape := [t.getLast hne] } (by simp [hl]) (by omega) (by omega)
  simp only [← hsplit] at hrun
  have hc := born_of (s := s) (s1 := s) (t := t) (op := .uniform) (p1 := p1) (p2 := p2) (hb _ (List.getLast_mem hne)) (by rw [crossGeno, bind_of_ok hrun, pure_run])
  refine ⟨_, hc, fun k hk => ?_⟩
  · simp only [ite_self]
    rw [List.getElem?_map, List.getElem?_range hk, Option.map_some, Nat.zero_add]
    have hk' : k < t.dropLast.length := by simp [hl]; exact hk
    have e : (t.dropLast.map fun x => decide (x = 0)).getD k false = fromFirst .uniform t k := by
      show _ = decide (t.getD k 0 = 0)
      rw [List.getD_eq_getElem?_getD, List.getElem?_map, List.getElem?_eq_getElem hk', List.getD_eq_getElem?_getD,
        List.getElem?_eq_getElem (by omega), List.getElem_dropLast]
      rfl
    rw [e]
    split
    · rw [List.getD_eq_getElem?_getD, List.getElem?_eq_getElem hk]; rfl
    · rw [List.getD_eq_getElem?_getD, List.getElem?_eq_getElem (by omega)]; rfl

theorem born_from {op : CrossOp} (hop : op ≠ .order) {p1 p2 : List Val} (hp : p2.length = p1.length) (s : St σ) {t : List Nat}
    (ht : Reduced (crossBounds op p1.length) t) :
    ∃ g, born op p1 p2 s t = some g ∧ ∀ k, k < p1.length → g[k]? = if fromFirst op t k then p1[k]? else p2[k]? := by
  cases op with
  | onePoint => exact born_onePoint hp s ht
  | twoPoint => exact born_twoPoint hp s ht
  | uniform => exact born_uniform hp s ht
  | order => exact absurd rfl hop

/-! ## Counting -/

theorem mixed_iff {p1 p2 g : List Val} {i j : Nat} {a b : Bool} (hi : p1[i]? ≠ p2[i]?) (hj : p1[j]? ≠ p2[j]?)
    (e1 : g[i]? = if a then p1[i]? else p2[i]?) (e2 : g[j]? = if b then p1[j]? else p2[j]?) : Mixed p1 p2 i j g ↔ a ≠ b := by
  unfold Mixed
  rw [e1, e2]
  cases a <;> cases b <;> simp [hi, hj, hi.symm, hj.symm]

theorem childDraws_mixed {op : CrossOp} (hop : op ≠ .order) {p1 p2 : List Val} (hp : p2.length = p1.length) (s : St σ) {i j : Nat} (hij : i < j)
    (hj : j < p1.length) (di : p1[i]? ≠ p2[i]?) (dj : p1[j]? ≠ p2[j]?) :
    childDraws op p1 p2 s (Mixed p1 p2 i j) = {t | Reduced (crossBounds op p1.length) t ∧ fromFirst op t i ≠ fromFirst op t j} := by
  ext t
  refine and_congr_right fun ht => ?_
  obtain ⟨g, hg, hk⟩ := born_from hop hp s ht
  have := mixed_iff di dj (hk i (by omega)) (hk j hj)
  rw [← this]
  constructor
  · rintro ⟨g', hg', h⟩
    rw [hg] at hg'
    cases hg'
    exact h
  · exact fun h => ⟨g, hg, h⟩

theorem childDraws_first {op : CrossOp} (hop : op ≠ .order) {p1 p2 : List Val} (hp : p2.length = p1.length) (s : St σ) {i : Nat}
    (hi : i < p1.length) (di : p1[i]? ≠ p2[i]?) :
    childDraws op p1 p2 s (fun g => g[i]? = p1[i]?) = {t | Reduced (crossBounds op p1.length) t ∧ fromFirst op t i = true} := by
  ext t
  refine and_congr_right fun ht => ?_
  obtain ⟨g, hg, hk⟩ := born_from hop hp s ht
  have e := hk i hi
  constructor
  · rintro ⟨g', hg', h⟩
    rw [hg] at hg'
    cases hg'
    by_contra hn
    rw [if_neg hn] at e
    exact di (h.symm.trans e)
  · intro h
    rw [if_pos h] at e
    exact ⟨g, hg, e⟩

/-- The draws with the `m`-th one inverted. -/
def flipAt (m : Nat) (t : List Nat) : List Nat := t.set m (1 - t.getD m 0)

theorem flipAt_reduced {bounds t : List Nat} {m : Nat} (hm : bounds[m]? = some 2) (ht : Reduced bounds t) : Reduced bounds (flipAt m t) := by
  unfold Reduced flipAt at *
  rw [List.forall₂_iff_get] at ht ⊢
  refine ⟨by simpa using ht.1, fun i h1 h2 => ?_⟩
  rw [List.get_eq_getElem, List.get_eq_getElem, List.getElem_set]
  split
  · rename_i h
    subst h
    rw [List.getElem?_eq_getElem h1] at hm
    have hb : bounds[m] = 2 := Option.some.inj hm
    rw [hb]
    omega
  · exact ht.2 i h1 (by simpa using h2)

theorem flipAt_twice {bounds t : List Nat} {m : Nat} (hm : bounds[m]? = some 2) (ht : Reduced bounds t) : flipAt m (flipAt m t) = t := by
  unfold Reduced at ht
  rw [List.forall₂_iff_get] at ht
  have hlt : m < bounds.length := (List.getElem?_eq_some_iff.mp hm).1
  have hlt' : m < t.length := ht.1 ▸ hlt
  have hb := ht.2 m hlt hlt'
  simp only [List.get_eq_getElem, (List.getElem?_eq_some_iff.mp hm).2] at hb
  unfold flipAt
  rw [List.set_set, List.getD_eq_getElem?_getD, List.getElem?_set_self hlt', Option.getD_some, List.getD_eq_getElem?_getD, List.getElem?_eq_getElem hlt', Option.getD_some,
    show 1 - (1 - t[m]) = t[m] by omega, List.set_getElem_self]

/-- A property that is inverted with one coin holds for half of the draws; the other draws may be restricted by a property the coin does not change. -/
theorem half_of_flip' {bounds : List Nat} {m : Nat} (hm : bounds[m]? = some 2) {P Q : List Nat → Prop} (hP : ∀ t, Reduced bounds t → (P (flipAt m t) ↔ ¬ P t))
    (hQ : ∀ t, Reduced bounds t → Q t → Q (flipAt m t)) :
    2 * {t | Reduced bounds t ∧ Q t ∧ P t}.ncard = {t | Reduced bounds t ∧ Q t}.ncard := by
  have hfin := reduced_finite bounds
  have f1 : {t | Reduced bounds t ∧ Q t ∧ P t}.Finite := hfin.subset fun _ h => h.1
  have f2 : {t | Reduced bounds t ∧ Q t ∧ ¬ P t}.Finite := hfin.subset fun _ h => h.1
  have himg : {t | Reduced bounds t ∧ Q t ∧ ¬ P t} = flipAt m '' {t | Reduced bounds t ∧ Q t ∧ P t} := by
    ext t
    constructor
    · rintro ⟨h1, h2, h3⟩
      exact ⟨flipAt m t, ⟨flipAt_reduced hm h1, hQ t h1 h2, (hP t h1).mpr h3⟩, flipAt_twice hm h1⟩
    · rintro ⟨u, ⟨h1, h2, h3⟩, rfl⟩
      exact ⟨flipAt_reduced hm h1, hQ u h1 h2, fun h => (hP u h1).mp h h3⟩
  have hcard : {t | Reduced bounds t ∧ Q t ∧ ¬ P t}.ncard = {t | Reduced bounds t ∧ Q t ∧ P t}.ncard := by
    rw [himg]
    refine Set.InjOn.ncard_image ?_
    rintro a ⟨ha, _⟩ b ⟨hb, _⟩ hab
    rw [← flipAt_twice hm ha, hab, flipAt_twice hm hb]
  have hall : {t | Reduced bounds t ∧ Q t} = {t | Reduced bounds t ∧ Q t ∧ P t} ∪ {t | Reduced bounds t ∧ Q t ∧ ¬ P t} := by
    ext t
    by_cases h : P t <;> simp [h]
  rw [hall, Set.ncard_union_eq ?_ f1 f2, hcard, two_mul]
  rw [Set.disjoint_left]
  exact fun t h h' => h'.2.2 h.2.2

theorem half_of_flip {bounds : List Nat} {m : Nat} (hm : bounds[m]? = some 2) {P : List Nat → Prop} (hP : ∀ t, Reduced bounds t → (P (flipAt m t) ↔ ¬ P t)) :
    2 * {t | Reduced bounds t ∧ P t}.ncard = bounds.prod := by
  have := half_of_flip' hm hP (Q := fun _ => True) fun _ _ _ => trivial
  simp only [true_and, and_true] at this
  rw [this, reduced_card]

/-- C129: every draw gives a child, and the number of draws. -/
theorem C129_draws {op : CrossOp} (hop : op ≠ .order) {p1 p2 : List Val} (hp : p2.length = p1.length) (s : St σ) :
    (∀ t, Reduced (crossBounds op p1.length) t → ∃ g, born op p1 p2 s t = some g ∧ ∀ k, k < p1.length → (g[k]? = p1[k]? ∨ g[k]? = p2[k]?)) ∧
    {t | Reduced (crossBounds op p1.length) t}.ncard = (crossBounds op p1.length).prod := by
  refine ⟨fun t ht => ?_, reduced_card _⟩
  obtain ⟨g, hg, hk⟩ := born_from hop hp s ht
  refine ⟨g, hg, fun k hk' => ?_⟩
  rw [hk k hk']
  split
  · exact .inl rfl
  · exact .inr rfl

/-- C129: every single gene comes from either parent for half of the draws. -/
theorem C129_fair {op : CrossOp} (hop : op ≠ .order) {p1 p2 : List Val} (hp : p2.length = p1.length) (s : St σ) {i : Nat} (hi : i < p1.length)
    (di : p1[i]? ≠ p2[i]?) :
    2 * (childDraws op p1 p2 s fun g => g[i]? = p1[i]?).ncard = (crossBounds op p1.length).prod := by
  rw [childDraws_first hop hp s hi di]
  cases op with
  | order => exact absurd rfl hop
  | onePoint =>
    refine half_of_flip (m := 1) rfl fun t ht => ?_
    cases ht with
    | cons h1 h2 => cases h2 with
      | cons h2 h3 =>
        cases h3
        rename_i x z
        have : z = 0 ∨ z = 1 := by omega
        rcases this with rfl | rfl <;> simp [fromFirst, flipAt]
  | twoPoint =>
    refine half_of_flip (m := 2) rfl fun t ht => ?_
    cases ht with
    | cons h1 h2 => cases h2 with
      | cons h2 h3 => cases h3 with
        | cons h3 h4 =>
          cases h4
          rename_i x y z
          have : z = 0 ∨ z = 1 := by omega
          rcases this with rfl | rfl <;> simp only [fromFirst, flipAt, List.getD_cons_zero, List.getD_cons_succ, List.set_cons_succ, List.set_cons_zero] <;>
            generalize decide (min x (otherCut x y) < i ∧ i ≤ max x (otherCut x y)) = b <;> cases b <;> decide
  | uniform =>
    refine half_of_flip (m := i) (by simp only [crossBounds]; rw [List.getElem?_replicate, if_pos (by omega)]) fun t ht => ?_
    obtain ⟨hl, hb⟩ := reduced_bits ht
    have hlt : i < t.length := by omega
    have := hb _ (List.getElem_mem hlt)
    simp only [fromFirst, flipAt, decide_eq_true_eq, List.getD_eq_getElem?_getD, List.getElem?_set_self hlt, List.getElem?_eq_getElem hlt, Option.getD_some]
    omega

/-- C129: `UniformCrossover` separates two genes for half of the draws, wherever they are. -/
theorem C129_uniform {p1 p2 : List Val} (hp : p2.length = p1.length) (s : St σ) {i j : Nat} (hij : i < j) (hj : j < p1.length)
    (di : p1[i]? ≠ p2[i]?) (dj : p1[j]? ≠ p2[j]?) :
    2 * (childDraws .uniform p1 p2 s (Mixed p1 p2 i j)).ncard = 2 ^ (p1.length + 1) := by
  rw [childDraws_mixed (by simp) hp s hij hj di dj]
  have hprod : (crossBounds .uniform p1.length).prod = 2 ^ (p1.length + 1) := by simp [crossBounds]
  rw [← hprod]
  refine half_of_flip (m := i) (by simp only [crossBounds]; rw [List.getElem?_replicate, if_pos (by omega)]) fun t ht => ?_
  obtain ⟨hl, hb⟩ := reduced_bits ht
  have hlt : i < t.length := by omega
  have := hb _ (List.getElem_mem hlt)
  simp only [fromFirst, flipAt, ne_eq, decide_eq_decide, List.getD_eq_getElem?_getD, List.getElem?_set_self hlt, List.getElem?_eq_getElem hlt, Option.getD_some,
    List.getElem?_set_ne (show i ≠ j by omega)]
  omega

/-- C129: `OnePointCrossover` separates two genes for `j - i` of the `n - 1` cuts. -/
theorem C129_one_point {p1 p2 : List Val} (hp : p2.length = p1.length) (s : St σ) {i j : Nat} (hij : i < j) (hj : j < p1.length)
    (di : p1[i]? ≠ p2[i]?) (dj : p1[j]? ≠ p2[j]?) :
    (childDraws .onePoint p1 p2 s (Mixed p1 p2 i j)).ncard = 2 * (j - i) := by
  rw [childDraws_mixed (by simp) hp s hij hj di dj]
  have : {t | Reduced (crossBounds .onePoint p1.length) t ∧ fromFirst .onePoint t i ≠ fromFirst .onePoint t j} =
      (fun p : Nat × Nat => [p.1, p.2]) '' (↑(Finset.Ico i j ×ˢ Finset.range 2) : Set (Nat × Nat)) := by
    ext t
    constructor
    · rintro ⟨ht, h⟩
      cases ht with
      | cons h1 h2 => cases h2 with
        | cons h2 h3 =>
          cases h3
          rename_i x z
          refine ⟨(x, z), ?_, rfl⟩
          simp only [Finset.coe_product, Set.mem_prod, Finset.mem_coe, Finset.mem_Ico, Finset.mem_range]
          simp only [fromFirst, List.getD_cons_zero, List.getD_cons_succ] at h
          refine ⟨?_, h2⟩
          by_contra hn
          apply h
          congr 1
          rw [decide_eq_decide]
          omega
    · rintro ⟨⟨x, z⟩, h, rfl⟩
      simp only [Finset.coe_product, Set.mem_prod, Finset.mem_coe, Finset.mem_Ico, Finset.mem_range] at h
      refine ⟨.cons (by omega) (.cons h.2 .nil), ?_⟩
      simp only [fromFirst, List.getD_cons_zero, List.getD_cons_succ]
      rw [decide_eq_true (show i ≤ x by omega), decide_eq_false (show ¬ j ≤ x by omega)]
      cases decide (z = 0) <;> decide
  rw [this, Set.ncard_image_of_injective _ (by rintro ⟨a, b⟩ ⟨c, d⟩ h; simpa using h), Set.ncard_coe_finset, Finset.card_product, Nat.card_Ico, Finset.card_range,
    Nat.mul_comm]

/-- C129: `TwoPointCrossover` separates two genes if exactly one of the cuts is between them. -/
theorem C129_two_point {p1 p2 : List Val} (hp : p2.length = p1.length) (s : St σ) {i j : Nat} (hij : i < j) (hj : j < p1.length)
    (di : p1[i]? ≠ p2[i]?) (dj : p1[j]? ≠ p2[j]?) :
    (childDraws .twoPoint p1 p2 s (Mixed p1 p2 i j)).ncard = 2 * (2 * ((j - i) * (p1.length - 1 - (j - i)))) := by
  rw [childDraws_mixed (by simp) hp s hij hj di dj]
  set n := p1.length with hn
  let A := Finset.Ico i j
  let B := (Finset.range (n - 1)) \ Finset.Ico i j
  let f : (Nat × Nat) × Nat → List Nat := fun p => [p.1.1, if p.1.2 < p.1.1 then p.1.2 else p.1.2 - 1, p.2]
  have hsub : Finset.Ico i j ⊆ Finset.range (n - 1) := by
    intro x hx
    rw [Finset.mem_Ico] at hx
    rw [Finset.mem_range]
    omega
  have key : ∀ x y z : Nat, fromFirst .twoPoint [x, y, z] i ≠ fromFirst .twoPoint [x, y, z] j ↔
      (x ∈ A ↔ ¬ otherCut x y ∈ A) := by
    intro x y z
    simp only [fromFirst, List.getD_cons_zero, List.getD_cons_succ, A, Finset.mem_Ico]
    generalize otherCut x y = c
    by_cases h1 : min x c < i ∧ i ≤ max x c <;> by_cases h2 : min x c < j ∧ j ≤ max x c <;>
      simp only [decide_eq_false, h1, h2, not_true_eq_false, not_false_eq_true, ne_eq] <;> cases decide (z = 0) <;>
      simp <;> omega
  have : {t | Reduced (crossBounds .twoPoint n) t ∧ fromFirst .twoPoint t i ≠ fromFirst .twoPoint t j} =
      f '' (↑((A ×ˢ B ∪ B ×ˢ A) ×ˢ Finset.range 2) : Set ((Nat × Nat) × Nat)) := by
    ext t
    simp only [Set.mem_ofPred_eq, Set.mem_image, Finset.mem_coe, Finset.mem_product, Finset.mem_union, Prod.exists]
    constructor
    · rintro ⟨ht, h⟩
      cases ht with
      | cons h1 h2 => cases h2 with
        | cons h2 h3 => cases h3 with
          | cons h3 h4 =>
            cases h4
            rename_i x y z
            rw [key] at h
            refine ⟨x, otherCut x y, z, ⟨?_, Finset.mem_range.mpr h3⟩, ?_⟩
            · have e1 : x ∈ Finset.range (n - 1) := Finset.mem_range.mpr h1
              have e2 : otherCut x y ∈ Finset.range (n - 1) := by
                rw [Finset.mem_range]; unfold otherCut; split <;> omega
              by_cases hx : x ∈ A
              · exact .inl ⟨hx, Finset.mem_sdiff.mpr ⟨e2, h.mp hx⟩⟩
              · refine .inr ⟨Finset.mem_sdiff.mpr ⟨e1, hx⟩, ?_⟩
                by_contra hc
                exact hx (h.mpr hc)
            · simp only [f, otherCut]
              congr 2
              split <;> simp_all
              omega
    · rintro ⟨x, c, z, ⟨h, hz⟩, rfl⟩
      have hx : x < n - 1 ∧ c < n - 1 ∧ (x ∈ A ↔ ¬ c ∈ A) := by
        rcases h with ⟨h1, h2⟩ | ⟨h1, h2⟩
        · have := Finset.mem_sdiff.mp h2
          exact ⟨Finset.mem_range.mp (hsub h1), Finset.mem_range.mp this.1, iff_of_true h1 this.2⟩
        · have := Finset.mem_sdiff.mp h1
          exact ⟨Finset.mem_range.mp this.1, Finset.mem_range.mp (hsub h2), iff_of_false this.2 (fun h => h h2)⟩
      have hne : x ≠ c := by
        rintro rfl
        tauto
      have hc : otherCut x (if c < x then c else c - 1) = c := by
        unfold otherCut
        by_cases hcx : c < x
        · rw [if_pos hcx, if_pos hcx]
        · rw [if_neg hcx, if_neg (by omega)]; omega
      refine ⟨.cons hx.1 (.cons ?_ (.cons (Finset.mem_range.mp hz) .nil)), ?_⟩
      · show (if c < x then c else c - 1) < n - 2
        split <;> omega
      · show fromFirst .twoPoint [x, if c < x then c else c - 1, z] i ≠ fromFirst .twoPoint [x, if c < x then c else c - 1, z] j
        rw [key, hc]
        exact hx.2.2
  have hdisj : Disjoint (A ×ˢ B) (B ×ˢ A) := by
    rw [Finset.disjoint_left]
    rintro ⟨x, c⟩ h1 h2
    exact (Finset.mem_sdiff.mp (Finset.mem_product.mp h2).1).2 (Finset.mem_product.mp h1).1
  have hA : A.card = j - i := Nat.card_Ico i j
  have hB : B.card = n - 1 - (j - i) := by rw [Finset.card_sdiff_of_subset hsub, Finset.card_range, Nat.card_Ico]
  rw [this, Set.InjOn.ncard_image ?_, Set.ncard_coe_finset, Finset.card_product, Finset.card_union_of_disjoint hdisj, Finset.card_product, Finset.card_product, hA, hB,
    Finset.card_range]
  · ring
  · rintro ⟨⟨x, c⟩, z⟩ h1 ⟨⟨x', c'⟩, z'⟩ h2 h
    simp only [Finset.mem_coe, Finset.mem_product, Finset.mem_union] at h1 h2
    simp only [f, List.cons.injEq, and_true] at h
    obtain ⟨rfl, h, rfl⟩ := h
    have hne : ∀ c, (x ∈ A ∧ c ∈ B ∨ x ∈ B ∧ c ∈ A) → x ≠ c := by
      rintro c hc rfl
      rcases hc with ⟨h1, h2⟩ | ⟨h2, h1⟩ <;> exact (Finset.mem_sdiff.mp h2).2 h1
    have e1 := hne c h1.1
    have e2 := hne c' h2.1
    have : c = c' := by split at h <;> split at h <;> omega
    rw [this]

/-- C129: the first and the last gene of a child of `OnePointCrossover` never come from the same parent, those of a child of `TwoPointCrossover` always do. -/
theorem C129_ends {p1 p2 : List Val} (hp : p2.length = p1.length) (s : St σ) (hn : 2 ≤ p1.length) (d0 : p1[0]? ≠ p2[0]?)
    (d1 : p1[p1.length - 1]? ≠ p2[p1.length - 1]?) :
    (∀ t, Reduced (crossBounds .onePoint p1.length) t → ∃ g, born .onePoint p1 p2 s t = some g ∧ Mixed p1 p2 0 (p1.length - 1) g) ∧
    ∀ t, Reduced (crossBounds .twoPoint p1.length) t → ∃ g, born .twoPoint p1 p2 s t = some g ∧ ¬ Mixed p1 p2 0 (p1.length - 1) g := by
  constructor
  · intro t ht
    have h1 := C129_one_point hp s (i := 0) (j := p1.length - 1) (by omega) (by omega) d0 d1
    have hsub : childDraws .onePoint p1 p2 s (Mixed p1 p2 0 (p1.length - 1)) ⊆ {t | Reduced (crossBounds .onePoint p1.length) t} := fun _ h => h.1
    have := Set.eq_of_subset_of_ncard_le hsub (by
      rw [h1, reduced_card]
      simp only [crossBounds, List.prod_cons, List.prod_nil]
      omega) (reduced_finite _)
    have hm : t ∈ childDraws .onePoint p1 p2 s (Mixed p1 p2 0 (p1.length - 1)) := by rw [this]; exact ht
    exact hm.2
  · intro t ht
    obtain ⟨g, hg, _⟩ := born_twoPoint hp s ht
    refine ⟨g, hg, fun hm => ?_⟩
    have h1 := C129_two_point hp s (i := 0) (j := p1.length - 1) (by omega) (by omega) d0 d1
    rw [Nat.sub_zero, Nat.sub_self, Nat.mul_zero, Nat.mul_zero, Set.ncard_eq_zero ((reduced_finite _).subset fun _ h => h.1)] at h1
    have : t ∈ childDraws .twoPoint p1 p2 s (Mixed p1 p2 0 (p1.length - 1)) := ⟨ht, g, hg, hm⟩
    rw [h1] at this
    exact this

/-! ## Blocks of genes -/

theorem childDraws_intact {op : CrossOp} (hop : op ≠ .order) {p1 p2 : List Val} (hp : p2.length = p1.length) (s : St σ) {i j : Nat} (hij : i ≤ j)
    (hj : j < p1.length) (hd : ∀ k, i ≤ k → k ≤ j → p1[k]? ≠ p2[k]?) :
    childDraws op p1 p2 s (Intact p1 p2 i j) =
      {t | Reduced (crossBounds op p1.length) t ∧ ∀ k, i ≤ k → k ≤ j → fromFirst op t k = fromFirst op t i} := by
  ext t
  refine and_congr_right fun ht => ?_
  obtain ⟨g, hg, hk⟩ := born_from hop hp s ht
  constructor
  · rintro ⟨g', hg', h⟩
    rw [hg] at hg'
    cases hg'
    have key : ∀ b : Bool, (∀ k, i ≤ k → k ≤ j → g[k]? = if b then p1[k]? else p2[k]?) → ∀ k, i ≤ k → k ≤ j → fromFirst op t k = b := by
      intro b hb k h1 h2
      have e := (hb k h1 h2).symm.trans (hk k (by omega))
      have := hd k h1 h2
      cases b <;> cases hf : fromFirst op t k <;> simp [hf] at e ⊢
      · exact this e.symm
      · exact this e
    rcases h with h | h
    · have := key true h
      exact fun k h1 h2 => (this k h1 h2).trans (this i le_rfl hij).symm
    · have := key false h
      exact fun k h1 h2 => (this k h1 h2).trans (this i le_rfl hij).symm
  · intro h
    refine ⟨g, hg, ?_⟩
    cases hf : fromFirst op t i with
    | true => exact .inl fun k h1 h2 => by rw [hk k (by omega), h k h1 h2, hf]; rfl
    | false => exact .inr fun k h1 h2 => by rw [hk k (by omega), h k h1 h2, hf]; rfl

/-- C129: `OnePointCrossover` passes on a block of genes, for example the bits of a variable, unless it cuts inside the block. -/
theorem C129_block_one_point {p1 p2 : List Val} (hp : p2.length = p1.length) (s : St σ) {i j : Nat} (hij : i ≤ j) (hj : j < p1.length)
    (hd : ∀ k, i ≤ k → k ≤ j → p1[k]? ≠ p2[k]?) :
    (childDraws .onePoint p1 p2 s (Intact p1 p2 i j)).ncard = 2 * (p1.length - 1 - (j - i)) := by
  rw [childDraws_intact (by simp) hp s hij hj hd]
  set n := p1.length with hn
  have hsub : Finset.Ico i j ⊆ Finset.range (n - 1) := by
    intro x hx
    rw [Finset.mem_Ico] at hx
    rw [Finset.mem_range]
    omega
  have : {t | Reduced (crossBounds .onePoint n) t ∧ ∀ k, i ≤ k → k ≤ j → fromFirst .onePoint t k = fromFirst .onePoint t i} =
      (fun p : Nat × Nat => [p.1, p.2]) '' (↑((Finset.range (n - 1) \ Finset.Ico i j) ×ˢ Finset.range 2) : Set (Nat × Nat)) := by
    ext t
    simp only [Set.mem_ofPred_eq, Set.mem_image, Finset.mem_coe, Finset.mem_product, Finset.mem_sdiff, Finset.mem_range, Finset.mem_Ico, Prod.exists]
    constructor
    · rintro ⟨ht, h⟩
      cases ht with
      | cons h1 h2 => cases h2 with
        | cons h2 h3 =>
          cases h3
          rename_i x z
          refine ⟨x, z, ⟨⟨h1, fun hx => ?_⟩, h2⟩, rfl⟩
          have := h j hij le_rfl
          simp only [fromFirst, List.getD_cons_zero, List.getD_cons_succ] at this
          rw [decide_eq_true (show i ≤ x by omega), decide_eq_false (show ¬ j ≤ x by omega)] at this
          cases hz : decide (z = 0) <;> rw [hz] at this <;> exact absurd this (by decide)
    · rintro ⟨x, z, ⟨⟨h1, hx⟩, h2⟩, rfl⟩
      refine ⟨.cons h1 (.cons h2 .nil), fun k hk1 hk2 => ?_⟩
      simp only [fromFirst, List.getD_cons_zero, List.getD_cons_succ]
      congr 1
      rw [decide_eq_decide]
      omega
  rw [this, Set.ncard_image_of_injective _ (by rintro ⟨a, b⟩ ⟨c, d⟩ h; simpa using h), Set.ncard_coe_finset, Finset.card_product, Finset.card_sdiff_of_subset hsub,
    Nat.card_Ico, Finset.card_range, Finset.card_range, Nat.mul_comm]

/-- C129: `TwoPointCrossover` passes on a block of genes unless it cuts inside the block. -/
theorem C129_block_two_point {p1 p2 : List Val} (hp : p2.length = p1.length) (s : St σ) {i j : Nat} (hij : i ≤ j) (hj : j < p1.length)
    (hd : ∀ k, i ≤ k → k ≤ j → p1[k]? ≠ p2[k]?) :
    (childDraws .twoPoint p1 p2 s (Intact p1 p2 i j)).ncard = 2 * ((p1.length - 1 - (j - i)) * (p1.length - 2 - (j - i))) := by
  rw [childDraws_intact (by simp) hp s hij hj hd]
  set n := p1.length with hn
  let B := Finset.range (n - 1) \ Finset.Ico i j
  have hsub : Finset.Ico i j ⊆ Finset.range (n - 1) := by
    intro x hx
    rw [Finset.mem_Ico] at hx
    rw [Finset.mem_range]
    omega
  let f : (Nat × Nat) × Nat → List Nat := fun p => [p.1.1, if p.1.2 < p.1.1 then p.1.2 else p.1.2 - 1, p.2]
  have key : ∀ x y z : Nat, (∀ k, i ≤ k → k ≤ j → fromFirst .twoPoint [x, y, z] k = fromFirst .twoPoint [x, y, z] i) ↔
      (x ∉ Finset.Ico i j ∧ otherCut x y ∉ Finset.Ico i j) := by
    intro x y z
    have hne : otherCut x y ≠ x := by unfold otherCut; split <;> omega
    revert hne
    simp only [fromFirst, List.getD_cons_zero, List.getD_cons_succ, Finset.mem_Ico]
    generalize otherCut x y = c
    intro hne
    have e : ∀ k, (((!decide (min x c < k ∧ k ≤ max x c)) == decide (z = 0)) = ((!decide (min x c < i ∧ i ≤ max x c)) == decide (z = 0))) ↔
        ((min x c < k ∧ k ≤ max x c) ↔ (min x c < i ∧ i ≤ max x c)) := by
      intro k
      by_cases h1 : min x c < k ∧ k ≤ max x c <;> by_cases h2 : min x c < i ∧ i ≤ max x c <;> simp only [h1, h2] <;>
        cases decide (z = 0) <;> simp
    simp only [e]
    constructor
    · intro h
      have h1 := h (min x c + 1)
      have h2 := h (max x c + 1)
      have h3 := h (max x c)
      omega
    · intro h k h1 h2
      omega
  have : {t | Reduced (crossBounds .twoPoint n) t ∧ ∀ k, i ≤ k → k ≤ j → fromFirst .twoPoint t k = fromFirst .twoPoint t i} =
      f '' (↑(B.offDiag ×ˢ Finset.range 2) : Set ((Nat × Nat) × Nat)) := by
    ext t
    simp only [Set.mem_ofPred_eq, Set.mem_image, Finset.mem_coe, Finset.mem_product, Finset.mem_offDiag, Prod.exists]
    constructor
    · rintro ⟨ht, h⟩
      cases ht with
      | cons h1 h2 => cases h2 with
        | cons h2 h3 => cases h3 with
          | cons h3 h4 =>
            cases h4
            rename_i x y z
            rw [key] at h
            have e2 : otherCut x y ∈ Finset.range (n - 1) := by
              rw [Finset.mem_range]; unfold otherCut; split <;> omega
            refine ⟨x, otherCut x y, z, ⟨⟨Finset.mem_sdiff.mpr ⟨Finset.mem_range.mpr h1, h.1⟩, Finset.mem_sdiff.mpr ⟨e2, h.2⟩, ?_⟩, Finset.mem_range.mpr h3⟩, ?_⟩
            · show x ≠ otherCut x y
              unfold otherCut; split <;> omega
            · simp only [f, otherCut]
              congr 2
              split <;> simp_all
              omega
    · rintro ⟨x, c, z, ⟨⟨h1, h2, hne⟩, hz⟩, rfl⟩
      have hx := Finset.mem_range.mp (Finset.mem_sdiff.mp h1).1
      have hcn := Finset.mem_range.mp (Finset.mem_sdiff.mp h2).1
      replace hne : x ≠ c := hne
      have hc : otherCut x (if c < x then c else c - 1) = c := by
        unfold otherCut
        by_cases hcx : c < x
        · rw [if_pos hcx, if_pos hcx]
        · rw [if_neg hcx, if_neg (by omega)]; omega
      refine ⟨.cons hx (.cons ?_ (.cons (Finset.mem_range.mp hz) .nil)), ?_⟩
      · show (if c < x then c else c - 1) < n - 2
        split <;> omega
      · show ∀ k, i ≤ k → k ≤ j → fromFirst .twoPoint [x, if c < x then c else c - 1, z] k = fromFirst .twoPoint [x, if c < x then c else c - 1, z] i
        rw [key, hc]
        exact ⟨(Finset.mem_sdiff.mp h1).2, (Finset.mem_sdiff.mp h2).2⟩
  have hB : B.card = n - 1 - (j - i) := by rw [Finset.card_sdiff_of_subset hsub, Finset.card_range, Nat.card_Ico]
  rw [this, Set.InjOn.ncard_image ?_, Set.ncard_coe_finset, Finset.card_product, Finset.offDiag_card, hB, Finset.card_range]
  · rw [Nat.mul_comm, show n - 2 - (j - i) = n - 1 - (j - i) - 1 by omega, Nat.mul_sub_one]
  · rintro ⟨⟨x, c⟩, z⟩ h1 ⟨⟨x', c'⟩, z'⟩ h2 h
    simp only [Finset.mem_coe, Finset.mem_product, Finset.mem_offDiag] at h1 h2
    simp only [f, List.cons.injEq, and_true] at h
    obtain ⟨rfl, h, rfl⟩ := h
    have e1 : x ≠ c := h1.1.2.2
    have e2 : x ≠ c' := h2.1.2.2
    have : c = c' := by split at h <;> split at h <;> omega
    rw [this]

/-- C129: `UniformCrossover` passes on a block of `j - i + 1` genes for one in `2 ^ (j - i)` draws. -/
theorem C129_block_uniform {p1 p2 : List Val} (hp : p2.length = p1.length) (s : St σ) {i j : Nat} (hij : i ≤ j) (hj : j < p1.length)
    (hd : ∀ k, i ≤ k → k ≤ j → p1[k]? ≠ p2[k]?) :
    2 ^ (j - i) * (childDraws .uniform p1 p2 s (Intact p1 p2 i j)).ncard = 2 ^ (p1.length + 1) := by
  rw [childDraws_intact (by simp) hp s hij hj hd]
  obtain ⟨w, rfl⟩ := Nat.exists_eq_add_of_le hij
  rw [Nat.add_sub_cancel_left]
  clear hij hd
  induction w with
  | zero =>
    have : {t | Reduced (crossBounds .uniform p1.length) t ∧ ∀ k, i ≤ k → k ≤ i + 0 → fromFirst .uniform t k = fromFirst .uniform t i} =
        {t | Reduced (crossBounds .uniform p1.length) t} := by
      ext t
      refine ⟨fun h => h.1, fun h => ⟨h, fun k h1 h2 => ?_⟩⟩
      rw [show k = i by omega]
    rw [this, reduced_card]
    simp [crossBounds]
  | succ w ih =>
    rw [← ih (by omega), Nat.pow_succ, Nat.mul_assoc]
    congr 1
    have hm : (crossBounds .uniform p1.length)[i + (w + 1)]? = some 2 := by
      simp only [crossBounds]; rw [List.getElem?_replicate, if_pos (by omega)]
    have hflip : ∀ t, Reduced (crossBounds .uniform p1.length) t → fromFirst .uniform (flipAt (i + (w + 1)) t) (i + (w + 1)) = !fromFirst .uniform t (i + (w + 1)) := by
      intro t ht
      obtain ⟨hl, hb⟩ := reduced_bits ht
      have hlt : i + (w + 1) < t.length := by omega
      have := hb _ (List.getElem_mem hlt)
      simp only [fromFirst, flipAt, List.getD_eq_getElem?_getD, List.getElem?_set_self hlt, List.getElem?_eq_getElem hlt, Option.getD_some]
      rw [← decide_not, decide_eq_decide]
      omega
    have hother : ∀ t k, k ≠ i + (w + 1) → fromFirst .uniform (flipAt (i + (w + 1)) t) k = fromFirst .uniform t k := by
      intro t k hk
      simp only [fromFirst, flipAt, List.getD_eq_getElem?_getD, List.getElem?_set_ne (Ne.symm hk)]
    rw [← half_of_flip' hm (P := fun t => fromFirst .uniform t (i + (w + 1)) = fromFirst .uniform t i)
      (Q := fun t => ∀ k, i ≤ k → k ≤ i + w → fromFirst .uniform t k = fromFirst .uniform t i) (fun t ht => ?_) (fun t ht h k h1 h2 => ?_)]
    · congr 2
      ext t
      refine and_congr_right fun _ => ⟨fun h => ⟨fun k h1 h2 => h k h1 (by omega), h _ (by omega) le_rfl⟩, fun h k h1 h2 => ?_⟩
      by_cases hk : k = i + (w + 1)
      · rw [hk]; exact h.2
      · exact h.1 k h1 (by omega)
    · rw [hflip t ht, hother t i (by omega)]
      cases fromFirst .uniform t (i + (w + 1)) <;> cases fromFirst .uniform t i <;> decide
    · rw [hother t k (by omega), hother t i (by omega)]
      exact h k h1 h2

/-! ## example -/

/-- Parents of five genes that differ everywhere, and a child of each kind. -/
example : ([bit0, bit0, bit0, bit0, bit0] : List Val).length = ([bit1, bit1, bit1, bit1, bit1] : List Val).length ∧
    (∀ i : Nat, i < 5 → ([bit0, bit0, bit0, bit0, bit0] : List Val)[i]? ≠ ([bit1, bit1, bit1, bit1, bit1] : List Val)[i]?) ∧
    born .onePoint [bit0, bit0, bit0, bit0, bit0] [bit1, bit1, bit1, bit1, bit1] ({} : St ℚ) [1, 1] = some [bit1, bit1, bit0, bit0, bit0] ∧
    born .twoPoint [bit0, bit0, bit0, bit0, bit0] [bit1, bit1, bit1, bit1, bit1] ({} : St ℚ) [2, 0, 0] = some [bit0, bit1, bit1, bit0, bit0] ∧
    born .uniform [bit0, bit0, bit0, bit0, bit0] [bit1, bit1, bit1, bit1, bit1] ({} : St ℚ) [0, 1, 1, 0, 1, 0] = some [bit0, bit1, bit1, bit0, bit1] := by
  refine ⟨rfl, by decide +kernel, by decide +kernel, by decide +kernel, by decide +kernel⟩

/-- A block of three of the five genes: one-point crossover keeps it for 4 of the 8 draws, two-point crossover for 4 of 24. -/
example : (childDraws .onePoint [bit0, bit0, bit0, bit0, bit0] [bit1, bit1, bit1, bit1, bit1] ({} : St ℚ)
      (Intact [bit0, bit0, bit0, bit0, bit0] [bit1, bit1, bit1, bit1, bit1] 1 3)).ncard = 4 ∧
    (childDraws .twoPoint [bit0, bit0, bit0, bit0, bit0] [bit1, bit1, bit1, bit1, bit1] ({} : St ℚ)
      (Intact [bit0, bit0, bit0, bit0, bit0] [bit1, bit1, bit1, bit1, bit1] 1 3)).ncard = 4 := by
  have hd : ∀ k, k < 5 → ([bit0, bit0, bit0, bit0, bit0] : List Val)[k]? ≠ ([bit1, bit1, bit1, bit1, bit1] : List Val)[k]? := by decide +kernel
  constructor
  · rw [C129_block_one_point (by simp) _ (by simp) (by simp) fun k _ h => hd k (by omega)]
    simp
  · rw [C129_block_two_point (by simp) _ (by simp) (by simp) fun k _ h => hd k (by omega)]
    simp

end BaumEva
