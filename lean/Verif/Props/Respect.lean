import Verif.Props.Resume
/-!
# C122: crossover of equal parents
-/
namespace BaumEva
open BaumEva.Spec

/-- What one expects of a crossover: two equal parents have only children equal to them. -/
def KeepsEqual (σ : Type) (op : CrossOp) : Prop := ∀ p g : List Val, CrossResult σ op p.length p p g → g = p

/-- More generally: what both parents have at a position, the child has at this position. -/
def KeepsCommon (σ : Type) (op : CrossOp) : Prop :=
  ∀ (p1 p2 g : List Val) (i : Nat), p1.length = p2.length → CrossResult σ op p1.length p1 p2 g → p1[i]? = p2[i]? → g[i]? = p1[i]?

/-- C122 for one-point, two-point and uniform crossover. -/
theorem C122_common {σ : Type} {op : CrossOp} (hop : Positional op) : KeepsCommon σ op := by
  intro p1 p2 g i hl h hi
  obtain ⟨h1, h2⟩ := positional_child hop rfl hl.symm h
  by_cases hlt : i < p1.length
  · rcases h2 i hlt with e | e
    · exact e
    · rw [e, hi]
  · rw [List.getElem?_eq_none (by omega), List.getElem?_eq_none (by omega)]

/-- C122 for one-point, two-point and uniform crossover: equal parents. -/
theorem C122_equal {σ : Type} {op : CrossOp} (hop : Positional op) : KeepsEqual σ op := by
  intro p g h
  exact List.ext_getElem? fun i => C122_common hop p p g i rfl h rfl

/-- The gene right after the segment is the first gene of the other parent, if the own segment does not have it. -/
theorem orderChild_after {L c d : Nat} {own other child : List Val} (h : OrderChildOf L c d own other child) (hc : c < d) (hd : d + 1 ≤ L)
    {x : Val} {rest : List Val} (ho : other = x :: rest) (hx : ∀ i : Nat, c ≤ i → i < d → own[i]? ≠ some x) : child[d]? = some x := by
  have h1 := h.first 0 (by omega)
  rw [ho, List.filter_cons_of_pos (by simpa using hx), List.getElem?_append_left (by rw [List.length_drop, h.length]; omega), List.getElem?_drop] at h1
  simpa using h1

/-- C122 is false for `OrderCrossover` in the strongest way: no child of two equal parents without repetitions is equal to them. -/
theorem C122_order_changes {σ : Type} {p g : List Val} (hn : p.Nodup) (h : CrossResult σ .order p.length p p g) : g ≠ p := by
  obtain ⟨s, s', cs, hc, hcs⟩ := h
  obtain ⟨c, d, a, b, e, o1, o2⟩ := C17_order rfl rfl hn hn hc
  have ho : OrderChildOf p.length c d p p g := by rcases hcs with rfl | rfl <;> assumption
  rintro rfl
  cases g with
  | nil => simp at e
  | cons x rest =>
    have hne : ∀ i : Nat, 1 ≤ i → (x :: rest)[i]? ≠ some x := by
      intro i hi hx
      obtain ⟨hl, hx⟩ := List.getElem?_eq_some_iff.mp hx
      have := (List.Nodup.getElem_inj_iff hn (hi := hl) (hj := Nat.succ_pos _)).mp (by simpa using hx)
      omega
    exact hne d (by omega) (orderChild_after ho b e rfl fun i hi _ => hne i (by omega))

/-- It still has the same genes. -/
theorem C122_order_genes {σ : Type} {p g : List Val} (hn : p.Nodup) (h : CrossResult σ .order p.length p p g) : g.Perm p := by
  obtain ⟨s, s', cs, hc, hcs⟩ := h
  obtain ⟨e1, e2⟩ := C17_order_permutation rfl hn (List.Perm.refl p) hc
  rcases hcs with rfl | rfl <;> assumption

/-- The individuals of a population all have the genotype `p`. -/
def Converged {σ : Type} (s : St σ) (p : List Val) : Prop :=
  ∀ r ∈ s.ga.population, (s.heap r).genotype = some p

/-- The children made of a converged population are made of two equal parents. -/
theorem converged_children {σ : Type} {op : CrossOp} {s s' : St σ} {u : Unit} {p : List Val} (hc : Converged s p)
    (hp : ∀ r ∈ s.ga.parents, r ∈ s.ga.population ∧ r < s.next) (h : crossExec op s = (.ok u, s')) :
    2 * s'.ga.children.length = s.ga.parents.length ∧
      ∀ r ∈ s'.ga.children, ∃ g, (s'.heap r).genotype = some g ∧ CrossResult σ op p.length p p g := by
  obtain ⟨r0, g0, h0, hg0, s1, gs, ⟨t, hd⟩, h1, hb, hl, hr⟩ := crossExec_ok h fun r hr => (hp r hr).2
  have e0 : g0 = p := by
    have := hc r0 (List.mem_of_head? h0)
    rw [hg0] at this
    exact Option.some.inj this
  have hch : s'.ga.children = List.range' s1.next gs.length := by rw [hb.ga, h1]; rfl
  refine ⟨by rw [hch, List.length_range', hl], ?_⟩
  intro r hm
  rw [hch, List.mem_range'_1] at hm
  obtain ⟨i, hi⟩ := Nat.exists_eq_add_of_le hm.1
  have hlt : i < gs.length := by omega
  have hgi : gs[i]? = some gs[i] := List.getElem?_eq_getElem hlt
  obtain ⟨a, b, p1, p2, f1, f2, f3, f4, f5⟩ := hr i _ hgi
  have ga := hc a (hp a (List.mem_of_getElem? f1)).1
  have gb := hc b (hp b (List.mem_of_getElem? f2)).1
  rw [f3] at ga
  rw [f4] at gb
  cases ga
  cases gb
  subst e0
  exact ⟨gs[i], by rw [hi, hb.new i _ hgi], f5⟩

/-- C122 for a whole generation: `execute` of one-point, two-point or uniform crossover keeps a converged population converged ... -/
theorem C122_converged {σ : Type} {op : CrossOp} (hop : Positional op) {s s' : St σ} {u : Unit} {p : List Val} (hc : Converged s p)
    (hp : ∀ r ∈ s.ga.parents, r ∈ s.ga.population ∧ r < s.next) (h : crossExec op s = (.ok u, s')) :
    ∀ r ∈ s'.ga.children, (s'.heap r).genotype = some p := by
  intro r hr
  obtain ⟨g, e1, e2⟩ := (converged_children hc hp h).2 r hr
  rw [e1, C122_equal hop p g e2]

/-- ... and `execute` of `OrderCrossover` replaces every single arrangement of it by another one. -/
theorem C122_order_converged {σ : Type} {s s' : St σ} {u : Unit} {p : List Val} (hn : p.Nodup) (hc : Converged s p)
    (hp : ∀ r ∈ s.ga.parents, r ∈ s.ga.population ∧ r < s.next) (h : crossExec .order s = (.ok u, s')) :
    ∀ r ∈ s'.ga.children, ∃ g, (s'.heap r).genotype = some g ∧ g.Perm p ∧ g ≠ p := by
  intro r hr
  obtain ⟨g, e1, e2⟩ := (converged_children hc hp h).2 r hr
  exact ⟨g, e1, C122_order_genes hn e2, C122_order_changes hn e2⟩

/-- Two equal parents `0, 1, 2` under each crossover: `OrderCrossover` makes `2, 1, 0` of them. -/
def exTwin : List Val := [.num 0, .num 1, .num 2]

theorem exTwin_order : CrossResult ℚ .order exTwin.length exTwin exTwin [.num 2, .num 1, .num 0] := by
  refine ⟨exOrderState, (crossGeno .order 3 exTwin exTwin exOrderState).2, ([.num 2, .num 1, .num 0], [.num 2, .num 1, .num 0]), ?_, .inl rfl⟩
  exact Prod.ext (by decide +kernel) rfl

example : CrossResult ℚ .onePoint exTwin.length exTwin exTwin exTwin :=
  ⟨exOrderState, (crossGeno .onePoint 3 exTwin exTwin exOrderState).2, (exTwin, exTwin), Prod.ext (by decide +kernel) rfl, .inl rfl⟩

/-- A converged population of two individuals, both of which are parents. -/
def exConverged : St ℚ :=
  { tape := [0, 0, 0], next := 2, heap := fun _ => { genotype := some exTwin }, ga := { population := [0, 1], parents := [0, 1] } }

example : Converged exConverged exTwin ∧ (∀ r ∈ exConverged.ga.parents, r ∈ exConverged.ga.population ∧ r < exConverged.next) ∧
    (crossExec .order exConverged).1 = .ok () ∧ (crossExec .order exConverged).2.ga.children = [2] ∧
    ((crossExec .order exConverged).2.heap 2).genotype = some [.num 2, .num 1, .num 0] ∧
    (crossExec .twoPoint exConverged).1 = .ok () ∧ ((crossExec .twoPoint exConverged).2.heap 2).genotype = some exTwin :=
  ⟨fun _ _ => rfl, by decide, by decide +kernel, by decide +kernel, by decide +kernel, by decide +kernel, by decide +kernel⟩

/-- C122 does not hold for `OrderCrossover`. -/
theorem C122_order_refuted : ¬ KeepsEqual ℚ .order := fun h => by
  have := h _ _ exTwin_order
  revert this
  decide

/-- C122: nor does it keep what both parents have at a position. -/
theorem C122_order_common_refuted : ¬ KeepsCommon ℚ .order := fun h =>
  C122_order_refuted fun p g hp => List.ext_getElem? fun i => h p p g i rfl hp rfl
end BaumEva
