import Verif.Props.Linkage
/-!
# C132: which rearrangements a mutation makes how often

`SwapMutation`, `InversionMutation` and `MovementMutation` draw two different positions.  Counted are the equally likely draws that give a certain
genotype.
-/
namespace BaumEva
open Spec

variable {σ : Type}

/-! ## What is counted -/

/-- The draws of two positions out of `n` for which the mutation answers `g'`. -/
def mutationDraws (op : MutOp) (g : List Val) (s : St σ) (g' : List Val) : Set (List Nat) :=
  {t | Reduced [g.length, g.length - 1] t ∧ ∃ s', mutateComb op g { s with tape := t } = (.ok g', s')}

/-- Two neighbouring genes have changed places, nothing else has changed. -/
def NeighboursExchanged (g g' : List Val) : Prop :=
  ∃ k : Nat, k + 1 < g.length ∧ g'[k]? = g[k + 1]? ∧ g'[k + 1]? = g[k]? ∧ ∀ l : Nat, l ≠ k → l ≠ k + 1 → g'[l]? = g[l]?

/-! ## Draws and pairs of positions -/

theorem sample_pair {n x y : Nat} {t : List Nat} (s : St σ) (hx : x < n) (hy : y < n - 1) :
    sample (List.range n) 2 { s with tape := x :: y :: t } = (.ok [x, otherCut x y], { s with tape := t }) := by
  unfold sample
  rw [ite_run, if_neg (by rw [List.length_range]; omega)]
  show sampleAux 2 _ _ = _
  rw [sampleAux, bind_of_ok (draw_ok.mpr ⟨y :: t, rfl, rfl⟩), List.length_range, Nat.mod_eq_of_lt hx, List.getElem?_range hx]
  simp only []
  have h2 : sampleAux 1 ((List.range n).eraseIdx x) { s with tape := y :: t } = (.ok [otherCut x y], { s with tape := t }) := by
    rw [sampleAux, bind_of_ok (draw_ok.mpr ⟨t, rfl, rfl⟩), List.length_eraseIdx, List.length_range, if_pos hx, Nat.mod_eq_of_lt hy]
    have : ((List.range n).eraseIdx x)[y]? = some (otherCut x y) := by
      rw [List.getElem?_eraseIdx]
      unfold otherCut
      split
      · exact List.getElem?_range (by omega)
      · exact List.getElem?_range (by omega)
    rw [this]
    rfl
  rw [bind_of_ok h2, pure_run]

/-- What the three mutations make of two positions. -/
def rearranged (op : MutOp) (i j : Nat) (g : List Val) : List Val :=
  match op with
  | .inversion => inversion (min i j) (max i j) g
  | .movement => movement i j g
  | .swap => swapGenes i j g
  | _ => g

/-- The mutations that draw two positions. -/
def TwoPositions (op : MutOp) : Prop := op = .inversion ∨ op = .movement ∨ op = .swap

theorem mutateComb_pair {op : MutOp} (hop : TwoPositions op) {g : List Val} {x y : Nat} {t : List Nat} (s : St σ) (hx : x < g.length) (hy : y < g.length - 1) :
    mutateComb op g { s with tape := x :: y :: t } = (.ok (rearranged op x (otherCut x y) g), { s with tape := t }) := by
  have hs := sample_pair (t := t) s hx hy
  rcases hop with rfl | rfl | rfl
  · rw [mutateComb]
    have : segmentPoints 0 g.length { s with tape := x :: y :: t } = (.ok (min x (otherCut x y), max x (otherCut x y)), { s with tape := t }) := by
      unfold segmentPoints
      rw [List.drop_zero, bind_of_ok hs]
      rfl
    rw [bind_of_ok this]
    rfl
  · rw [mutateComb, bind_of_ok hs]
    rfl
  · rw [mutateComb, bind_of_ok hs]
    rfl

/-- Counting draws is counting ordered pairs of different positions. -/
theorem pair_card' {op : MutOp} (hop : TwoPositions op) (g : List Val) (P : List Val → Prop) (s : St σ) (S : Finset (Nat × Nat))
    (hS : ∀ i j, (i, j) ∈ S ↔ i ≠ j ∧ i < g.length ∧ j < g.length ∧ P (rearranged op i j g)) :
    {t | Reduced [g.length, g.length - 1] t ∧ ∃ g' s', mutateComb op g { s with tape := t } = (.ok g', s') ∧ P g'}.ncard = S.card := by
  let f : Nat × Nat → List Nat := fun p => [p.1, if p.2 < p.1 then p.2 else p.2 - 1]
  have : {t | Reduced [g.length, g.length - 1] t ∧ ∃ g' s', mutateComb op g { s with tape := t } = (.ok g', s') ∧ P g'} = f '' (↑S : Set (Nat × Nat)) := by
    ext t
    simp only [Set.mem_ofPred_eq, Set.mem_image, Finset.mem_coe, Prod.exists]
    constructor
    · rintro ⟨ht, g', s', h, hP⟩
      cases ht with
      | cons h1 h2 => cases h2 with
        | cons h2 h3 =>
          cases h3
          rename_i x y
          rw [mutateComb_pair hop s h1 h2] at h
          simp only [Prod.mk.injEq, Except.ok.injEq] at h
          refine ⟨x, otherCut x y, (hS _ _).mpr ⟨?_, h1, ?_, by rw [h.1]; exact hP⟩, ?_⟩
          · unfold otherCut; split <;> omega
          · unfold otherCut; split <;> omega
          · simp only [f, otherCut]
            congr 2
            split <;> simp_all
            omega
    · rintro ⟨i, j, h, rfl⟩
      obtain ⟨h1, h2, h3, h4⟩ := (hS _ _).mp h
      have hlt : (if j < i then j else j - 1) < g.length - 1 := by split <;> omega
      have hc : otherCut i (if j < i then j else j - 1) = j := by
        unfold otherCut
        by_cases hji : j < i
        · rw [if_pos hji, if_pos hji]
        · rw [if_neg hji, if_neg (by omega)]; omega
      refine ⟨.cons h2 (.cons hlt .nil), _, { s with tape := [] }, ?_, h4⟩
      show mutateComb op g { s with tape := [i, if j < i then j else j - 1] } = _
      rw [mutateComb_pair hop s h2 hlt, hc]
  rw [this, Set.InjOn.ncard_image ?_, Set.ncard_coe_finset]
  rintro ⟨i, j⟩ h1 ⟨i', j'⟩ h2 h
  have e1 := ((hS _ _).mp h1).1
  have e2 := ((hS _ _).mp h2).1
  simp only [f, List.cons.injEq, and_true] at h
  obtain ⟨rfl, h⟩ := h
  have : j = j' := by split at h <;> split at h <;> omega
  rw [this]

theorem pair_card {op : MutOp} (hop : TwoPositions op) (g g' : List Val) (s : St σ) (S : Finset (Nat × Nat))
    (hS : ∀ i j, (i, j) ∈ S ↔ i ≠ j ∧ i < g.length ∧ j < g.length ∧ rearranged op i j g = g') : (mutationDraws op g s g').ncard = S.card := by
  rw [← pair_card' hop g (· = g') s S hS]
  congr 1
  ext t
  refine and_congr_right fun _ => ⟨fun ⟨s', h⟩ => ⟨g', s', h, rfl⟩, ?_⟩
  rintro ⟨_, s', h, rfl⟩
  exact ⟨s', h⟩

/-- The result comes from some pair. -/
theorem mutateComb_from {op : MutOp} (hop : TwoPositions op) {g g' : List Val} {s s' : St σ} (h : mutateComb op g s = (.ok g', s')) :
    ∃ i j, i ≠ j ∧ i < g.length ∧ j < g.length ∧ rearranged op i j g = g' := by
  rcases hop with rfl | rfl | rfl
  · obtain ⟨i, j, h1, h2, rfl, _⟩ := mutateComb_inversion h
    exact ⟨i, j, by omega, by omega, h2, by simp only [rearranged]; rw [Nat.min_eq_left h1.le, Nat.max_eq_right h1.le]⟩
  · obtain ⟨i, j, h1, h2, h3, rfl, _⟩ := mutateComb_movement h
    exact ⟨i, j, h1, h2, h3, rfl⟩
  · obtain ⟨i, j, h1, h2, h3, rfl, _⟩ := mutateComb_swap h
    exact ⟨i, j, h1, h2, h3, rfl⟩

/-! ## Which pairs give the same genotype -/

theorem same_swap {g : List Val} (hn : g.Nodup) {i j a b : Nat} (hij : i ≠ j) (hi : i < g.length) (hj : j < g.length) (hab : a ≠ b) (ha : a < g.length)
    (hb : b < g.length) (h : swapGenes a b g = swapGenes i j g) : (a = i ∧ b = j) ∨ (a = j ∧ b = i) := by
  have key : ∀ k : Nat, (swapGenes a b g)[k]? = (swapGenes i j g)[k]? := fun k => by rw [h]
  have h1 := key i
  have h2 := key j
  rw [swap_get ha hb, swap_get hi hj] at h1 h2
  have ni := nodup_get hn hi hj hij
  have nj := nodup_get hn hj hi (Ne.symm hij)
  rw [if_neg hij, if_pos rfl] at h1
  rw [if_pos rfl] at h2
  by_cases e1 : i = b
  · subst e1
    by_cases e2 : j = a
    · exact .inr ⟨e2.symm, rfl⟩
    · rw [if_neg (Ne.symm hij), if_neg e2] at h2
      exact absurd h2 nj
  · rw [if_neg e1] at h1
    by_cases e2 : i = a
    · subst e2
      by_cases e3 : j = b
      · exact .inl ⟨rfl, e3.symm⟩
      · rw [if_neg e3, if_neg (Ne.symm hij)] at h2
        exact absurd h2 nj
    · rw [if_neg e2] at h1
      exact absurd h1 ni

theorem same_inversion {g : List Val} (hn : g.Nodup) {i j a b : Nat} (hij : i < j) (hj : j < g.length) (hab : a < b) (hb : b < g.length)
    (h : inversion a b g = inversion i j g) : a = i ∧ b = j := by
  have key : ∀ k : Nat, (inversion a b g)[k]? = (inversion i j g)[k]? := fun k => by rw [h]
  have inside : ∀ {i j a b : Nat}, i < j → j < g.length → a < b → b < g.length → (∀ k : Nat, (inversion a b g)[k]? = (inversion i j g)[k]?) → a ≤ i ∧ j ≤ b := by
    intro i j a b hij hj hab hb key
    have h1 := key i
    have h2 := key j
    rw [inversion_get hab.le hb, inversion_get hij.le hj, if_pos (show i ≤ i ∧ i ≤ j by omega), show i + j - i = j by omega] at h1
    rw [inversion_get hab.le hb, inversion_get hij.le hj, if_pos (show i ≤ j ∧ j ≤ j by omega), show i + j - j = i by omega] at h2
    constructor
    · by_contra hc
      rw [if_neg (by omega)] at h1
      exact nodup_get hn (by omega) hj (by omega) h1
    · by_contra hc
      rw [if_neg (by omega)] at h2
      exact nodup_get hn hj (by omega) (by omega) h2
  have h1 := inside hij hj hab hb key
  have h2 := inside hab hb hij hj fun k => (key k).symm
  omega

theorem movement_get {g : List Val} {i j : Nat} (hi : i < g.length) (hj : j < g.length) (k : Nat) :
    (movement i j g)[k]? = if k = j then g[i]? else if i ≤ k ∧ k < j then g[k + 1]? else if j < k ∧ k ≤ i then g[k - 1]? else g[k]? := by
  unfold movement
  rw [List.getElem?_eq_getElem hi]
  simp only
  have hl : (g.eraseIdx i).length = g.length - 1 := by rw [List.length_eraseIdx, if_pos hi]
  rw [List.getElem?_insertIdx]
  rcases lt_trichotomy k j with h | h | h
  · rw [if_pos h, if_neg (show ¬ k = j by omega), List.getElem?_eraseIdx]
    by_cases hk : k < i
    · rw [if_pos hk, if_neg (by omega), if_neg (by omega)]
    · rw [if_neg hk, if_pos (by omega)]
  · subst h
    rw [if_neg (by omega), if_pos rfl, if_pos (by omega), if_pos rfl]
  · rw [if_neg (by omega), if_neg (by omega), if_neg (by omega), if_neg (by omega), List.getElem?_eraseIdx]
    by_cases hk : k - 1 < i
    · rw [if_pos hk, if_pos (by omega)]
    · rw [if_neg hk, if_neg (by omega), show k - 1 + 1 = k by omega]

theorem movement_ends {g : List Val} (hn : g.Nodup) {i j : Nat} (hij : i ≠ j) (hi : i < g.length) (hj : j < g.length) :
    (movement i j g)[i]? ≠ g[i]? ∧ (movement i j g)[j]? ≠ g[j]? ∧ ∀ k : Nat, (movement i j g)[k]? ≠ g[k]? → min i j ≤ k ∧ k ≤ max i j := by
  refine ⟨?_, ?_, fun k hk => ?_⟩
  · rw [movement_get hi hj, if_neg hij]
    by_cases h : i < j
    · rw [if_pos ⟨le_rfl, h⟩]
      exact nodup_get hn (by omega) hi (by omega)
    · rw [if_neg (by omega), if_pos (by omega)]
      exact nodup_get hn (by omega) hi (by omega)
  · rw [movement_get hi hj, if_pos rfl]
    exact nodup_get hn hi hj hij
  · by_contra hc
    rw [movement_get hi hj, if_neg (by omega), if_neg (by omega), if_neg (by omega)] at hk
    exact hk rfl

theorem same_movement {g : List Val} (hn : g.Nodup) {i j a b : Nat} (hij : i ≠ j) (hi : i < g.length) (hj : j < g.length) (hab : a ≠ b) (ha : a < g.length)
    (hb : b < g.length) (h : movement a b g = movement i j g) : (a = i ∧ b = j) ∨ (a = j ∧ b = i ∧ (i + 1 = j ∨ j + 1 = i)) := by
  obtain ⟨h1, h2, h3⟩ := movement_ends hn hij hi hj
  obtain ⟨k1, k2, k3⟩ := movement_ends hn hab ha hb
  rw [← h] at h1 h2 h3
  have a1 := k3 i h1
  have a2 := k3 j h2
  have a3 := h3 a k1
  have a4 := h3 b k2
  rcases (show (a = i ∧ b = j) ∨ (a = j ∧ b = i) by omega) with e | ⟨rfl, rfl⟩
  · exact .inl e
  · refine .inr ⟨rfl, rfl, ?_⟩
    have e1 : (movement a b g)[a]? = (movement b a g)[a]? := by rw [h]
    rw [movement_get ha hb, movement_get hb ha, if_neg hab, if_pos rfl] at e1
    by_contra hc
    by_cases hlt : a < b
    · rw [if_pos ⟨le_rfl, hlt⟩] at e1
      exact nodup_get hn (by omega) hb (by omega) e1
    · rw [if_neg (by omega), if_pos (by omega)] at e1
      exact nodup_get hn (by omega) hb (by omega) e1

theorem movement_back {g : List Val} {i j : Nat} (hi : i < g.length) (hj : j < g.length) (h : i + 1 = j ∨ j + 1 = i) : movement j i g = movement i j g := by
  apply List.ext_getElem?
  intro k
  rw [movement_get hi hj, movement_get hj hi]
  rcases h with rfl | rfl
  · by_cases e1 : k = i
    · subst e1
      rw [if_pos rfl, if_neg (by omega), if_pos (by omega)]
    · by_cases e2 : k = i + 1
      · subst e2
        rw [if_neg (by omega), if_neg (by omega), if_pos (by omega), if_pos rfl, Nat.add_sub_cancel]
      · rw [if_neg (by omega), if_neg (by omega), if_neg (by omega), if_neg (by omega), if_neg (by omega), if_neg (by omega)]
  · by_cases e1 : k = j
    · subst e1
      rw [if_neg (by omega), if_pos (by omega), if_pos rfl]
    · by_cases e2 : k = j + 1
      · subst e2
        rw [if_pos rfl, if_neg (by omega), if_neg (by omega), if_pos (by omega), Nat.add_sub_cancel]
      · rw [if_neg (by omega), if_neg (by omega), if_neg (by omega), if_neg (by omega), if_neg (by omega), if_neg (by omega)]

theorem movement_exchange {g : List Val} (hn : g.Nodup) {i j : Nat} (hij : i ≠ j) (hi : i < g.length) (hj : j < g.length) :
    NeighboursExchanged g (movement i j g) ↔ (i + 1 = j ∨ j + 1 = i) := by
  have up : ∀ i : Nat, i + 1 < g.length → NeighboursExchanged g (movement i (i + 1) g) := by
    intro i hi
    refine ⟨i, hi, ?_, ?_, fun l h1 h2 => ?_⟩
    · rw [movement_get (by omega) hi, if_neg (by omega), if_pos (by omega)]
    · rw [movement_get (by omega) hi, if_pos rfl]
    · rw [movement_get (by omega) hi, if_neg h2, if_neg (by omega), if_neg (by omega)]
  constructor
  · rintro ⟨k, hk, _, _, h⟩
    obtain ⟨h1, h2, _⟩ := movement_ends hn hij hi hj
    have c1 : i = k ∨ i = k + 1 := by
      by_contra hc
      exact h1 (h i (by omega) (by omega))
    have c2 : j = k ∨ j = k + 1 := by
      by_contra hc
      exact h2 (h j (by omega) (by omega))
    omega
  · rintro (rfl | rfl)
    · exact up i hj
    · rw [← movement_back hi hj (.inr rfl)]
      exact up j hi

/-! ## The theorems -/

/-- C132: all exchanges of two genes are equally likely. -/
theorem C132_swap {g g' : List Val} (hn : g.Nodup) {s0 s0' : St σ} (h : mutateComb .swap g s0 = (.ok g', s0')) (s : St σ) :
    (mutationDraws .swap g s g').ncard = 2 := by
  obtain ⟨i, j, h1, h2, h3, h4⟩ := mutateComb_from (.inr (.inr rfl)) h
  rw [pair_card (.inr (.inr rfl)) g g' s {(i, j), (j, i)} fun a b => ?_, Finset.card_pair (by simp; omega)]
  simp only [Finset.mem_insert, Finset.mem_singleton, Prod.mk.injEq]
  constructor
  · rintro (⟨rfl, rfl⟩ | ⟨rfl, rfl⟩)
    · exact ⟨h1, h2, h3, h4⟩
    · refine ⟨Ne.symm h1, h3, h2, ?_⟩
      rw [← h4]
      apply List.ext_getElem?
      intro k
      show (swapGenes a b g)[k]? = (swapGenes b a g)[k]?
      rw [swap_get h3 h2, swap_get h2 h3]
      by_cases e1 : k = a
      · rw [if_neg (by omega), if_pos e1, if_pos e1]
      · by_cases e2 : k = b
        · rw [if_pos e2, if_neg e1, if_pos e2]
        · rw [if_neg e2, if_neg e1, if_neg e1, if_neg e2]
  · rintro ⟨c1, c2, c3, c4⟩
    exact same_swap hn h1 h2 h3 c1 c2 c3 (by rw [← h4] at c4; exact c4)

/-- C132: all reversals of a stretch are equally likely. -/
theorem C132_inversion {g g' : List Val} (hn : g.Nodup) {s0 s0' : St σ} (h : mutateComb .inversion g s0 = (.ok g', s0')) (s : St σ) :
    (mutationDraws .inversion g s g').ncard = 2 := by
  obtain ⟨i, j, h1, h2, h3, h4⟩ := mutateComb_from (.inl rfl) h
  rw [pair_card (.inl rfl) g g' s {(i, j), (j, i)} fun a b => ?_, Finset.card_pair (by simp; omega)]
  simp only [Finset.mem_insert, Finset.mem_singleton, Prod.mk.injEq]
  constructor
  · rintro (⟨rfl, rfl⟩ | ⟨rfl, rfl⟩)
    · exact ⟨h1, h2, h3, h4⟩
    · refine ⟨Ne.symm h1, h3, h2, ?_⟩
      rw [← h4]
      simp only [rearranged]
      rw [Nat.min_comm, Nat.max_comm]
  · rintro ⟨c1, c2, c3, c4⟩
    rw [← h4] at c4
    have := same_inversion hn (i := min i j) (j := max i j) (a := min a b) (b := max a b) (by omega) (by omega) (by omega) (by omega) c4
    omega

open Classical in
/-- C132: `MovementMutation` exchanges two neighbours twice as often as it makes any other move. -/
theorem C132_movement {g g' : List Val} (hn : g.Nodup) {s0 s0' : St σ} (h : mutateComb .movement g s0 = (.ok g', s0')) (s : St σ) :
    (mutationDraws .movement g s g').ncard = if NeighboursExchanged g g' then 2 else 1 := by
  obtain ⟨i, j, h1, h2, h3, h4⟩ := mutateComb_from (.inr (.inl rfl)) h
  have hnb : NeighboursExchanged g g' ↔ (i + 1 = j ∨ j + 1 = i) := by rw [← h4]; exact movement_exchange hn h1 h2 h3
  by_cases hc : i + 1 = j ∨ j + 1 = i
  · rw [if_pos (hnb.mpr hc), pair_card (.inr (.inl rfl)) g g' s {(i, j), (j, i)} fun a b => ?_, Finset.card_pair (by simp; omega)]
    simp only [Finset.mem_insert, Finset.mem_singleton, Prod.mk.injEq]
    constructor
    · rintro (⟨rfl, rfl⟩ | ⟨rfl, rfl⟩)
      · exact ⟨h1, h2, h3, h4⟩
      · exact ⟨Ne.symm h1, h3, h2, by rw [← h4]; exact movement_back h2 h3 hc⟩
    · rintro ⟨c1, c2, c3, c4⟩
      rcases same_movement hn h1 h2 h3 c1 c2 c3 (by rw [← h4] at c4; exact c4) with e | e
      · exact .inl e
      · exact .inr ⟨e.1, e.2.1⟩
  · rw [if_neg (fun h => hc (hnb.mp h)), pair_card (.inr (.inl rfl)) g g' s {(i, j)} fun a b => ?_, Finset.card_singleton]
    simp only [Finset.mem_singleton, Prod.mk.injEq]
    constructor
    · rintro ⟨rfl, rfl⟩
      exact ⟨h1, h2, h3, h4⟩
    · rintro ⟨c1, c2, c3, c4⟩
      rcases same_movement hn h1 h2 h3 c1 c2 c3 (by rw [← h4] at c4; exact c4) with e | e
      · exact e
      · exact absurd e.2.2 hc

/-- C132: the draws are `n (n - 1)`, and each of them gives a genotype. -/
theorem C132_draws {op : MutOp} (hop : TwoPositions op) (g : List Val) (s : St σ) :
    {t | Reduced [g.length, g.length - 1] t}.ncard = g.length * (g.length - 1) ∧
      ∀ t, Reduced [g.length, g.length - 1] t → ∃ g' s', mutateComb op g { s with tape := t } = (.ok g', s') := by
  refine ⟨by rw [reduced_card]; simp, fun t ht => ?_⟩
  cases ht with
  | cons h1 h2 => cases h2 with
    | cons h2 h3 =>
      cases h3
      exact ⟨_, _, mutateComb_pair hop s h1 h2⟩

/-- The genes at both positions change, whatever the mutation. -/
theorem rearranged_ends {op : MutOp} (hop : TwoPositions op) {g : List Val} (hn : g.Nodup) {i j : Nat} (hij : i ≠ j) (hi : i < g.length) (hj : j < g.length) :
    (rearranged op i j g)[i]? ≠ g[i]? ∧ (rearranged op i j g)[j]? ≠ g[j]? := by
  rcases hop with rfl | rfl | rfl
  · have key : ∀ k : Nat, k = i ∨ k = j → (inversion (min i j) (max i j) g)[k]? ≠ g[k]? := by
      intro k hk
      rw [inversion_get (by omega) (by omega), if_pos (by omega)]
      exact nodup_get hn (by omega) (by omega) (by omega)
    exact ⟨key i (.inl rfl), key j (.inr rfl)⟩
  · obtain ⟨h1, h2, _⟩ := movement_ends hn hij hi hj
    exact ⟨h1, h2⟩
  · constructor
    · show (swapGenes i j g)[i]? ≠ _
      rw [swap_get hi hj, if_neg hij, if_pos rfl]
      exact nodup_get hn hj hi (Ne.symm hij)
    · show (swapGenes i j g)[j]? ≠ _
      rw [swap_get hi hj, if_pos rfl]
      exact nodup_get hn hi hj hij

theorem rearranged_exchange {op : MutOp} (hop : TwoPositions op) {g : List Val} (hn : g.Nodup) {i j : Nat} (hij : i ≠ j) (hi : i < g.length) (hj : j < g.length) :
    NeighboursExchanged g (rearranged op i j g) ↔ (i + 1 = j ∨ j + 1 = i) := by
  constructor
  · rintro ⟨k, hk, _, _, h⟩
    obtain ⟨h1, h2⟩ := rearranged_ends hop hn hij hi hj
    have c1 : i = k ∨ i = k + 1 := by
      by_contra hc
      exact h1 (h i (by omega) (by omega))
    have c2 : j = k ∨ j = k + 1 := by
      by_contra hc
      exact h2 (h j (by omega) (by omega))
    omega
  · intro h
    rcases hop with rfl | rfl | rfl
    · refine ⟨min i j, by omega, ?_, ?_, fun l h1 h2 => ?_⟩ <;> simp only [rearranged] <;> rw [inversion_get (by omega) (by omega)]
      · rw [if_pos (by omega)]; congr 1; omega
      · rw [if_pos (by omega)]; congr 1; omega
      · rw [if_neg (by omega)]
    · exact (movement_exchange hn hij hi hj).mpr h
    · refine ⟨min i j, by omega, ?_, ?_, fun l h1 h2 => ?_⟩ <;> simp only [rearranged] <;> rw [swap_get hi hj]
      · rcases h with h | h
        · rw [if_neg (by omega), if_pos (by omega)]; congr 1; omega
        · rw [if_pos (by omega)]; congr 1; omega
      · rcases h with h | h
        · rw [if_pos (by omega)]; congr 1; omega
        · rw [if_neg (by omega), if_pos (by omega)]; congr 1; omega
      · rw [if_neg (by omega), if_neg (by omega)]

/-- C132: each of the three mutations exchanges two neighbours, and does nothing else, for `2 (n - 1)` of the `n (n - 1)` draws. -/
theorem C132_neighbours {op : MutOp} (hop : TwoPositions op) {g : List Val} (hn : g.Nodup) (s : St σ) :
    {t | Reduced [g.length, g.length - 1] t ∧ ∃ g' s', mutateComb op g { s with tape := t } = (.ok g', s') ∧ NeighboursExchanged g g'}.ncard = 2 * (g.length - 1) := by
  have hd : Disjoint ((Finset.range (g.length - 1)).image fun k => (k, k + 1)) ((Finset.range (g.length - 1)).image fun k => (k + 1, k)) := by
    rw [Finset.disjoint_left]
    intro x h1 h2
    obtain ⟨a, _, rfl⟩ := Finset.mem_image.mp h1
    obtain ⟨b, _, h⟩ := Finset.mem_image.mp h2
    simp only [Prod.mk.injEq] at h
    omega
  rw [pair_card' hop g _ s (((Finset.range (g.length - 1)).image fun k => (k, k + 1)) ∪ ((Finset.range (g.length - 1)).image fun k => (k + 1, k))) fun i j => ?_,
    Finset.card_union_of_disjoint hd, Finset.card_image_of_injective _ (fun a b h => by simpa using h), Finset.card_image_of_injective _ (fun a b h => by simpa using h),
    Finset.card_range, two_mul]
  simp only [Finset.mem_union, Finset.mem_image, Finset.mem_range, Prod.mk.injEq]
  constructor
  · rintro (⟨k, hk, rfl, rfl⟩ | ⟨k, hk, rfl, rfl⟩)
    · exact ⟨by omega, by omega, by omega, (rearranged_exchange hop hn (by omega) (by omega) (by omega)).mpr (.inl rfl)⟩
    · exact ⟨by omega, by omega, by omega, (rearranged_exchange hop hn (by omega) (by omega) (by omega)).mpr (.inr rfl)⟩
  · rintro ⟨h1, h2, h3, h4⟩
    rcases (rearranged_exchange hop hn h1 h2 h3).mp h4 with h | h
    · exact .inl ⟨i, by omega, rfl, h⟩
    · exact .inr ⟨j, by omega, h, rfl⟩

/-! ## example -/

/-- A track of four places: a movement to the neighbouring place, and one that is not. -/
example : ([.num 1, .num 2, .num 3, .num 4] : List Val).Nodup ∧
    (mutateComb .movement [.num 1, .num 2, .num 3, .num 4] ({ tape := [1, 1] } : St ℚ)).1.toOption = some [.num 1, .num 3, .num 2, .num 4] ∧
    (mutateComb .movement [.num 1, .num 2, .num 3, .num 4] ({ tape := [0, 2] } : St ℚ)).1.toOption = some [.num 2, .num 3, .num 4, .num 1] ∧
    (mutateComb .inversion [.num 1, .num 2, .num 3, .num 4] ({ tape := [0, 1] } : St ℚ)).1.toOption = some [.num 3, .num 2, .num 1, .num 4] ∧
    (mutateComb .swap [.num 1, .num 2, .num 3, .num 4] ({ tape := [0, 2] } : St ℚ)).1.toOption = some [.num 4, .num 2, .num 3, .num 1] := by
  refine ⟨by decide +kernel, by decide +kernel, by decide +kernel, by decide +kernel, by decide +kernel⟩

end BaumEva
