import Verif.Proofs.Fill
import Mathlib.Data.List.Dedup
/-!
# Lemmas about sorting and duplicate detection
-/
namespace BaumEva
variable {σ α β : Type}

/-! ## read-only maps -/

theorem mapEach_reads {f : α → M σ β} {P : α → β → Prop} {s : St σ}
    (hf : ∀ x s' y, f x s = (.ok y, s') → s' = s ∧ P x y) :
    ∀ {l : List α} {s' : St σ} {ys : List β}, mapEach l f s = (.ok ys, s') → s' = s ∧ List.Forall₂ P l ys := by
  intro l
  induction l with
  | nil => intro s' ys h; obtain ⟨rfl, rfl⟩ := mapEach_nil_ok.mp h; exact ⟨rfl, .nil⟩
  | cons x xs ih =>
    intro s' ys h
    obtain ⟨y, ys', s1, h1, h2, rfl⟩ := mapEach_cons_ok.mp h
    obtain ⟨rfl, p1⟩ := hf _ _ _ h1
    obtain ⟨rfl, p2⟩ := ih h2
    exact ⟨rfl, .cons p1 p2⟩

theorem mapEach_run {f : α → M σ β} {g : α → β} {s : St σ} :
    ∀ {l : List α}, (∀ x ∈ l, f x s = (.ok (g x), s)) → mapEach l f s = (.ok (l.map g), s) := by
  intro l
  induction l with
  | nil => intro _; rfl
  | cons x xs ih =>
    intro h
    rw [mapEach, bind_of_ok (h x List.mem_cons_self),
      bind_of_ok (ih (fun y hy => h y (List.mem_cons_of_mem _ hy)))]
    rfl

/-! ## sortByKey -/

section
variable {κ : Type} [LinearOrder κ]

theorem sortByKey_perm (key : α → κ) (l : List α) : (sortByKey key l).Perm l :=
  List.perm_insertionSort _ l

theorem sortByKey_pairwise (key : α → κ) (l : List α) :
    (sortByKey key l).Pairwise (fun a b => key a ≤ key b) := by
  unfold sortByKey
  have : Std.Total (fun a b : α => key a ≤ key b) := ⟨fun a b => le_total _ _⟩
  have : IsTrans α (fun a b : α => key a ≤ key b) := ⟨fun a b c h1 h2 => le_trans h1 h2⟩
  exact List.pairwise_insertionSort _ l

theorem sortByKey_stable (key : α → κ) (l : List α) (v : κ) :
    (sortByKey key l).filter (fun a => key a = v) = l.filter (fun a => key a = v) := by
  have : Std.Total (fun a b : α => key a ≤ key b) := ⟨fun a b => le_total _ _⟩
  have : IsTrans α (fun a b : α => key a ≤ key b) := ⟨fun a b c h1 h2 => le_trans h1 h2⟩
  have hpw : (l.filter (fun a => key a = v)).Pairwise (fun a b => key a ≤ key b) := by
    rw [List.pairwise_filter]
    exact List.pairwise_of_forall (fun a b => by
      intro h1 h2
      have e1 : key a = v := by simpa using h1
      have e2 : key b = v := by simpa using h2
      rw [e1, e2])
  have hsub := List.sublist_insertionSort hpw (List.filter_sublist (l := l) (p := fun a => decide (key a = v)))
  have h2 := hsub.filter (fun a => decide (key a = v))
  rw [List.filter_filter] at h2
  simp only [Bool.and_self] at h2
  refine (h2.eq_of_length ?_).symm
  exact ((sortByKey_perm key l).filter _).length_eq.symm

theorem sortByKey_of_pairwise (key : α → κ) {l : List α} (h : l.Pairwise (fun a b => key a ≤ key b)) :
    sortByKey key l = l := h.insertionSort_eq

end

/-! ## sort_by_dict -/

theorem scoreOf_ok {r : Nat} {s s' : St σ} {v : σ} :
    scoreOf r s = (.ok v, s') ↔ (s.heap r).score = some v ∧ s' = s := by
  unfold scoreOf
  cases (s.heap r).score <;> simp [eq_comm]

theorem scoreOf_run {r : Nat} {s : St σ} {v : σ} (h : (s.heap r).score = some v) :
    scoreOf r s = (.ok v, s) := scoreOf_ok.mpr ⟨h, rfl⟩

theorem rankOf_ok {r : Nat} {s s' : St σ} {v : ℚ} :
    rankOf r s = (.ok v, s') ↔ (s.heap r).rank = some (.sc v) ∧ s' = s := by
  unfold rankOf
  split
  · rename_i q hq; rw [hq]; simp [eq_comm]
  · rename_i hq
    constructor
    · intro h; simp at h
    · rintro ⟨h, _⟩; exact (hq v h).elim

/-- Order, stability and completeness of a sort of references by a key read from the heap. -/
structure SortedBy {κ : Type} [LinearOrder κ] (key : Nat → Option κ) (old new : List Nat) : Prop where
  keyed : ∀ r ∈ old, ∃ v, key r = some v
  perm : new.Perm old
  sorted : new.Pairwise (fun a b => ∀ va vb, key a = some va → key b = some vb → va ≤ vb)
  stable : ∀ v, new.filter (fun r => key r = some v) = old.filter (fun r => key r = some v)

theorem sortedBy_of_keyed {κ : Type} [LinearOrder κ] {key : Nat → Option κ} {old : List Nat}
    {keyed : List (κ × Nat)}
    (h : List.Forall₂ (fun r (p : κ × Nat) => key r = some p.1 ∧ p.2 = r) old keyed) :
    SortedBy key old ((sortByKey (fun p : κ × Nat => p.1) keyed).map Prod.snd) := by
  have hold : old = keyed.map Prod.snd := by
    induction h with
    | nil => rfl
    | cons h _ ih => rw [List.map_cons, ← ih, h.2]
  have hk : ∀ p ∈ keyed, key p.2 = some p.1 := by
    clear hold
    induction h with
    | nil => simp
    | cons h _ ih =>
      intro p hp
      rcases List.mem_cons.mp hp with rfl | hp
      · rw [h.2]; exact h.1
      · exact ih p hp
  have hperm := sortByKey_perm (fun p : κ × Nat => p.1) keyed
  refine ⟨?_, ?_, ?_, ?_⟩
  · intro r hr
    rw [hold] at hr
    obtain ⟨p, hp, rfl⟩ := List.mem_map.mp hr
    exact ⟨p.1, hk p hp⟩
  · rw [hold]; exact hperm.map _
  · rw [List.pairwise_map]
    refine (sortByKey_pairwise (fun p : κ × Nat => p.1) keyed).imp_of_mem ?_
    intro a b ha hb hab va vb h1 h2
    rw [hk a (hperm.subset ha)] at h1
    rw [hk b (hperm.subset hb)] at h2
    injection h1 with h1
    injection h2 with h2
    rw [← h1, ← h2]; exact hab
  · intro v
    have hst := sortByKey_stable (fun p : κ × Nat => p.1) keyed v
    have conv : ∀ l : List (κ × Nat), (∀ p ∈ l, p ∈ keyed) →
        (l.map Prod.snd).filter (fun r => key r = some v) = (l.filter (fun p => p.1 = v)).map Prod.snd := by
      intro l hl
      rw [List.filter_map]
      congr 1
      apply List.filter_congr
      intro p hp
      simp [hk p (hl p hp)]
    rw [hold, conv _ (fun p hp => hperm.subset hp), conv keyed (fun _ h => h), hst]

theorem sortByScore_ok [LinearOrder σ] {s s' : St σ} {u : Unit} (h : sortByScore s = (.ok u, s')) :
    ∃ pop, SortedBy (fun r => (s.heap r).score) s.ga.population pop ∧
      s' = { s with ga := { s.ga with population := pop, attrs := { s.ga.attrs with isSorted := true } } } := by
  unfold sortByScore at h
  rw [bind_of_ok (getGa_run s)] at h
  obtain ⟨keyed, s1, h1, h2⟩ := bind_ok.mp h
  obtain ⟨rfl, hf⟩ := mapEach_reads (P := fun r (p : σ × Nat) => (s.heap r).score = some p.1 ∧ p.2 = r) (by
    intro r s' y hy
    obtain ⟨v, s2, e1, e2⟩ := bind_ok.mp hy
    obtain ⟨e3, rfl⟩ := scoreOf_ok.mp e1
    obtain ⟨rfl, rfl⟩ := pure_ok.mp e2
    exact ⟨rfl, e3, rfl⟩) h1
  rw [modGa_ok] at h2
  exact ⟨_, sortedBy_of_keyed hf, h2⟩

theorem sortByScore_succeeds [LinearOrder σ] {s : St σ} (h : ∀ r ∈ s.ga.population, (s.heap r).score.isSome) :
    ∃ s', sortByScore s = (.ok (), s') := by
  have hm : mapEach s.ga.population (fun r => do let v ← scoreOf r; pure (v, r)) s =
      (.ok (s.ga.population.attach.map fun r => ((s.heap r.1).score.get (h r.1 r.2), r.1)), s) := by
    generalize s.ga.population = l at h
    induction l with
    | nil => rfl
    | cons r rs ih =>
      rw [mapEach]
      have e := scoreOf_run (s := s) (r := r) (v := (s.heap r).score.get (h r List.mem_cons_self)) (by simp)
      rw [bind_of_ok (by rw [bind_of_ok e]; rfl), bind_of_ok (ih (fun x hx => h x (List.mem_cons_of_mem _ hx)))]
      rw [pure_run]
      simp [List.attach_cons]
  unfold sortByScore
  rw [bind_of_ok (getGa_run s), bind_of_ok hm]
  exact ⟨_, rfl⟩

theorem sortByRank_ok {s s' : St σ} {u : Unit} (h : sortByRank s = (.ok u, s')) :
    ∃ pop, SortedBy (fun r => match (s.heap r).rank with | some (.sc q) => some q | _ => none)
        s.ga.population pop ∧ s' = { s with ga := { s.ga with population := pop } } := by
  unfold sortByRank at h
  rw [bind_of_ok (getGa_run s)] at h
  obtain ⟨keyed, s1, h1, h2⟩ := bind_ok.mp h
  obtain ⟨rfl, hf⟩ := mapEach_reads (P := fun r (p : ℚ × Nat) =>
      (match (s.heap r).rank with | some (.sc q) => some q | _ => none) = some p.1 ∧ p.2 = r) (by
    intro r s' y hy
    obtain ⟨v, s2, e1, e2⟩ := bind_ok.mp hy
    obtain ⟨e3, rfl⟩ := rankOf_ok.mp e1
    obtain ⟨rfl, rfl⟩ := pure_ok.mp e2
    exact ⟨rfl, by rw [e3], rfl⟩) h1
  rw [modGa_ok] at h2
  exact ⟨_, sortedBy_of_keyed hf, h2⟩

/-! ## is_duplicate -/

theorem dedup_length_lt [DecidableEq α] {l : List α} : l.dedup.length < l.length ↔ ¬ l.Nodup := by
  have hle := (List.dedup_sublist l).length_le
  constructor
  · intro h hn
    rw [List.dedup_eq_self.mpr hn] at h
    omega
  · intro hn
    rcases Nat.lt_or_ge l.dedup.length l.length with h | h
    · exact h
    · exact absurd (List.dedup_eq_self.mp ((List.dedup_sublist l).eq_of_length_le h)) hn

theorem isDuplicate_ok {rs : List Nat} {s s' : St σ} {b : Bool} (h : isDuplicate rs s = (.ok b, s')) :
    s' = s ∧ (∀ r ∈ rs, (s.heap r).genotype.isSome) ∧
    (b = true ↔ ¬ (rs.map fun r => (s.heap r).genotype).Nodup) := by
  unfold isDuplicate at h
  obtain ⟨gs, s1, h1, h2⟩ := bind_ok.mp h
  obtain ⟨rfl, hf⟩ := mapEach_reads (P := fun r g => (s.heap r).genotype = some g) (by
    intro r s' y hy
    obtain ⟨e, rfl⟩ := genoOf_ok.mp hy
    exact ⟨rfl, e⟩) h1
  obtain ⟨rfl, rfl⟩ := pure_ok.mp h2
  have hmap : rs.map (fun r => (s'.heap r).genotype) = gs.map some := by
    clear h h1 h2
    induction hf with
    | nil => rfl
    | cons e _ ih => rw [List.map_cons, List.map_cons, ih, e]
  refine ⟨rfl, ?_, ?_⟩
  · intro r hr
    have : (s'.heap r).genotype ∈ gs.map some := by rw [← hmap]; exact List.mem_map_of_mem hr
    obtain ⟨g, _, e⟩ := List.mem_map.mp this
    rw [← e]; rfl
  · rw [hmap, decide_eq_true_iff, hf.length_eq, dedup_length_lt, List.nodup_map_iff (Option.some_injective _)]

end BaumEva
