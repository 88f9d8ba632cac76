import Verif.Model.NewGeneration
import Verif.Proofs.Sort
/-!
# Forming the next generation
-/
namespace BaumEva
variable {σ : Type}

/-! ## deleting one duplicate -/

theorem delDupRev_sublist {α : Type} [DecidableEq α] : ∀ l : List (α × Nat), (delDupRev l).Sublist l := by
  intro l
  induction l with
  | nil => exact List.Sublist.refl _
  | cons x xs ih =>
    rw [delDupRev]
    split
    · exact List.Sublist.cons_cons _ List.eraseP_sublist
    · exact ih.cons_cons _

theorem delDupRev_head {α : Type} [DecidableEq α] : ∀ l : List (α × Nat), (delDupRev l).head? = l.head? := by
  intro l
  cases l with
  | nil => rfl
  | cons x xs => rw [delDupRev]; split <;> rfl

/-- Exactly one element is deleted if two have the same genotype. -/
theorem delDupRev_length {α : Type} [DecidableEq α] : ∀ l : List (α × Nat), ¬ (l.map Prod.fst).Nodup →
    (delDupRev l).length + 1 = l.length := by
  intro l
  induction l with
  | nil => intro h; exact absurd List.nodup_nil h
  | cons x xs ih =>
    intro h
    rw [delDupRev]
    split
    · rename_i ha
      rw [List.any_eq_true] at ha
      obtain ⟨y, hy, he⟩ := ha
      rw [List.length_cons, List.length_cons, List.length_eraseP_of_mem hy he]
      have := List.length_pos_of_mem hy
      omega
    · rename_i ha
      rw [List.map_cons, List.nodup_cons] at h
      have hx : x.1 ∉ xs.map Prod.fst := by
        intro hm
        obtain ⟨y, hy, he⟩ := List.mem_map.mp hm
        exact ha (List.any_eq_true.mpr ⟨y, hy, by simpa using he⟩)
      have := ih (fun hn => h ⟨hx, hn⟩)
      simp only [List.length_cons]
      omega

theorem withGeno_ok {rs : List Nat} {s s' : St σ} {l : List (List Val × Nat)} (h : withGeno rs s = (.ok l, s')) :
    s' = s ∧ l.map Prod.snd = rs ∧ l.map (fun p => some p.1) = rs.map (fun r => (s.heap r).genotype) := by
  unfold withGeno at h
  obtain ⟨rfl, hf⟩ := mapEach_reads (P := fun r (p : List Val × Nat) => (s.heap r).genotype = some p.1 ∧ p.2 = r) (by
    intro r s' y hy
    obtain ⟨g, s2, e1, e2⟩ := bind_ok.mp hy
    obtain ⟨e3, rfl⟩ := genoOf_ok.mp e1
    obtain ⟨rfl, rfl⟩ := pure_ok.mp e2
    exact ⟨rfl, e3, rfl⟩) h
  clear h
  refine ⟨rfl, ?_, ?_⟩
  · induction hf with
    | nil => rfl
    | cons h _ ih => simp [h.2, ih]
  · induction hf with
    | nil => rfl
    | cons h _ ih => simp [h.1, ih]

theorem lastN_sublist {α : Type} (l : List α) (k : Nat) : (lastN l k).Sublist l := List.drop_sublist _ _

theorem lastN_length {α : Type} (l : List α) (k : Nat) : (lastN l k).length = min k l.length := by
  unfold lastN; rw [List.length_drop]; omega

theorem lastN_getLast {α : Type} (l : List α) (k : Nat) : (lastN l (k + 1)).getLast? = l.getLast? := by
  unfold lastN
  rw [List.getLast?_drop]
  split
  · rename_i h
    have : l.length = 0 := by omega
    rw [List.length_eq_zero_iff] at this
    subst this; rfl
  · rfl

/-- What the elites are: members, the last of the population is the last of them. -/
structure Elites (pop : List Nat) (es : List Nat) : Prop where
  mem : ∀ r ∈ es, r ∈ pop
  last : es.getLast? = pop.getLast?

theorem addBest_ok {k : Nat} {s s' : St σ} {es : List Nat} (h : addBest k s = (.ok es, s')) :
    Drew s s' ∧ Elites s.ga.population es ∧
    (k < s.ga.population.length → es.length = k + 1) ∧
    (((lastN s.ga.population (k + 1)).map fun r => (s.heap r).genotype).Nodup → es = lastN s.ga.population (k + 1)) ∧
    (¬ ((lastN s.ga.population (k + 1)).map fun r => (s.heap r).genotype).Nodup → es.length = k + 1 ∧
      ∃ kept, kept.Sublist (lastN s.ga.population (k + 1)) ∧ kept.length + 1 = (lastN s.ga.population (k + 1)).length ∧
        kept <:+ es) := by
  unfold addBest at h
  rw [bind_of_ok (getGa_run s)] at h
  simp only at h
  obtain ⟨dup, s1, h1, h2⟩ := bind_ok.mp h
  obtain ⟨rfl, _, hd⟩ := isDuplicate_ok h1
  rw [ite_run] at h2
  split at h2
  · rename_i hdup
    have hnn := hd.mp hdup
    obtain ⟨keyed, s2, h3, h4⟩ := bind_ok.mp h2
    obtain ⟨rfl, k1, k2⟩ := withGeno_ok h3
    obtain ⟨extra, s3, h5, h6⟩ := bind_ok.mp h4
    obtain ⟨rfl, rfl⟩ := pure_ok.mp h6
    obtain ⟨b1, b2, _, b4, b5⟩ := sample_ok h5
    set kept := ((delDupRev keyed.reverse).reverse).map Prod.snd with hkept
    have hkl : kept.length + 1 = (lastN s2.ga.population (k + 1)).length := by
      have hn : ¬ (keyed.reverse.map Prod.fst).Nodup := by
        rw [List.map_reverse, List.nodup_reverse]
        intro hn
        apply hnn
        rw [← k2, show (keyed.map fun p => some p.1) = (keyed.map Prod.fst).map some by simp]
        exact hn.map (Option.some_injective _)
      have := delDupRev_length _ hn
      rw [hkept, List.length_map, List.length_reverse, this, List.length_reverse, ← k1, List.length_map]
    have hsub : kept.Sublist (lastN s2.ga.population (k + 1)) := by
      rw [hkept, ← k1]
      refine List.Sublist.map _ ?_
      have := (delDupRev_sublist keyed.reverse).reverse
      rwa [List.reverse_reverse] at this
    have hlast : kept.getLast? = (lastN s2.ga.population (k + 1)).getLast? := by
      rw [hkept, ← k1, List.getLast?_map, List.getLast?_map, List.getLast?_reverse, delDupRev_head, List.head?_reverse]
    have hne : kept ≠ [] := by
      intro he
      have h0 : (lastN s2.ga.population (k + 1)).length = 1 := by rw [he] at hkl; simpa using hkl.symm
      apply hnn
      obtain ⟨x, hx⟩ := List.length_eq_one_iff.mp h0
      rw [hx]; simp
    refine ⟨b5, ⟨?_, ?_⟩, ?_, fun hn => absurd hn hnn, fun _ => ⟨?_, kept, hsub, hkl, List.suffix_append _ _⟩⟩
    · intro r hr
      rcases List.mem_append.mp hr with hr | hr
      · exact sample_mem h5 r hr
      · exact (lastN_sublist _ _).subset (hsub.subset hr)
    · rw [List.getLast?_append_of_ne_nil _ hne, hlast, lastN_getLast]
    · intro _; rw [List.length_append]; omega
    · rw [List.length_append]; omega
  · rename_i hdup
    obtain ⟨rfl, rfl⟩ := pure_ok.mp h2
    refine ⟨Drew.refl _, ⟨fun r hr => (lastN_sublist _ _).subset hr, lastN_getLast _ _⟩, ?_, fun _ => rfl, ?_⟩
    · intro hk; rw [lastN_length]; omega
    · intro hn; exact absurd (hd.mpr hn) hdup

theorem resample_ok {pool : List Nat} {k : Nat} : ∀ {n : Nat} {e es : List Nat} {s s' : St σ},
    resample pool k n e s = (.ok es, s') → Drew s s' ∧ ((∀ r ∈ e, r ∈ pool) → ∀ r ∈ es, r ∈ pool) ∧
      (e.length = k → es.length = k) ∧ (pool.Nodup → e.Nodup → es.Nodup) := by
  intro n
  induction n with
  | zero =>
    intro e es s s' h
    rw [resample] at h
    obtain ⟨rfl, rfl⟩ := pure_ok.mp h
    exact ⟨Drew.refl _, fun h => h, fun h => h, fun _ h => h⟩
  | succ n ih =>
    intro e es s s' h
    rw [resample] at h
    obtain ⟨dup, s1, h1, h2⟩ := bind_ok.mp h
    obtain ⟨rfl, _⟩ := isDuplicate_ok h1
    rw [ite_run] at h2
    split at h2
    · obtain ⟨e', s2, h3, h4⟩ := bind_ok.mp h2
      obtain ⟨_, _, _, a4, a5⟩ := sample_ok h3
      obtain ⟨b1, b2, b3, b4⟩ := ih h4
      exact ⟨a5.trans b1, fun _ => b2 (sample_mem h3), fun _ => b3 (by exact_mod_cast a4),
        fun hp _ => b4 hp (sample_nodup h3 hp)⟩
    · obtain ⟨rfl, rfl⟩ := pure_ok.mp h2
      exact ⟨Drew.refl _, fun h => h, fun h => h, fun _ h => h⟩

theorem addRandom_ok {k : Nat} {s s' : St σ} {es : List Nat} (h : addRandom k s = (.ok es, s')) :
    Drew s s' ∧ Elites s.ga.population es ∧ es.length = k + 1 ∧ (s.ga.population.Nodup → es.Nodup) ∧
    ∃ r e, s.ga.population.getLast? = some r ∧ es = e ++ [r] := by
  unfold addRandom at h
  rw [bind_of_ok (getGa_run s)] at h
  obtain ⟨e0, s1, h1, h2⟩ := bind_ok.mp h
  obtain ⟨_, _, _, a4, a5⟩ := sample_ok h1
  obtain ⟨e, s2, h3, h4⟩ := bind_ok.mp h2
  obtain ⟨b1, b2, b3, b4⟩ := resample_ok h3
  cases hl : s.ga.population.getLast? with
  | none => simp only [hl, throwE_ok] at h4
  | some r =>
    simp only [hl] at h4
    obtain ⟨rfl, rfl⟩ := pure_ok.mp h4
    have hmem := b2 (sample_mem h1)
    have hrm : r ∈ s.ga.population := List.mem_of_getLast? hl
    refine ⟨a5.trans b1, ⟨?_, by simp [hl]⟩, by rw [List.length_append, b3 (by exact_mod_cast a4)]; rfl, ?_, r, e, rfl, rfl⟩
    · intro x hx
      rcases List.mem_append.mp hx with hx | hx
      · exact List.dropLast_subset _ (hmem x hx)
      · simp at hx; rw [hx]; exact hrm
    · intro hn
      have hd : s.ga.population = s.ga.population.dropLast ++ [r] := by
        rw [List.getLast?_eq_some_iff] at hl
        obtain ⟨ys, hy⟩ := hl
        rw [hy]; simp
      rw [hd] at hn
      have hn' := List.nodup_append.mp hn
      rw [List.nodup_append]
      refine ⟨b4 hn'.1 (sample_nodup h1 hn'.1), by simp, ?_⟩
      intro a ha b hb
      exact hn'.2.2 a (hmem a ha) b hb

theorem chooseElites_ok {tr : Transfer} {k : Nat} {s s' : St σ} {es : List Nat} (h : chooseElites tr k s = (.ok es, s')) :
    Drew s s' ∧ Elites s.ga.population es ∧ (k < s.ga.population.length → es.length = k + 1) := by
  cases tr with
  | best => obtain ⟨a, b, c, _⟩ := addBest_ok h; exact ⟨a, b, c⟩
  | random => obtain ⟨a, b, c, _⟩ := addRandom_ok h; exact ⟨a, b, fun _ => c⟩

/-! ## sorting -/

/-- A list of references in ascending order of the scores, all of which exist. -/
def Ascending [LinearOrder σ] (h : Nat → Ind σ) (l : List Nat) : Prop :=
  (∀ r ∈ l, (h r).score.isSome) ∧ l.Pairwise fun a b => ∀ x y, (h a).score = some x → (h b).score = some y → x ≤ y

theorem ensureSorted_ok [LinearOrder σ] {s s' : St σ} {u : Unit} (h : ensureSorted s = (.ok u, s')) :
    ∃ pop, s' = { s with ga := { s.ga with population := pop, attrs := { s.ga.attrs with isSorted := true } } } ∧
      pop.Perm s.ga.population ∧ (s.ga.attrs.isSorted = true → pop = s.ga.population) ∧
      (s.ga.attrs.isSorted = false → SortedBy (fun r => (s.heap r).score) s.ga.population pop) := by
  unfold ensureSorted at h
  rw [bind_of_ok (getGa_run s), ite_run] at h
  split at h
  · rename_i hs
    obtain ⟨_, rfl⟩ := pure_ok.mp h
    refine ⟨s'.ga.population, ?_, List.Perm.refl _, fun _ => rfl, fun e => by rw [hs] at e; simp at e⟩
    rw [← hs]
  · rename_i hs
    obtain ⟨pop, hp, rfl⟩ := sortByScore_ok h
    exact ⟨pop, rfl, hp.perm, fun e => absurd e hs, fun _ => hp⟩

theorem SortedBy.ascending [LinearOrder σ] {h : Nat → Ind σ} {old new : List Nat} (hs : SortedBy (fun r => (h r).score) old new) :
    Ascending h new := by
  refine ⟨fun r hr => ?_, hs.sorted⟩
  obtain ⟨v, hv⟩ := hs.keyed r (hs.perm.subset hr)
  rw [hv]; rfl

/-- The last of an ascending list has the largest score. -/
theorem Ascending.last [LinearOrder σ] {h : Nat → Ind σ} {l : List Nat} (ha : Ascending h l) {r : Nat} (hl : l.getLast? = some r)
    {x : Nat} (hx : x ∈ l) {a b : σ} (hxa : (h x).score = some a) (hrb : (h r).score = some b) : a ≤ b := by
  obtain ⟨ys, rfl⟩ := List.getLast?_eq_some_iff.mp hl
  rcases List.mem_append.mp hx with hx | hx
  · exact (List.pairwise_append.mp ha.2).2.2 x hx r (by simp) a b hxa hrb
  · simp at hx; subst hx
    rw [hxa] at hrb
    injection hrb with hrb
    exact le_of_eq hrb

/-- Complete description of `NewGeneration.execute`. -/
theorem newGenExec_ok [LinearOrder σ] {tr : Transfer} {s s' : St σ} {u : Unit} (h : newGenExec tr s = (.ok u, s')) :
    ∃ pop es t, pop.Perm s.ga.population ∧ (s.ga.attrs.isSorted = true → pop = s.ga.population) ∧
      (s.ga.attrs.isSorted = false → SortedBy (fun r => (s.heap r).score) s.ga.population pop) ∧
      Elites pop es ∧
      s' = { s with
        tape := t
        ga := { s.ga with
          children := s.ga.children ++ es
          population := s.ga.children ++ es
          attrs := { s.ga.attrs with isSorted := false } } } ∧
      (s.ga.attrs.numIndivid ≤ s.ga.children.length → es.length = 1) ∧
      (s.ga.attrs.numIndivid - s.ga.children.length < s.ga.population.length →
        es.length = s.ga.attrs.numIndivid - s.ga.children.length + 1) := by
  unfold newGenExec at h
  obtain ⟨_, s1, h1, h2⟩ := bind_ok.mp h
  obtain ⟨pop, rfl, hperm, hs1, hs2⟩ := ensureSorted_ok h1
  rw [bind_of_ok (getGa_run _)] at h2
  simp only at h2
  rw [ite_run] at h2
  split at h2
  · rename_i hk
    obtain ⟨es, s2, h3, h4⟩ := bind_ok.mp h2
    obtain ⟨⟨t, rfl⟩, hel, hlen⟩ := chooseElites_ok h3
    unfold installPop at h4
    rw [modGa_ok] at h4
    subst h4
    simp only at hel hlen
    refine ⟨pop, es, t, hperm, hs1, hs2, hel, rfl, ?_, ?_⟩
    · intro hle; omega
    · intro hlt
      refine hlen ?_
      rw [hperm.length_eq]; exact hlt
  · rename_i hk
    cases hl : pop.getLast? with
    | none => simp only [hl, throwE_ok] at h2
    | some r =>
      simp only [hl] at h2
      unfold installPop at h2
      rw [modGa_ok] at h2
      subst h2
      refine ⟨pop, [r], s.tape, hperm, hs1, hs2, ⟨?_, by simp [hl]⟩, rfl, fun _ => rfl, ?_⟩
      · intro x hx; simp at hx; rw [hx]; exact List.mem_of_getLast? hl
      · intro _; simp; omega

end BaumEva
