import Verif.Proofs.Ranked
/-!
# The rank assignment on a population in any order

What the loop averages over are maximal runs of equal scores that follow each other.
-/
namespace BaumEva
open Spec
variable {σ : Type}

/-- The positions `a, .., b - 1` have equal scores, their neighbours other ones. -/
structure MaxRun (sc : List ℚ) (a b : Nat) : Prop where
  lt : a < b
  le : b ≤ sc.length
  eq : ∀ j, a ≤ j → j < b → sc.getD j 0 = sc.getD a 0
  left : a = 0 ∨ sc.getD (a - 1) 0 ≠ sc.getD a 0
  right : b = sc.length ∨ sc.getD b 0 ≠ sc.getD a 0

theorem exists_maxRun {sc : List ℚ} {j : Nat} (hj : j < sc.length) : ∃ a b, MaxRun sc a b ∧ a ≤ j ∧ j < b := by
  classical
  have ha : ∃ a, a ≤ j ∧ ∀ k, a ≤ k → k ≤ j → sc.getD k 0 = sc.getD j 0 :=
    ⟨j, le_rfl, fun k h1 h2 => by rw [le_antisymm h2 h1]⟩
  have hb : ∃ b, j < b ∧ (sc.length ≤ b ∨ sc.getD b 0 ≠ sc.getD j 0) := ⟨sc.length, hj, .inl le_rfl⟩
  obtain ⟨a1, a2⟩ := Nat.find_spec ha
  obtain ⟨b1, b2⟩ := Nat.find_spec hb
  have hmin : ∀ k, j < k → k < Nat.find hb → k < sc.length ∧ sc.getD k 0 = sc.getD j 0 := by
    intro k h1 h2
    have := Nat.find_min hb h2
    push Not at this
    exact this h1
  have hble : Nat.find hb ≤ sc.length := Nat.find_min' hb ⟨hj, .inl le_rfl⟩
  have haj := a2 _ le_rfl a1
  refine ⟨Nat.find ha, Nat.find hb, ⟨by omega, hble, ?_, ?_, ?_⟩, a1, b1⟩
  · intro k h1 h2
    rw [haj]
    by_cases hk : k ≤ j
    · exact a2 k h1 hk
    · exact (hmin k (by omega) h2).2
  · by_cases h0 : Nat.find ha = 0
    · exact .inl h0
    · refine .inr fun e => ?_
      have := Nat.find_min ha (m := Nat.find ha - 1) (by omega)
      refine this ⟨by omega, fun k h1 h2 => ?_⟩
      by_cases hk : k = Nat.find ha - 1
      · rw [hk, e, haj]
      · exact a2 k (by omega) h2
  · rcases b2 with h | h
    · exact .inl (by omega)
    · exact .inr (by rw [haj]; exact h)

/-- Two maximal runs that meet are the same. -/
theorem MaxRun.unique {sc : List ℚ} {a b c d j : Nat} (h1 : MaxRun sc a b) (h2 : MaxRun sc c d) (ha : a ≤ j) (hb : j < b) (hc : c ≤ j) (hd : j < d) :
    a = c ∧ b = d := by
  have e : sc.getD a 0 = sc.getD c 0 := by rw [← h1.eq j ha hb, h2.eq j hc hd]
  constructor
  · rcases Nat.lt_trichotomy a c with h | h | h
    · rcases h2.left with h0 | h0
      · omega
      · exact absurd ((h1.eq (c - 1) (by omega) (by omega)).trans e) h0
    · exact h
    · rcases h1.left with h0 | h0
      · omega
      · exact absurd ((h2.eq (a - 1) (by omega) (by omega)).trans e.symm) h0
  · rcases Nat.lt_trichotomy b d with h | h | h
    · rcases h1.right with h0 | h0
      · have := h2.le; omega
      · exact absurd ((h2.eq b (by omega) (by omega)).trans e.symm) h0
    · exact h
    · rcases h2.right with h0 | h0
      · have := h1.le; omega
      · exact absurd ((h1.eq d (by omega) (by omega)).trans e) h0

section
variable {key rd : Ind σ → Except PyErr ℚ} {setRank : ℚ → Ind σ → Ind σ} {Ready : Ind σ → Prop}

theorem nodup_at {l : List Nat} (h : l.Nodup) {i j r : Nat} (hi : l[i]? = some r) (hj : l[j]? = some r) : i = j := by
  obtain ⟨h1, e1⟩ := List.getElem?_eq_some_iff.mp hi
  obtain ⟨h2, e2⟩ := List.getElem?_eq_some_iff.mp hj
  exact (List.Nodup.getElem_inj_iff h).mp (e1.trans e2.symm)

/-- The loop from position `idx ≥ 1` on. -/
theorem rankedLoop_runs (ops : RankOps key setRank rd Ready) {sc : List ℚ} {G : Nat → ℚ}
    (hG : ∀ a b, MaxRun sc a b → ∀ j, a ≤ j → j < b → G j = tieRank (a : Int) (b : Int) (b - a)) :
    ∀ (k idx count : Nat) (s : St σ), HasKeys key Ready sc s → s.ga.population.Nodup → idx + k = sc.length → 1 ≤ count → count ≤ idx →
      (∀ j, idx - count ≤ j → j < idx → sc.getD j 0 = sc.getD (idx - 1) 0) →
      (idx - count = 0 ∨ sc.getD (idx - count - 1) 0 ≠ sc.getD (idx - 1) 0) →
      (∀ j, j < idx - count → Rk rd s j (G j)) →
      (count = 1 → Rk rd s (idx - 1) idx) →
      (k = 0 → ∀ j, j < idx → Rk rd s j (G j)) →
      ∃ s', rankedLoop key setRank sc.length k idx (sc.getD (idx - 1) 0) count s = (.ok (), s') ∧
        HasKeys key Ready sc s' ∧ ∀ j, j < sc.length → Rk rd s' j (G j) := by
  intro k
  induction k with
  | zero =>
    intro idx count s hk _ hidx _ _ _ _ _ _ hfin
    exact ⟨s, rfl, hk, fun j hj => hfin rfl j (by omega)⟩
  | succ k ih =>
    intro idx count s hk hnd hidx hc1 hc2 hrun hlow hdone hone _
    have hi : idx < s.ga.population.length := by rw [hk.len]; omega
    have hr := List.getElem?_eq_getElem hi
    obtain ⟨hk1, hrk1⟩ := setOne_run ops hk ((idx : ℚ) + 1) hr
    set r := s.ga.population[idx] with hrdef
    set s1 : St σ := { s with heap := upd s.heap r (setRank ((idx : ℚ) + 1) (s.heap r)) } with hs1
    have hga1 : s1.ga = s.ga := rfl
    have hnd1 : s1.ga.population.Nodup := hnd
    rw [rankedLoop, bind_of_ok (popAt_run hr), bind_of_ok (modInd_run _ _ _), bind_of_ok (getInd_run r _),
      bind_of_ok ((liftE_run _ _).trans (congrArg (·, s1) (hk1.key idx r hr)))]
    have keep1 : ∀ j, j < idx → ∀ x, s.ga.population[j]? = some x → s1.heap x = s.heap x := by
      intro j hj x hx
      refine upd_ne ?_
      rintro rfl
      have := nodup_at hnd hx hr
      omega
    have hdone1 : ∀ j, j < idx - count → Rk rd s1 j (G j) := fun j hj => (hdone j hj).keep hga1 (keep1 j (by omega))
    have hcur : idx + 1 - 1 = idx := by omega
    have ea : sc.getD (idx - count) 0 = sc.getD (idx - 1) 0 := hrun _ le_rfl (by omega)
    show ∃ s', (rankedStep setRank sc.length idx (sc.getD idx 0) (sc.getD (idx - 1) 0) count >>= _) s1 = _ ∧ _
    by_cases heq : sc.getD idx 0 = sc.getD (idx - 1) 0
    · have hsub : idx + 1 - (count + 1) = idx - count := by omega
      have hrun' : ∀ j, idx - count ≤ j → j < idx + 1 → sc.getD j 0 = sc.getD idx 0 := by
        intro j h1 h2
        by_cases hj : j = idx
        · rw [hj]
        · rw [hrun j h1 (by omega), heq]
      by_cases hlast : idx + 1 = sc.length
      · have ecast : ((idx : Int) + 1 - (count + 1 : Nat)) = ((idx - count : Nat) : Int) := by omega
        obtain ⟨s2, e2, hk2, hga2, hrk2, hsame2⟩ := writeTies_run ops (a := idx - count) (b := idx + 1) (c := count + 1)
          hk1 (by omega) (by omega) (by omega)
        have estep : rankedStep setRank sc.length idx (sc.getD idx 0) (sc.getD (idx - 1) 0) count s1 = (.ok (count + 1), s2) := by
          unfold rankedStep
          rw [ite_run, if_pos heq, ite_run, if_pos hlast, ecast, show ((idx : Int) + 1) = ((idx + 1 : Nat) : Int) by omega,
            bind_of_ok e2]
          rfl
        rw [bind_of_ok estep]
        have hk0 : k = 0 := by omega
        subst hk0
        refine ⟨s2, rfl, hk2, ?_⟩
        have hmax : MaxRun sc (idx - count) (idx + 1) := ⟨by omega, by omega, fun j h1 h2 => by rw [hrun' j h1 h2, ea, heq],
          by rw [ea]; exact hlow, .inl hlast⟩
        intro j hj
        by_cases hjr : j < idx - count
        · refine (hdone1 j hjr).keep hga2 fun x hx => hsame2 x fun i h1 h2 he => ?_
          have := nodup_at hnd1 hx he
          omega
        · rw [hG _ _ hmax j (by omega) (by omega), show idx + 1 - (idx - count) = count + 1 by omega]
          exact hrk2 j (by omega) (by omega)
      · have estep : rankedStep setRank sc.length idx (sc.getD idx 0) (sc.getD (idx - 1) 0) count s1 = (.ok (count + 1), s1) := by
          unfold rankedStep
          rw [ite_run, if_pos heq, ite_run, if_neg hlast]
          rfl
        rw [bind_of_ok estep]
        refine ih (idx + 1) (count + 1) s1 hk1 hnd1 (by omega) (by omega) (by omega) ?_ ?_ ?_ (by omega) (by omega)
        · rw [hcur, hsub]; exact hrun'
        · rw [hcur, hsub, heq]; exact hlow
        · rw [hsub]; exact hdone1
    · have hmax : MaxRun sc (idx - count) idx := ⟨by omega, by omega, fun j h1 h2 => by rw [hrun j h1 h2, ea], by rw [ea]; exact hlow,
        .inr (by rw [ea]; exact heq)⟩
      have hstep : ∃ s2, rankedStep setRank sc.length idx (sc.getD idx 0) (sc.getD (idx - 1) 0) count s1 = (.ok 1, s2) ∧ s2.ga = s.ga ∧
          HasKeys key Ready sc s2 ∧ (∀ j, j < idx → Rk rd s2 j (G j)) ∧ Rk rd s2 idx ((idx : ℚ) + 1) := by
        by_cases hcount : 1 < count
        · obtain ⟨s2, e2, hk2, hga2, hrk2, hsame2⟩ := writeTies_run ops (a := idx - count) (b := idx) (c := count)
            hk1 (by omega) (by omega) (by omega)
          refine ⟨s2, ?_, hga2.trans hga1, hk2, ?_, ?_⟩
          · unfold rankedStep
            rw [ite_run, if_neg heq, ite_run, if_pos hcount, show ((idx : Int) - count) = ((idx - count : Nat) : Int) by omega,
              bind_of_ok e2]
            rfl
          · intro j hj
            by_cases hjr : j < idx - count
            · refine (hdone1 j hjr).keep hga2 fun x hx => hsame2 x fun i h1 h2 he => ?_
              have := nodup_at hnd1 hx he
              omega
            · rw [hG _ _ hmax j (by omega) hj, show idx - (idx - count) = count by omega]
              exact hrk2 j (by omega) hj
          · refine hrk1.keep hga2 fun x hx => hsame2 x fun i h1 h2 he => ?_
            have := nodup_at hnd1 hx he
            omega
        · have hc : count = 1 := by omega
          subst hc
          refine ⟨s1, ?_, hga1, hk1, ?_, hrk1⟩
          · unfold rankedStep
            rw [ite_run, if_neg heq, ite_run, if_neg hcount]
            rfl
          · intro j hj
            by_cases hjr : j < idx - 1
            · exact hdone1 j hjr
            · have hj' : j = idx - 1 := by omega
              subst hj'
              have e1 : (((idx - 1 : Nat) : ℚ) + 1) = (idx : ℚ) := by
                have : idx - 1 + 1 = idx := by omega
                exact_mod_cast this
              have e := tieRank_one (idx - 1)
              rw [show idx - 1 + 1 = idx by omega] at e
              rw [hG _ _ hmax (idx - 1) (by omega) (by omega), show idx - (idx - 1) = 1 by omega, e, e1]
              exact (hone rfl).keep hga1 (keep1 (idx - 1) (by omega))
      obtain ⟨s2, estep, hga2, hk2, hall, hcurR⟩ := hstep
      rw [bind_of_ok estep]
      have := ih (idx + 1) 1 s2 hk2 (by rw [hga2]; exact hnd) (by omega) le_rfl (by omega) (by
          intro j h1 h2
          have : j = idx := by omega
          rw [this, hcur]) (by
          rw [hcur]
          exact .inr (Ne.symm heq)) (by
          intro j hj; exact hall j (by omega)) (by
          intro _; rw [hcur]; push_cast; exact hcurR) (by
          intro hk0 j hj
          by_cases hj' : j = idx
          · subst hj'
            have hm : MaxRun sc j (j + 1) := ⟨by omega, by omega, fun i h1 h2 => by rw [show i = j by omega], .inr (Ne.symm heq), .inl (by omega)⟩
            rw [hG _ _ hm j le_rfl (by omega), show j + 1 - j = 1 by omega, tieRank_one]
            exact hcurR
          · exact hall j (by omega))
      rw [hcur] at this
      exact this

/-- The whole rank assignment on a population of different objects whose first score is not the sentinel. -/
theorem assignRanked_runs (ops : RankOps key setRank rd Ready) {sc : List ℚ} {s : St σ} {G : Nat → ℚ}
    (hG : ∀ a b, MaxRun sc a b → ∀ j, a ≤ j → j < b → G j = tieRank (a : Int) (b : Int) (b - a))
    (hk : HasKeys key Ready sc s) (hnd : s.ga.population.Nodup) (hsent : sc.head? ≠ some (-1)) :
    ∃ s', assignRanked key setRank s = (.ok (), s') ∧ Ranked s s' ∧
      HasKeys key Ready sc s' ∧ ∀ j, j < sc.length → Rk rd s' j (G j) := by
  suffices h : ∃ s', assignRanked key setRank s = (.ok (), s') ∧
      HasKeys key Ready sc s' ∧ ∀ j, j < sc.length → Rk rd s' j (G j) by
    obtain ⟨s', e, h⟩ := h
    exact ⟨s', e, assignRanked_ranked ops.core e, h⟩
  unfold assignRanked
  rw [bind_of_ok (getGa_run s), hk.len]
  cases hn : sc.length with
  | zero => exact ⟨s, rfl, hk, by intro j hj; omega⟩
  | succ k =>
    have h0 : 0 < sc.length := by omega
    have hi : 0 < s.ga.population.length := by rw [hk.len]; exact h0
    have hr := List.getElem?_eq_getElem hi
    obtain ⟨hk1, hrk1⟩ := setOne_run ops hk ((0 : Nat) + 1 : ℚ) hr
    set s1 : St σ := { s with heap := upd s.heap s.ga.population[0] (setRank ((0 : Nat) + 1 : ℚ) (s.heap s.ga.population[0])) }
    rw [rankedLoop, bind_of_ok (popAt_run hr), bind_of_ok (modInd_run _ _ _), bind_of_ok (getInd_run _ _),
      bind_of_ok ((liftE_run _ _).trans (congrArg (·, s1) (hk1.key 0 _ hr))), ← hn]
    show ∃ s', (rankedStep setRank sc.length 0 (sc.getD 0 0) (-1) 1 >>= _) s1 = _ ∧ _
    have hne : sc.getD 0 0 ≠ -1 := by
      intro e
      apply hsent
      rw [List.head?_eq_getElem?, List.getElem?_eq_getElem h0]
      rw [List.getD_eq_getElem?_getD, List.getElem?_eq_getElem h0] at e
      simpa using e
    have estep : rankedStep setRank sc.length 0 (sc.getD 0 0) (-1) 1 s1 = (.ok 1, s1) := by
      unfold rankedStep
      rw [ite_run, if_neg hne, ite_run, if_neg (by omega)]
      rfl
    rw [bind_of_ok estep]
    obtain ⟨s', e, h1, h2⟩ := rankedLoop_runs ops hG k 1 1 s1 hk1 hnd (by omega) le_rfl le_rfl (by
        intro j h1 h2
        have : j = 0 := by omega
        rw [this]) (.inl rfl) (by intro j hj; omega) (by
        intro _; simpa using hrk1) (by
        intro hk0 j hj
        have hj0 : j = 0 := by omega
        subst hj0
        have hm : MaxRun sc 0 1 := ⟨by omega, by omega, fun i h1 h2 => by rw [show i = 0 by omega], .inl rfl, .inl (by omega)⟩
        rw [hG _ _ hm 0 le_rfl (by omega)]
        have e := tieRank_one 0
        simp only [Nat.sub_zero]
        rw [show ((1 : Nat) : Int) = ((0 + 1 : Nat) : Int) by simp, e]
        exact hrk1)
    exact ⟨s', e, h1, fun j hj => h2 j (by omega)⟩

end
end BaumEva
