import Verif.Proofs.Ranked
/-!
# The rank assignment on a population whose lowest score is -1, the sentinel of the loop
-/
namespace BaumEva
open Spec
variable {σ : Type}

theorem pyRange_minus_one (b : Nat) : pyRange (-1) (b : Int) 1 = -1 :: (List.range' 0 b).map (fun j : Nat => (j : Int)) := by
  have hlen : (rangeLen (-1) (b : Int) 1).toNat = b + 1 := by
    unfold rangeLen
    rw [if_pos (by omega)]
    simp
  unfold pyRange
  rw [hlen, List.range_succ_eq_map, List.map_cons, ← List.range_eq_range', List.map_map]
  congr 1
  apply List.map_congr_left
  intro j _
  simp

theorem tieRank_minus_one (b : Nat) : tieRank (-1) (b : Int) (b + 1) = (b : ℚ) / 2 := by
  have hs : ∀ n : Nat, 2 * ((List.range n).map (fun j : Nat => (j : Int))).sum = n * (n - 1 : Int) := by
    intro n
    induction n with
    | zero => simp
    | succ n ih => rw [List.range_succ, List.map_append, List.sum_append, mul_add, ih]; simp; ring
  unfold tieRank
  rw [pyRange_minus_one, ← List.range_eq_range', div_eq_div_iff (by positivity) (by norm_num), List.sum_cons]
  have := hs b
  have h2 : (2 * ((((List.range b).map (fun j : Nat => (j : Int))).sum : Int) : ℚ)) = (b : ℚ) * ((b : ℚ) - 1) := by
    exact_mod_cast this
  push_cast at h2 ⊢
  linarith

section
variable {key rd : Ind σ → Except PyErr ℚ} {setRank : ℚ → Ind σ → Ind σ} {Ready : Ind σ → Prop}

/-- `range(-1, b)` also writes the rank of the last individual. -/
theorem writeTies_minus_one (ops : RankOps key setRank rd Ready) {sc : List ℚ} {b : Nat} {s : St σ}
    (hk : HasKeys key Ready sc s) (hb : b ≤ sc.length) (h0 : 0 < sc.length) :
    ∃ s', writeTies setRank (-1) (b : Int) (b + 1) s = (.ok (), s') ∧ HasKeys key Ready sc s' ∧ s'.ga = s.ga ∧
      (∀ i, i < b → Rk rd s' i ((b : ℚ) / 2)) ∧ Rk rd s' (sc.length - 1) ((b : ℚ) / 2) ∧
      ∀ r, s.ga.population[sc.length - 1]? ≠ some r → (∀ i, i < b → s.ga.population[i]? ≠ some r) → s'.heap r = s.heap r := by
  unfold writeTies
  rw [bind_of_ok (getGa_run s), pyRange_minus_one, tieRank_minus_one, show s.ga.attrs.arith.rnd ((b : ℚ) / 2) = (b : ℚ) / 2 from hk.half b (by omega)]
  have hl : sc.length - 1 < s.ga.population.length := by rw [hk.len]; omega
  have hr := List.getElem?_eq_getElem hl
  have hr' : pyGet? s.ga.population (-1) = some s.ga.population[sc.length - 1] := by
    unfold pyGet?
    rw [if_neg (by omega), if_pos (by omega), show (((s.ga.population.length : Int) + -1).toNat) = sc.length - 1 by rw [hk.len]; omega, hr]
  obtain ⟨hk1, hrk1⟩ := setOne_run ops hk ((b : ℚ) / 2) hr
  obtain ⟨s', e, h1, h2, h3, h4⟩ := setAll_run ops ((b : ℚ) / 2) (List.range' 0 b) hk1
    (by intro i hi; rw [List.mem_range'_1] at hi; omega)
  refine ⟨s', ?_, h1, h2, fun i hi => h3 i (by rw [List.mem_range'_1]; omega), ?_, ?_⟩
  · rw [forEach, bind_of_ok (bind_of_ok (popAt_ok.mpr ⟨hr', rfl⟩) |>.trans (modInd_run _ _ _))]
    exact e
  · intro x hx
    by_cases hm : ∃ i ∈ List.range' 0 b, s.ga.population[i]? = some x
    · obtain ⟨i, i1, i2⟩ := hm
      exact h3 i i1 x (by rw [h2]; exact i2)
    · push Not at hm
      rw [h4 x hm]
      rw [h2] at hx
      exact hrk1 x hx
  · intro r g1 g2
    rw [h4 r (fun i hi => g2 i (by rw [List.mem_range'_1] at hi; omega))]
    refine upd_ne ?_
    rintro rfl
    exact g1 hr

/-- The ranks written when `m` individuals have the lowest score -1. -/
def sentinelRank (sc : List ℚ) (m : Nat) (v : ℚ) : ℚ := if v = -1 ∨ sc.length = m + 1 then (m : ℚ) / 2 else avgRank sc v

/-- The loop while the scores are -1. -/
theorem rankedLoop_sentinel (ops : RankOps key setRank rd Ready) {sc : List ℚ} {m : Nat}
    (hmono : ∀ i j, i ≤ j → j < sc.length → sc.getD i 0 ≤ sc.getD j 0) (h0 : 0 < sc.length) (hm : m ≤ sc.length) (hm0 : 0 < m)
    (hrun : ∀ j, j < m → sc.getD j 0 = -1) (hnext : ∀ j, m ≤ j → j < sc.length → sc.getD j 0 ≠ -1) :
    ∀ (k idx : Nat) (s : St σ), HasKeys key Ready sc s → idx + k = sc.length → idx ≤ m → (idx = m → k ≠ 0) →
      ∃ s', rankedLoop key setRank sc.length k idx (-1) (idx + 1) s = (.ok (), s') ∧
        HasKeys key Ready sc s' ∧ ∀ j, j < sc.length → Rk rd s' j (sentinelRank sc m (sc.getD j 0)) := by
  intro k
  induction k with
  | zero =>
    intro idx s hk hidx h1 h2
    exact absurd rfl (h2 (by omega))
  | succ k ih =>
    intro idx s hk hidx hle _
    have hi : idx < s.ga.population.length := by rw [hk.len]; omega
    have hr := List.getElem?_eq_getElem hi
    obtain ⟨hk1, hrk1⟩ := setOne_run ops hk ((idx : ℚ) + 1) hr
    set r := s.ga.population[idx] with hrdef
    set s1 : St σ := { s with heap := upd s.heap r (setRank ((idx : ℚ) + 1) (s.heap r)) } with hs1
    rw [rankedLoop, bind_of_ok (popAt_run hr), bind_of_ok (modInd_run _ _ _), bind_of_ok (getInd_run r _),
      bind_of_ok ((liftE_run _ _).trans (congrArg (·, s1) (hk1.key idx r hr)))]
    show ∃ s', (rankedStep setRank sc.length idx (sc.getD idx 0) (-1) (idx + 1) >>= _) s1 = _ ∧ _
    by_cases hlt : idx < m
    · have heq := hrun idx hlt
      by_cases hlast : idx + 1 = sc.length
      · obtain ⟨s2, e2, hk2, hga2, hall, _, _⟩ := writeTies_minus_one ops hk1 (b := idx + 1) (by omega) h0
        have estep : rankedStep setRank sc.length idx (sc.getD idx 0) (-1) (idx + 1) s1 = (.ok (idx + 1 + 1), s2) := by
          unfold rankedStep
          rw [ite_run, if_pos heq, ite_run, if_pos hlast, show ((idx : Int) + 1 - ((idx + 1 + 1 : Nat) : Int)) = -1 by omega,
            show ((idx : Int) + 1) = ((idx + 1 : Nat) : Int) by omega, bind_of_ok e2]
          rfl
        rw [bind_of_ok estep]
        have hk0 : k = 0 := by omega
        subst hk0
        refine ⟨s2, rfl, hk2, fun j hj => ?_⟩
        unfold sentinelRank
        rw [if_pos (.inl (hrun j (by omega))), show m = idx + 1 by omega]
        exact hall j (by omega)
      · have estep : rankedStep setRank sc.length idx (sc.getD idx 0) (-1) (idx + 1) s1 = (.ok (idx + 1 + 1), s1) := by
          unfold rankedStep
          rw [ite_run, if_pos heq, ite_run, if_neg hlast]
          rfl
        rw [bind_of_ok estep, heq]
        exact ih (idx + 1) s1 hk1 (by omega) (by omega) (by omega)
    · obtain rfl : idx = m := by omega
      have hne := hnext idx le_rfl (by omega)
      obtain ⟨s2, e2, hk2, hga2, hall, hlst, hsame⟩ := writeTies_minus_one ops hk1 (b := idx) (by omega) h0
      have estep : rankedStep setRank sc.length idx (sc.getD idx 0) (-1) (idx + 1) s1 = (.ok 1, s2) := by
        unfold rankedStep
        rw [ite_run, if_neg hne, ite_run, if_pos (by omega), show ((idx : Int) - ((idx + 1 : Nat) : Int)) = -1 by omega, bind_of_ok e2]
        rfl
      rw [bind_of_ok estep]
      by_cases hk0 : k = 0
      · subst hk0
        refine ⟨s2, rfl, hk2, fun j hj => ?_⟩
        unfold sentinelRank
        rw [if_pos (.inr (by omega))]
        by_cases hj' : j < idx
        · exact hall j hj'
        · rw [show j = sc.length - 1 by omega]; exact hlst
      · have := rankedLoop_run ops (F := sentinelRank sc idx) hmono k (idx + 1) 1 s2 hk2 (by omega) le_rfl (by omega) (by
          intro j h1 h2
          unfold sentinelRank
          rw [if_neg]
          rintro (h | h)
          · exact hnext j (by omega) h2 h
          · omega) (by
          intro j h1 h2
          rw [show j = idx by omega, show idx + 1 - 1 = idx by omega]) (by
          intro j hj
          rw [hrun j (by omega), show idx + 1 - 1 = idx by omega]
          have := hmono 0 idx (by omega) (by omega)
          rw [hrun 0 hm0] at this
          exact lt_of_le_of_ne this (Ne.symm hne)) (by
          intro j hj
          unfold sentinelRank
          rw [if_pos (.inl (hrun j (by omega)))]
          exact hall j (by omega)) (by
          intro _ hd
          rw [show idx + 1 - 1 = idx by omega] at hd ⊢
          have := hrk1.keep hga2 (s' := s2) (fun x hx => hsame x ?_ ?_)
          · exact_mod_cast this
          · intro he
            have h3 := hk1.same hx he
            have h4 := hmono idx (idx + 1) (by omega) (by omega)
            have h5 := hmono (idx + 1) (sc.length - 1) (by omega) (by omega)
            exact hd (le_antisymm (h3 ▸ h5) h4)
          · intro i hi he
            have h3 := hk1.same hx he
            rw [hrun i hi] at h3
            exact hne h3) (fun h => absurd h hk0)
        rw [show idx + 1 - 1 = idx by omega] at this
        exact this

/-- The whole rank assignment on a sorted population of which the first `m` have score -1. -/
theorem assignRanked_sentinel (ops : RankOps key setRank rd Ready) {sc : List ℚ} {s : St σ}
    (hk : HasKeys key Ready sc s) (hsort : sc.Pairwise (· ≤ ·)) {m : Nat} (hm0 : 0 < m) (hm : m ≤ sc.length)
    (hrun : ∀ j, j < m → sc.getD j 0 = -1) (hnext : ∀ j, m ≤ j → j < sc.length → sc.getD j 0 ≠ -1) :
    ∃ s', assignRanked key setRank s = (.ok (), s') ∧ Ranked s s' ∧
      HasKeys key Ready sc s' ∧ ∀ j, j < sc.length → Rk rd s' j (sentinelRank sc m (sc.getD j 0)) := by
  have hmono : ∀ i j, i ≤ j → j < sc.length → sc.getD i 0 ≤ sc.getD j 0 := by
    intro i j hij hj
    rcases Nat.lt_or_eq_of_le hij with h | rfl
    · have := List.pairwise_iff_getElem.mp hsort i j (by omega) hj h
      simpa [List.getElem?_eq_getElem hj, List.getElem?_eq_getElem (show i < sc.length by omega)] using this
    · rfl
  obtain ⟨s', e, h⟩ := rankedLoop_sentinel ops hmono (by omega) hm hm0 hrun hnext sc.length 0 s hk (by omega) (by omega) (by omega)
  have e' : assignRanked key setRank s = (.ok (), s') := by
    unfold assignRanked
    rw [bind_of_ok (getGa_run s), hk.len]
    exact e
  exact ⟨s', e', assignRanked_ranked ops.core e', h⟩

end
end BaumEva
