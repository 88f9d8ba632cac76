import Verif.Proofs.Sentinel
import Verif.Props.Selection
import Mathlib.Data.List.Count
/-!
# Property C31, continued: the ranks when the lowest score is -1

The loop of `RankedSelection` starts with `prev_score = -1` and `count = 1`.  A population whose lowest score is -1 is taken for a run that began
one place before the population, at index -1, which in Python is the last individual.
-/
namespace BaumEva
open Spec

theorem sorted_run {v : ℚ} : ∀ {sc : List ℚ}, sc.Pairwise (· ≤ ·) → (∀ x ∈ sc, v ≤ x) →
    ∃ rest, sc = List.replicate (sc.count v) v ++ rest ∧ ∀ x ∈ rest, x ≠ v := by
  intro sc
  induction sc with
  | nil => intro _ _; exact ⟨[], by simp, by simp⟩
  | cons x t ih =>
    intro hs hv
    rw [List.pairwise_cons] at hs
    by_cases hx : x = v
    · subst hx
      obtain ⟨rest, e, h⟩ := ih hs.2 (fun y hy => hv y (List.mem_cons_of_mem _ hy))
      refine ⟨rest, ?_, h⟩
      rw [List.count_cons_self, List.replicate_succ, List.cons_append, ← e]
    · refine ⟨x :: t, ?_, ?_⟩
      · rw [List.count_eq_zero_of_not_mem]
        · simp
        · intro hm
          rcases List.mem_cons.mp hm with rfl | hm
          · exact hx rfl
          · exact hx (le_antisymm (hs.1 v hm) (hv x List.mem_cons_self))
      · intro y hy e
        subst e
        rcases List.mem_cons.mp hy with rfl | hy
        · exact hx rfl
        · exact hx (le_antisymm (hs.1 y hy) (hv x List.mem_cons_self))

/-- What the ranks are when `m` individuals have the lowest score -1: `m / 2` for these, and for everybody if only one individual has another score;
average ranks for the others. -/
def Spec.ranksFromMinusOne (sc : List ℚ) (v : ℚ) : ℚ :=
  if v = -1 ∨ sc.length = sc.count (-1) + 1 then (sc.count (-1) : ℚ) / 2 else avgRank sc v

theorem head_run {sc : List ℚ} (hsort : sc.Pairwise (· ≤ ·)) (hsent : sc.head? = some (-1)) :
    0 < sc.count (-1) ∧ sc.count (-1) ≤ sc.length ∧ (∀ j, j < sc.count (-1) → sc.getD j 0 = -1) ∧
      ∀ j, sc.count (-1) ≤ j → j < sc.length → sc.getD j 0 ≠ -1 := by
  have hlow : ∀ x ∈ sc, -1 ≤ x := by
    cases sc with
    | nil => simp
    | cons y t =>
      rw [List.head?_cons] at hsent
      injection hsent with hsent
      subst hsent
      rw [List.pairwise_cons] at hsort
      intro x hx
      rcases List.mem_cons.mp hx with rfl | hx
      · exact le_rfl
      · exact hsort.1 x hx
  obtain ⟨rest, e, hrest⟩ := sorted_run hsort hlow
  refine ⟨List.count_pos_iff.mpr (List.mem_of_head? hsent), List.count_le_length, ?_, ?_⟩
  · intro j hj
    rw [List.getD_eq_getElem?_getD, e, List.getElem?_append_left (by simpa using hj), List.getElem?_replicate, if_pos hj]
    rfl
  · intro j h1 h2
    rw [List.getD_eq_getElem?_getD]
    have : sc[j]? = rest[j - sc.count (-1)]? := by
      conv_lhs => rw [e]
      rw [List.getElem?_append_right (by simpa using h1)]
      simp
    rw [List.getElem?_eq_getElem h2] at this ⊢
    exact hrest _ (List.mem_of_getElem? this.symm)

/-- C31: the ranks of a sorted population whose lowest score is -1. -/
theorem C31_sentinel {s : St ℚ} {sc : List ℚ} (hhalf : HalfExact s.ga.attrs.arith.rnd sc.length)
    (hsc : List.Forall₂ (fun r v => (s.heap r).score = some v) s.ga.population sc)
    (hsort : sc.Pairwise (· ≤ ·)) (hsent : sc.head? = some (-1)) :
    ∃ s', assignRanked scoreKey (fun q ind => { ind with rank := some (.sc q) }) s = (.ok (), s') ∧ s'.ga = s.ga ∧
      (∀ r, sameVisible (s.heap r) (s'.heap r)) ∧ (∀ r, r ∉ s.ga.population → s'.heap r = s.heap r) ∧
      ∀ (i r : Nat) (v : ℚ), s.ga.population[i]? = some r → sc[i]? = some v → (s'.heap r).rank = some (.sc (ranksFromMinusOne sc v)) := by
  have hk : HasKeys scoreKey (fun _ => True) sc s := by
    refine ⟨hsc.length_eq, ?_, fun _ _ => trivial, hhalf⟩
    intro i r hr
    have hi := (List.getElem?_eq_some_iff.mp hr).1
    have hi' : i < sc.length := by rw [← hsc.length_eq]; exact hi
    have := (List.forall₂_iff_get.mp hsc).2 i hi hi'
    simp only [List.get_eq_getElem] at this
    rw [List.getElem?_eq_getElem hi] at hr
    injection hr with hr
    rw [hr] at this
    unfold scoreKey
    rw [this, List.getD_eq_getElem?_getD, List.getElem?_eq_getElem hi']
    rfl
  obtain ⟨h0, h1, h2, h3⟩ := head_run hsort hsent
  obtain ⟨s', e, hrk, _, hranks⟩ := assignRanked_sentinel rankOps_score hk hsort h0 h1 h2 h3
  refine ⟨s', e, hrk.2.1, fun r => (hrk.1.core r).visible, hrk.1.old, ?_⟩
  intro i r v hr hv
  have hi := (List.getElem?_eq_some_iff.mp hv).1
  have := hranks i hi r (by rw [hrk.2.1]; exact hr)
  rw [List.getD_eq_getElem?_getD, hv] at this
  unfold rankKey at this
  split at this
  · rename_i q hq
    injection this with this
    rw [hq, this]; rfl
  · simp at this

/-- C31: the rank of the individuals with score -1 is one half below their average rank. -/
theorem C31_half_too_low {sc : List ℚ} (hsort : sc.Pairwise (· ≤ ·)) (hsent : sc.head? = some (-1)) :
    ranksFromMinusOne sc (-1) = avgRank sc (-1) - 1 / 2 := by
  obtain ⟨h0, h1, h2, h3⟩ := head_run hsort hsent
  have := tieRank_eq (l := sc) (v := -1) (a := 0) (b := sc.count (-1)) (by omega) h1
    (run_char h1 (fun j _ hj => h2 j hj) (fun j hj => by omega) h3)
  unfold ranksFromMinusOne
  rw [if_pos (.inl rfl), this, tieRank_half h0]
  push_cast
  ring

/-- C31: ranked selection of such a population is proportional to these ranks. -/
theorem C31_proportional {s s' : St ℚ} {sc : List ℚ} (hx : s.ga.attrs.arith = .exact) (hal : ∀ r ∈ s.ga.population, r < s.next)
    (hsc : List.Forall₂ (fun r v => (s.heap r).score = some v) s.ga.population sc)
    (hsort : sc.Pairwise (· ≤ ·)) (hsent : sc.head? = some (-1)) (h : rankedExec s = (.ok (), s')) :
    ∃ sel, selectionScores (sc.map (ranksFromMinusOne sc)) = .ok sel ∧
      (∀ (i : Nat) (v : ℚ), sc[i]? = some v → ∃ a b, Owns (rouletteIndex sel) i a b ∧
        b - a = ranksFromMinusOne sc v / (sc.map (ranksFromMinusOne sc)).sum) ∧
      InPairs (s.ga.attrs.arith.share s.ga.childrenPercent s.ga.attrs.numIndivid 1) s'.ga.parents
        (fun x a => s.next ≤ x ∧ a ∈ s.ga.population ∧ s'.heap x = s'.heap a)
        (SpunFrom sel s.ga.population) := by
  have hne : sc ≠ [] := by rintro rfl; simp at hsent
  obtain ⟨h0, _⟩ := head_run hsort hsent
  obtain ⟨sel, a1, a2, a3, _⟩ := ranked_proportional (F := ranksFromMinusOne sc) hx hal hsc hne (fun v hv => by
    unfold ranksFromMinusOne
    split
    · have : (0 : ℚ) < sc.count (-1) := by exact_mod_cast h0
      linarith
    · exact avgRank_pos hv) (by
    intro s1 ha _ hsc1
    obtain ⟨s2, e, _, _, _, hr⟩ := C31_sentinel (s := s1) (by rw [ha, hx]; exact halfExact_id _) hsc1 hsort hsent
    exact ⟨s2, e, hr⟩) h
  exact ⟨sel, a1, a2, a3⟩

/-- C31: when one individual is better and all others have score -1, the better one is not preferred: every member owns the same share. -/
theorem C31_no_preference {s s' : St ℚ} {k : Nat} {v : ℚ} (hk : 0 < k) (hv : -1 < v) (hx : s.ga.attrs.arith = .exact) (hal : ∀ r ∈ s.ga.population, r < s.next)
    (hsc : List.Forall₂ (fun r v => (s.heap r).score = some v) s.ga.population (List.replicate k (-1) ++ [v]))
    (h : rankedExec s = (.ok (), s')) :
    ∃ sel, (∀ i ≤ k, ∃ a b, Owns (rouletteIndex sel) i a b ∧ b - a = 1 / ((k : ℚ) + 1)) ∧
      InPairs (s.ga.attrs.arith.share s.ga.childrenPercent s.ga.attrs.numIndivid 1) s'.ga.parents
        (fun x a => s.next ≤ x ∧ a ∈ s.ga.population ∧ s'.heap x = s'.heap a)
        (SpunFrom sel s.ga.population) := by
  have hsort : (List.replicate k (-1 : ℚ) ++ [v]).Pairwise (· ≤ ·) := by
    rw [List.pairwise_append]
    refine ⟨List.pairwise_replicate.mpr (.inr le_rfl), by simp, fun a ha b hb => ?_⟩
    rw [List.mem_singleton] at hb
    rw [List.eq_of_mem_replicate ha, hb]
    exact hv.le
  have hhead : (List.replicate k (-1 : ℚ) ++ [v]).head? = some (-1) := by
    obtain ⟨k, rfl⟩ : ∃ j, k = j + 1 := ⟨k - 1, by omega⟩
    rfl
  have hcount : (List.replicate k (-1 : ℚ) ++ [v]).count (-1) = k := by
    rw [List.count_append, List.count_replicate_self, List.count_eq_zero_of_not_mem, add_zero]
    rw [List.mem_singleton]
    exact hv.ne
  have hF : ∀ w, ranksFromMinusOne (List.replicate k (-1 : ℚ) ++ [v]) w = (k : ℚ) / 2 := by
    intro w
    unfold ranksFromMinusOne
    rw [if_pos (.inr (by rw [hcount]; simp)), hcount]
  obtain ⟨sel, _, a2, a3⟩ := C31_proportional hx hal hsc hsort hhead h
  refine ⟨sel, fun i hi => ?_, a3⟩
  have hi' : i < (List.replicate k (-1 : ℚ) ++ [v]).length := by simp; omega
  obtain ⟨a, b, o, e⟩ := a2 i _ (List.getElem?_eq_getElem hi')
  refine ⟨a, b, o, ?_⟩
  rw [e, hF, show (List.replicate k (-1 : ℚ) ++ [v]).map (ranksFromMinusOne (List.replicate k (-1 : ℚ) ++ [v])) = List.replicate (k + 1) ((k : ℚ) / 2) by
    apply List.eq_replicate_iff.mpr
    refine ⟨by simp, fun x hx => ?_⟩
    obtain ⟨w, _, rfl⟩ := List.mem_map.mp hx
    exact hF w]
  have hk' : (0 : ℚ) < k := by exact_mod_cast hk
  rw [List.sum_replicate, nsmul_eq_mul]
  push_cast
  field_simp

/-- Scores -1, -1, 0, 3: the first two get rank 1 instead of 3/2. -/
example : ranksFromMinusOne [-1, -1, 0, 3] (-1) = 1 ∧ avgRank [-1, -1, 0, 3] (-1) = 3 / 2 ∧ ranksFromMinusOne [-1, -1, 0, 3] 3 = 4 := by decide +kernel

/-- Minimisation of objective values 1, 1, 1, 0 (scores -1, -1, -1, 0): the optimum has the rank of all others. -/
example : [0, 1, 2, 3].map (fun r => (((assignRanked scoreKey (fun q ind => { ind with rank := some (.sc q) }) (scored [-1, -1, -1, 0])).2).heap r).rank) =
    List.replicate 4 (some (.sc (3 / 2))) := by decide +kernel

end BaumEva
