import Verif.Proofs.Ranked
import Verif.Props.Population
/-!
# Properties C25-C31: selections
-/
namespace BaumEva
open Spec
variable {σ : Type}

/-! ## C25 -/

theorem wins_bestOf [LinearOrder σ] {s : St σ} {t : List Nat} {r : Nat} (h : Wins scoreKey s t r) :
    BestOf s.ga.population (fun r => (s.heap r).score) t r := by
  obtain ⟨h1, h2⟩ := h
  refine ⟨h1, ?_⟩
  intro i hi
  obtain ⟨p, e, h⟩ := h2 i hi
  refine ⟨p, e, ?_⟩
  intro vp vr e1 e2
  simp only at e1 e2
  rcases h with rfl | ⟨kp, kr, f1, f2, f3⟩
  · rw [e1] at e2; injection e2 with e2; rw [e2]; exact lt_irrefl _
  · unfold scoreKey at f1 f2
    rw [e1] at f1
    rw [e2] at f2
    injection f1 with f1
    injection f2 with f2
    rw [f1, f2]
    exact not_lt.mpr f3

/-- C25: the winner returned for a list of positions is one of the participants and no participant has a
strictly higher score; the state is unchanged. -/
theorem C25_winner_is_best [LinearOrder σ] {t : List Nat} {s s' : St σ} {r : Nat}
    (h : getBest scoreKey t s = (.ok r, s')) :
    s' = s ∧ BestOf s.ga.population (fun r => (s.heap r).score) t r := by
  obtain ⟨rfl, h⟩ := getBest_ok h
  exact ⟨rfl, wins_bestOf h⟩

/-- C25: a winner exists for every non-empty list of positions of scored individuals. -/
theorem C25_winner_exists [LinearOrder σ] {t : List Nat} {s : St σ} (ht : t ≠ [])
    (hin : ∀ i ∈ t, i < s.ga.population.length) (hsc : ∀ r ∈ s.ga.population, ∃ v, (s.heap r).score = some v) :
    ∃ r, getBest scoreKey t s = (.ok r, s) := by
  refine getBest_safe ht hin ?_
  intro r hr
  obtain ⟨v, e⟩ := hsc r hr
  exact ⟨v, by unfold scoreKey; rw [e]⟩

/-! ## C26 -/

/-- Reading off the pairs of parents. -/
theorem inPairs_of_copied {s1 s' : St σ} {pop : List Nat} {ps : List (Nat × Nat)} {P : Nat → Nat → Prop}
    (hpar : s1.ga.parents = []) (hc : Copied s1 s' (ps.flatMap fun p => [p.1, p.2])) (hal : ∀ r ∈ pop, r < s1.next)
    (hp : ∀ p ∈ ps, p.1 ∈ pop ∧ p.2 ∈ pop ∧ P p.1 p.2) :
    InPairs ps.length s'.ga.parents (fun x a => s1.next ≤ x ∧ a ∈ pop ∧ s'.heap x = s'.heap a) P := by
  have hlen : (ps.flatMap fun p => [p.1, p.2]).length = 2 * ps.length := by
    simp [List.length_flatMap]; omega
  have hpars : s'.ga.parents = List.range' s1.next (2 * ps.length) := by
    rw [hc.ga]; simp only [hpar, List.nil_append, hlen]
  have hget : ∀ (ps : List (Nat × Nat)) (k : Nat) (p : Nat × Nat), ps[k]? = some p →
      (ps.flatMap fun p => [p.1, p.2])[2 * k]? = some p.1 ∧ (ps.flatMap fun p => [p.1, p.2])[2 * k + 1]? = some p.2 := by
    intro ps
    induction ps with
    | nil => intro k p h; simp at h
    | cons x xs ih =>
      intro k p h
      cases k with
      | zero => simp at h; subst h; simp
      | succ k =>
        rw [List.getElem?_cons_succ] at h
        obtain ⟨e1, e2⟩ := ih k p h
        rw [List.flatMap_cons, show 2 * (k + 1) = 2 * k + 1 + 1 by omega]
        exact ⟨e1, e2⟩
  refine ⟨by rw [hpars]; simp, ?_⟩
  intro k hk
  have hk' := List.getElem?_eq_getElem hk
  obtain ⟨e1, e2⟩ := hget ps k _ hk'
  obtain ⟨m1, m2, hP⟩ := hp _ (List.getElem_mem hk)
  refine ⟨s1.next + 2 * k, s1.next + (2 * k + 1), ps[k].1, ps[k].2, ?_, ?_, ⟨by omega, m1, ?_⟩, ⟨by omega, m2, ?_⟩, hP⟩
  · rw [hpars, List.getElem?_range' (by omega)]; simp
  · rw [hpars, List.getElem?_range' (by omega)]; simp
  · rw [hc.new _ _ e1, hc.old _ (hal _ m1)]
  · rw [hc.new _ _ e2, hc.old _ (hal _ m2)]

/-- C26: when tournament selection returns, there are `int(children_percent * num_individ)` pairs of parents;
each pair consists of new objects equal to two different members, both of which won a tournament of
`size` members. -/
theorem C26_tournament_parents [LinearOrder σ] {size : Int} {s s' : St σ}
    (hal : ∀ r ∈ s.ga.population, r < s.next) (h : tournamentExec size s = (.ok (), s')) :
    InPairs (s.ga.attrs.arith.share s.ga.childrenPercent s.ga.attrs.numIndivid 1) s'.ga.parents
      (fun x a => s.next ≤ x ∧ a ∈ s.ga.population ∧ s'.heap x = s'.heap a)
      (fun a b => a ≠ b ∧ WonOne s.ga.population (fun r => (s.heap r).score) size a ∧
        WonOne s.ga.population (fun r => (s.heap r).score) size b) := by
  obtain ⟨_, _, s1, ps, hr, hpar, _, hl, hc, hp⟩ := tournamentExec_ok hal h
  have hnum : (s.ga.attrs.arith.share s.ga.childrenPercent s.ga.attrs.numIndivid 1) = ps.length := by
    rw [hl, numPairs_share]
  have hpop : s1.ga.population = s.ga.population := by rw [hr.ga]
  rw [hnum]
  have won : ∀ a, WonTournament scoreKey size s1 a → WonOne s.ga.population (fun r => (s.heap r).score) size a := by
    rintro a ⟨t, e1, e2, e3, e4⟩
    have := wins_bestOf e4
    rw [hpop] at this e3
    refine ⟨t, e1, e2, e3, ?_⟩
    have hfun : (fun r => (s1.heap r).score) = (fun r => (s.heap r).score) := by
      funext r; exact (hr.core r).score
    rw [hfun] at this
    exact this
  have := inPairs_of_copied (P := fun a b => a ≠ b ∧ WonOne s.ga.population (fun r => (s.heap r).score) size a ∧
        WonOne s.ga.population (fun r => (s.heap r).score) size b) hpar hc (by rw [hr.next]; exact hal) (by
    intro p hpm
    obtain ⟨a, b, c, d, e⟩ := hp p hpm
    exact ⟨a, b, fun e => c (by rw [e]), won _ d, won _ e⟩)
  rw [hr.next] at this
  exact this

/-- The observable contents of an individual (everything but the internal entries `idx_individ` and `rank`). -/
def sameVisible (a b : Ind σ) : Prop :=
  b.genotype = a.genotype ∧ b.phenotype = a.phenotype ∧ b.score = a.score ∧ b.objScore = a.objScore ∧
  b.feasible = a.feasible

theorem SameCore.visible {a b : Ind σ} (h : SameCore a b) : sameVisible a b :=
  ⟨h.genotype, h.phenotype, h.score, h.objScore, h.feasible⟩

/-- C26: tournament selection leaves the population (members, genotypes, scores) and everything else of the
data object as it was. -/
theorem C26_population_kept [LinearOrder σ] {size : Int} {s s' : St σ}
    (hal : ∀ r ∈ s.ga.population, r < s.next) (h : tournamentExec size s = (.ok (), s')) :
    s'.ga = { s.ga with parents := s'.ga.parents } ∧ (∀ r, r < s.next → sameVisible (s.heap r) (s'.heap r)) ∧
    s'.calls = s.calls := by
  obtain ⟨hs, _⟩ := tournamentExec_selected hal h
  exact ⟨hs.ga, fun r hr => (hs.core r hr).visible, hs.calls⟩

/-- C26: a tournament size below 2 or not below the population size is rejected at once. -/
theorem C26_size_rejected [LinearOrder σ] {size : Int} {s : St σ}
    (h : size < 2 ∨ (s.ga.attrs.numIndivid : Int) ≤ size) : tournamentExec size s = (.error .exception, s) := by
  unfold tournamentExec checkTournament
  refine bind_of_err ?_
  rw [bind_of_ok (getGa_run s), ite_run, if_pos h]
  rfl

/-- C26: conversely success means the size was acceptable. -/
theorem C26_size_accepted [LinearOrder σ] {size : Int} {s s' : St σ} (hal : ∀ r ∈ s.ga.population, r < s.next)
    (h : tournamentExec size s = (.ok (), s')) : 2 ≤ size ∧ size < s.ga.attrs.numIndivid := by
  obtain ⟨a, b, _⟩ := tournamentExec_ok hal h
  exact ⟨a, b⟩

/-- C26: with an acceptable size and scored members, tournament selection raises no exception at all (it can
only run out of draws, i.e. keep searching a second parent). -/
theorem C26_no_exception [LinearOrder σ] {size : Int} {s s' : St σ} {e : PyErr} (h1 : 2 ≤ size)
    (h2 : size < s.ga.attrs.numIndivid) (h3 : s.ga.attrs.numIndivid ≤ s.ga.population.length)
    (hal : ∀ r ∈ s.ga.population, r < s.next) (hsc : ∀ r ∈ s.ga.population, ∃ v, (s.heap r).score = some v)
    (h : tournamentExec size s = (.error e, s')) : e = .exhausted ∧ s'.tape = [] := by
  refine tournamentExec_safe h1 h2 h3 hal ?_ e s' h
  intro r hr
  obtain ⟨v, e⟩ := hsc r hr
  exact ⟨v, by unfold scoreKey; rw [e]⟩

/-! ## C27 -/

/-- C27: with positive scores every random number of `[0, 1)` selects exactly one existing individual, namely
the one whose interval of cumulative shares contains it. -/
theorem C27_wheel {ws sel : List ℚ} {r : ℚ} (hpos : ∀ w ∈ ws, 0 < w) (hne : ws ≠ [])
    (hs : selectionScores ws = .ok sel) (h0 : 0 ≤ r) (h1 : r < 1) :
    ∃! i : Nat, i < ws.length ∧ rouletteIndex sel r = (i : Int) ∧ share ws i ≤ r ∧ r < share ws (i + 1) := by
  have hsum : 0 < ws.sum := List.sum_pos _ hpos hne
  obtain ⟨i, e, hi, l1, l2⟩ := rouletteIndex_pos hs hsum.ne' (fun w hw => div_pos (hpos w hw) hsum) h0 h1
  refine ⟨i, ⟨hi, e, l1, l2⟩, ?_⟩
  rintro j ⟨_, e', _⟩
  rw [e] at e'
  omega

/-- C27: an individual owns an interval as wide as its share of the total score. -/
theorem C27_width {ws sel : List ℚ} (hpos : ∀ w ∈ ws, 0 < w) (hs : selectionScores ws = .ok sel)
    {i : Nat} {w : ℚ} (hi : ws[i]? = some w) :
    Owns (rouletteIndex sel) i (share ws i) (share ws (i + 1)) ∧ share ws (i + 1) - share ws i = w / ws.sum := by
  have hlt := (List.getElem?_eq_some_iff.mp hi).1
  have hne : ws ≠ [] := by rintro rfl; simp at hi
  have hsum : 0 < ws.sum := List.sum_pos _ hpos hne
  refine ⟨owns_pos hs hsum.ne' (fun w hw => div_pos (hpos w hw) hsum) i hlt, ?_⟩
  rw [share_succ hi]; ring

/-- C27: positive scores are always accepted. -/
theorem C27_accepted {ws : List ℚ} (hpos : ∀ w ∈ ws, 0 < w) : ∃ sel, selectionScores ws = .ok sel := by
  by_cases hne : ws = []
  · subst hne; exact ⟨_, rfl⟩
  · exact selectionScores_run (List.sum_pos _ hpos hne).ne'

/-- `a` and `b` stand at different positions which the wheel `sel` answers to some random numbers. -/
def SpunFrom (sel : List ℚ) (pop : List Nat) (a b : Nat) : Prop :=
  ∃ (i j : Nat) (q r : ℚ), i ≠ j ∧ pop[i]? = some a ∧ pop[j]? = some b ∧
    (0 ≤ q ∧ q < 1 ∧ rouletteIndex sel q = i) ∧ (0 ≤ r ∧ r < 1 ∧ rouletteIndex sel r = j)

theorem spunFrom {ws sel : List ℚ} {pop : List Nat} {a b : Nat} (hs : selectionScores ws = .ok sel)
    (hsum : ws.sum ≠ 0) (h : SpunPair id sel pop a b) : SpunFrom sel pop a b := by
  obtain ⟨i, j, q, r, q0, q1, r0, r1, hi, hj, hne, e1, e2⟩ := h
  rw [rouletteIndexR_id] at hi hj
  obtain ⟨i', ei, _⟩ := rouletteIndex_range hs hsum q0 q1
  obtain ⟨j', ej, _⟩ := rouletteIndex_range hs hsum r0 r1
  rw [hi, ei] at e1
  rw [hj, ej] at e2
  rw [pyGet?_nat] at e1 e2
  refine ⟨i', j', q, r, ?_, e1, e2, ⟨q0, q1, ei⟩, ⟨r0, r1, ej⟩⟩
  rintro rfl
  exact hne (by rw [hi, hj, ei, ej])

theorem scoreKey_forall {s : St ℚ} {s2 : St ℚ} (hr : Relabelled s s2) : ∀ {l : List Nat} {ws : List ℚ},
    List.Forall₂ (fun r q => scoreKey (s2.heap r) = .ok q) l ws → List.Forall₂ (fun r q => (s.heap r).score = some q) l ws := by
  intro l ws h
  refine h.imp ?_
  intro r q e
  rw [← (hr.core r).score]
  unfold scoreKey at e
  cases hs : (s2.heap r).score with
  | none => rw [hs] at e; simp at e
  | some v => rw [hs] at e; injection e with e; rw [e]

/-- C27 (with C29): when roulette selection returns, there are `int(children_percent * num_individ)` pairs of
parents, new objects equal to the members at two different positions answered by the wheel built from the
scores of the population. -/
theorem C27_roulette_parents {s s' : St ℚ} (hx : s.ga.attrs.arith = .exact) (hal : ∀ r ∈ s.ga.population, r < s.next) (hne : s.ga.population ≠ [])
    (h : balancedExec s = (.ok (), s')) :
    ∃ ws sel, List.Forall₂ (fun r w => (s.heap r).score = some w) s.ga.population ws ∧ selectionScores ws = .ok sel ∧
      ws.sum ≠ 0 ∧
      InPairs (s.ga.attrs.arith.share s.ga.childrenPercent s.ga.attrs.numIndivid 1) s'.ga.parents
        (fun x a => s.next ≤ x ∧ a ∈ s.ga.population ∧ s'.heap x = s'.heap a)
        (SpunFrom sel s.ga.population) := by
  obtain ⟨_, s2, ws, sel, ps, _, _, hr, hpar, hw, hs, hl, hc, hp⟩ := balancedWith_ok
    (by intro a b u hab; obtain ⟨_, rfl⟩ := pure_ok.mp hab; exact ⟨Relabelled.refl _, rfl⟩) hal h
  have hws : ws ≠ [] := by
    rintro rfl
    have := hw.length_eq
    simp at this
    exact hne this
  rw [hx, Arith.exact_rnd, selectionScoresR_id] at hs
  rw [hx, Arith.exact_rnd] at hp
  have hsum := (selectionScores_ok hs).2.1 hws
  refine ⟨ws, sel, scoreKey_forall hr hw, hs, hsum, ?_⟩
  have hnum : (s.ga.attrs.arith.share s.ga.childrenPercent s.ga.attrs.numIndivid 1) = ps.length := by
    rw [hl, numPairs_share]
  rw [hnum]
  have := inPairs_of_copied (P := SpunFrom sel s.ga.population) hpar hc (by rw [hr.next]; exact hal) (by
    intro p hpm
    obtain ⟨a, b, c⟩ := hp p hpm
    exact ⟨a, b, spunFrom hs hsum c⟩)
  rw [hr.next] at this
  exact this

/-! ## C28 -/

/-- C28, full claim: an individual with a score at least as high has at least the selection probability. -/
def RouletteMonotone : Prop := ∀ (ws sel : List ℚ) (i j : Nat) (wi wj a b c d : ℚ), ws.sum ≠ 0 →
  selectionScores ws = .ok sel → ws[i]? = some wi → ws[j]? = some wj → wi ≤ wj →
  Owns (rouletteIndex sel) i a b → Owns (rouletteIndex sel) j c d → b - a ≤ d - c

/-- C28 holds when all scores are positive. -/
theorem C28_prefers_better_partial {ws sel : List ℚ} {i j : Nat} {wi wj a b c d : ℚ} (hpos : ∀ w ∈ ws, 0 < w)
    (hs : selectionScores ws = .ok sel) (hi : ws[i]? = some wi) (hj : ws[j]? = some wj) (hij : wi ≤ wj)
    (h1 : Owns (rouletteIndex sel) i a b) (h2 : Owns (rouletteIndex sel) j c d) : b - a ≤ d - c := by
  obtain ⟨o1, e1⟩ := C27_width hpos hs hi
  obtain ⟨o2, e2⟩ := C27_width hpos hs hj
  have hsum : 0 < ws.sum := List.sum_pos _ hpos (by rintro rfl; simp at hi)
  rw [owns_width h1 o1, owns_width h2 o2, e1, e2]
  exact div_le_div_of_nonneg_right hij hsum.le

/-- C28 is reversed when all scores are negative (minimisation without a target value): the selection
probability is the share of the absolute value, so the worse individual is preferred. -/
theorem C28_negative_reversed {ws sel : List ℚ} {i : Nat} {wi : ℚ} (hneg : ∀ w ∈ ws, w < 0)
    (hs : selectionScores ws = .ok sel) (hi : ws[i]? = some wi) :
    ∃ a b, Owns (rouletteIndex sel) i a b ∧ b - a = |wi| / (ws.map abs).sum := by
  have hlt := (List.getElem?_eq_some_iff.mp hi).1
  have hne : ws ≠ [] := by rintro rfl; simp at hi
  have hs' : ∀ l : List ℚ, (∀ w ∈ l, w < 0) → l ≠ [] → l.sum < 0 ∧ (l.map abs).sum = - l.sum := by
    intro l
    induction l with
    | nil => intro _ h; exact absurd rfl h
    | cons x xs ih =>
      intro hl _
      have hx := hl x List.mem_cons_self
      by_cases hxs : xs = []
      · subst hxs; simp [abs_of_neg hx, hx]
      · obtain ⟨a, b⟩ := ih (fun w hw => hl w (List.mem_cons_of_mem _ hw)) hxs
        rw [List.map_cons, List.sum_cons, List.sum_cons, b, abs_of_neg hx]
        exact ⟨by linarith, by ring⟩
  obtain ⟨hsum, habs⟩ := hs' ws hneg hne
  refine ⟨_, _, owns_pos hs hsum.ne (fun w hw => div_pos_of_neg_of_neg (hneg w hw) hsum) i hlt, ?_⟩
  rw [share_succ hi, habs, abs_of_neg (hneg wi (List.mem_of_getElem? hi)), neg_div_neg_eq]
  ring

/-- C28 is false: with the scores `[-3, -1]` the worse individual is selected with probability 3/4. -/
theorem C28_prefers_better_refuted : ¬ RouletteMonotone := by
  intro h
  have hs : selectionScores [-3, -1] = .ok [0, 3/4, 1] := by
    unfold selectionScores
    rw [if_neg (by norm_num)]
    simp only [cumShares]
    norm_num
  have o := fun (i : Nat) (hi : i < 2) => owns_pos hs (by norm_num) (by
    intro w hw; simp at hw; rcases hw with rfl | rfl <;> norm_num) i hi
  have := h [-3, -1] _ 0 1 (-3) (-1) _ _ _ _ (by norm_num) hs rfl rfl (by norm_num) (o 0 (by omega)) (o 1 (by omega))
  norm_num [share] at this

/-- C28 is false even for non-negative scores: with the scores `[0, 0, 1]` the first of the two individuals
with score 0 is selected with probability 1/2, the second never. -/
theorem C28_zero_scores_refuted : ∃ (ws sel : List ℚ), (∀ w ∈ ws, 0 ≤ w) ∧ ws[0]? = ws[1]? ∧ selectionScores ws = .ok sel ∧
    Owns (rouletteIndex sel) 0 0 (1/2) ∧ Owns (rouletteIndex sel) 1 0 0 ∧ Owns (rouletteIndex sel) 2 (1/2) 1 := by
  have hw : ∀ r : ℚ, 0 ≤ r → r < 1 → rouletteIndex [0, 0, 0, 1] r = if r ≤ 1/2 then 0 else 2 := by
    intro r h0 h1
    unfold rouletteIndex argminDist
    simp only [argminLoop, lt_irrefl, if_false]
    rw [abs_of_pos (show (0 : ℚ) < 1 - r by linarith), abs_of_nonpos (show (0 : ℚ) - r ≤ 0 by linarith)]
    by_cases hr : r ≤ 1/2
    · rw [if_pos hr, if_neg (show ¬ 1 - r < -(0 - r) by linarith)]
      simp [h0]
    · rw [if_neg hr, if_pos (show 1 - r < -(0 - r) by linarith)]
      simp [h1]
  refine ⟨[0, 0, 1], [0, 0, 0, 1], by intro w hw; simp at hw; rcases hw with rfl | rfl <;> norm_num, rfl, ?_, ?_, ?_, ?_⟩
  · unfold selectionScores
    rw [if_neg (by norm_num)]
    simp only [cumShares]
    norm_num
  · refine ⟨by norm_num, by norm_num, by norm_num, ?_, ?_⟩
    · intro r h0 h1 _ h3; rw [hw r h0 h1, if_pos h3.le]
    · intro r h0 h1 h
      rw [hw r h0 h1] at h
      split at h
      · rename_i h2; exact ⟨h0, h2⟩
      · exact absurd h (by norm_num)
  · refine ⟨by norm_num, by norm_num, by norm_num, ?_, ?_⟩
    · intro r h0 h1 h2 h3; linarith
    · intro r h0 h1 h
      rw [hw r h0 h1] at h
      split at h
      · exact absurd h (by norm_num)
      · exact absurd h (by norm_num)
  · refine ⟨by norm_num, by norm_num, by norm_num, ?_, ?_⟩
    · intro r h0 h1 h2 _; rw [hw r h0 h1, if_neg (by linarith)]
    · intro r h0 h1 h
      rw [hw r h0 h1] at h
      split at h
      · exact absurd h (by norm_num)
      · rename_i h2; exact ⟨by linarith, h1.le⟩

/-! ## C29 -/

/-- C29: whatever the signs, a non-zero sum makes the wheel answer a position of the population. -/
theorem C29_index_in_range {ws sel : List ℚ} {r : ℚ} (hs : selectionScores ws = .ok sel) (hsum : ws.sum ≠ 0)
    (h0 : 0 ≤ r) (h1 : r < 1) : ∃ i : Nat, rouletteIndex sel r = (i : Int) ∧ i < ws.length :=
  rouletteIndex_range hs hsum h0 h1

/-- C29: non-zero sums are accepted; a zero sum of a non-empty list raises ZeroDivisionError. -/
theorem C29_zero_sum {ws : List ℚ} (hne : ws ≠ []) :
    (selectionScores ws = .error .zeroDivision ↔ ws.sum = 0) ∧ ((∃ sel, selectionScores ws = .ok sel) ↔ ws.sum ≠ 0) := by
  unfold selectionScores
  by_cases h : ws.sum = 0
  · rw [if_pos ⟨hne, h⟩]; simp [h]
  · rw [if_neg (by tauto)]; simp [h]

/-- C29: a wheel that can only ever answer one index never yields a pair: on every finite tape the draws run
out. -/
theorem C29_single_index_never_ends {sel : List ℚ} {i : Int} {s : St σ}
    (h : ∀ r, 0 ≤ r → r < 1 → rouletteIndexR s.ga.attrs.arith.rnd sel r = i) :
    ∃ s', roulettePair sel s = (.error .exhausted, s') := roulettePair_const h

/-- C29, whole selection: with all scores present and a non-zero sum, roulette selection fails only by running
out of draws (never with IndexError or another exception). -/
theorem C29_no_other_failure {s s' : St ℚ} {ws : List ℚ} {e : PyErr} (hx : s.ga.attrs.arith = .exact) (hal : ∀ r ∈ s.ga.population, r < s.next)
    (hw : List.Forall₂ (fun r w => (s.heap r).score = some w) s.ga.population ws) (hsum : ws.sum ≠ 0)
    (h : balancedExec s = (.error e, s')) : e = .exhausted := by
  unfold balancedExec balancedWith at h
  obtain ⟨s1, e1, ⟨hp, rfl⟩, e3, e4, e5⟩ := resetIdx_run s
  obtain ⟨s2, e6, d⟩ := reseed_drew { s with heap := hp }
  have hbase : baseSelection s = (.ok (), { s2 with ga := { s2.ga with parents := [] } }) := by
    unfold baseSelection newPopulation
    rw [bind_of_ok e1, bind_of_ok e6, modGa_run]
  obtain ⟨hr, hpar⟩ := baseSelection_relabelled hbase
  rw [bind_of_ok hbase] at h
  set s3 : St ℚ := { s2 with ga := { s2.ga with parents := [] } } with hs3
  rw [bind_of_ok (pure_run () s3)] at h
  have hpop : s3.ga.population = s.ga.population := by rw [hr.ga]
  have hweights : weights scoreKey s3 = (.ok ws, s3) := by
    unfold weights
    rw [bind_of_ok (getGa_run s3), hpop]
    have : ∀ {l : List Nat} {ws : List ℚ}, List.Forall₂ (fun r w => (s.heap r).score = some w) l ws →
        mapEach l (fun r => do let ind ← getInd r; liftE (scoreKey ind)) s3 = (.ok ws, s3) := by
      intro l ws hl
      induction hl with
      | nil => rfl
      | @cons x w _ _ hx _ ih =>
        have : scoreKey (s3.heap x) = .ok w := by
          unfold scoreKey; rw [(hr.core x).score, hx]
        rw [mapEach, bind_of_ok (bind_of_ok (getInd_run x s3) |>.trans ((liftE_run _ _).trans (congrArg (·, s3) this))),
          bind_of_ok ih]
        rfl
    exact this hw
  rw [bind_of_ok hweights] at h
  obtain ⟨sel, hsel⟩ := selectionScores_run hsum
  have har : s3.ga.attrs.arith = .exact := by rw [hr.ga]; exact hx
  rw [bind_of_ok (getGa_run s3), har, Arith.exact_rnd, selectionScoresR_id, hsel, bind_of_ok (liftE_run_ok sel s3)] at h
  exact roulette_err (wheelIn_exact (by rw [har]; rfl) hsel hsum) (by rw [hpop, hr.next]; exact hal) (by rw [hpop]; exact hw.length_eq) h

/-- C29: roulette selection leaves the population and the rest of the data object as it was. -/
theorem C29_population_kept {s s' : St ℚ} (hal : ∀ r ∈ s.ga.population, r < s.next)
    (h : balancedExec s = (.ok (), s')) :
    s'.ga = { s.ga with parents := s'.ga.parents } ∧ (∀ r, r < s.next → sameVisible (s.heap r) (s'.heap r)) ∧
    s'.calls = s.calls := by
  obtain ⟨hs, _⟩ := balancedWith_selected
    (by intro a b u hab; obtain ⟨_, rfl⟩ := pure_ok.mp hab; exact ⟨Relabelled.refl _, rfl⟩) hal h
  exact ⟨hs.ga, fun r hr => (hs.core r hr).visible, hs.calls⟩

/-! ## C30 -/

/-- C30: on a population sorted by score whose lowest score is not -1, the rank assignment succeeds and gives
every individual the mean of the 1-based positions of the individuals with an equal score (the same object
may stand at several positions); nothing but ranks changes.  The arithmetic only has to represent the
multiples of one half up to the population size. -/
theorem C30_average_ranks {s : St ℚ} {sc : List ℚ} (hhalf : HalfExact s.ga.attrs.arith.rnd sc.length)
    (hsc : List.Forall₂ (fun r v => (s.heap r).score = some v) s.ga.population sc)
    (hsort : sc.Pairwise (· ≤ ·)) (hsent : sc.head? ≠ some (-1)) :
    ∃ s', assignRanked scoreKey (fun q ind => { ind with rank := some (.sc q) }) s = (.ok (), s') ∧ s'.ga = s.ga ∧
      (∀ r, sameVisible (s.heap r) (s'.heap r)) ∧ (∀ r, r ∉ s.ga.population → s'.heap r = s.heap r) ∧
      ∀ (i r : Nat) (v : ℚ), s.ga.population[i]? = some r → sc[i]? = some v → (s'.heap r).rank = some (.sc (avgRank sc v)) := by
  have hk : HasKeys scoreKey (fun _ => True) sc s := by
    refine ⟨hsc.length_eq, ?_, fun _ _ => trivial, hhalf⟩
    intro i r hr
    have hi := (List.getElem?_eq_some_iff.mp hr).1
    have hi' : i < sc.length := by rw [← hsc.length_eq]; exact hi
    have := (List.forall₂_iff_get.mp hsc).2 i hi hi'
    simp only [List.get_eq_getElem] at this
    rw [List.getElem?_eq_getElem hi] at hr
    injection hr with hr
    rw [hr] at this
    unfold scoreKey
    rw [this, List.getD_eq_getElem?_getD, List.getElem?_eq_getElem hi']
    rfl
  obtain ⟨s', e, hrk, _, hranks⟩ := assignRanked_run rankOps_score hk hsort hsent
  refine ⟨s', e, hrk.2.1, fun r => (hrk.1.core r).visible, hrk.1.old, ?_⟩
  intro i r v hr hv
  have hi := (List.getElem?_eq_some_iff.mp hv).1
  have := hranks i hi r (by rw [hrk.2.1]; exact hr)
  rw [List.getD_eq_getElem?_getD, hv] at this
  unfold rankKey at this
  split at this
  · rename_i q hq
    injection this with this
    rw [hq, this]; rfl
  · simp at this

/-- C30: the ranks sum to `n (n + 1) / 2`. -/
theorem C30_rank_sum (sc : List ℚ) : (sc.map (avgRank sc)).sum = (sc.length : ℚ) * (sc.length + 1) / 2 :=
  avgRank_sum sc

theorem avgRank_pos {sc : List ℚ} {v : ℚ} (hv : v ∈ sc) : 0 < avgRank sc v := by
  unfold avgRank
  obtain ⟨i, hi, e⟩ := List.getElem_of_mem hv
  have hm : i ∈ tied sc v := by
    unfold tied
    rw [List.mem_filter, List.mem_range]
    exact ⟨hi, by rw [List.getElem?_eq_getElem hi, e]; simp⟩
  have hne : tied sc v ≠ [] := List.ne_nil_of_mem hm
  apply div_pos
  · apply List.sum_pos
    · intro x hx
      obtain ⟨j, _, rfl⟩ := List.mem_map.mp hx
      positivity
    · simpa using hne
  · exact_mod_cast List.length_pos_of_ne_nil hne

/-- Ranked selection is proportional to the ranks `F` the loop assigns, whatever they are. -/
theorem ranked_proportional {F : ℚ → ℚ} {s s' : St ℚ} {sc : List ℚ} (hx : s.ga.attrs.arith = .exact) (hal : ∀ r ∈ s.ga.population, r < s.next)
    (hsc : List.Forall₂ (fun r v => (s.heap r).score = some v) s.ga.population sc)
    (hne : sc ≠ []) (hpos : ∀ v ∈ sc, 0 < F v)
    (hF : ∀ s1 : St ℚ, s1.ga.attrs = s.ga.attrs → s1.ga.population = s.ga.population →
      List.Forall₂ (fun r v => (s1.heap r).score = some v) s1.ga.population sc →
      ∃ s2, assignRanked scoreKey (fun q ind => { ind with rank := some (.sc q) }) s1 = (.ok (), s2) ∧
        ∀ (i r : Nat) (v : ℚ), s1.ga.population[i]? = some r → sc[i]? = some v → (s2.heap r).rank = some (.sc (F v))) (h : rankedExec s = (.ok (), s')) :
    ∃ sel, selectionScores (sc.map F) = .ok sel ∧
      (∀ (i : Nat) (v : ℚ), sc[i]? = some v → ∃ a b, Owns (rouletteIndex sel) i a b ∧
        b - a = F v / (sc.map F).sum) ∧
      InPairs (s.ga.attrs.arith.share s.ga.childrenPercent s.ga.attrs.numIndivid 1) s'.ga.parents
        (fun x a => s.next ≤ x ∧ a ∈ s.ga.population ∧ s'.heap x = s'.heap a)
        (SpunFrom sel s.ga.population) ∧
      ∀ (i r : Nat) (v : ℚ), s.ga.population[i]? = some r → sc[i]? = some v → (s'.heap r).rank = some (.sc (F v)) := by
  obtain ⟨s1, s2, ws, sel, ps, hb, hpre, hr, hpar, hw, hs, hl, hc, hp⟩ := balancedWith_ok
    (by
      intro a b u hab
      have := assignRanked_ranked (fun q x => rankOps_score.core q x) hab
      exact ⟨this.1, by rw [this.2.1]⟩) hal h
  obtain ⟨hr1, _⟩ := baseSelection_relabelled hb
  have hpop1 : s1.ga.population = s.ga.population := by rw [hr1.ga]
  have hpop2 : s2.ga.population = s.ga.population := by rw [hr.ga]
  have hsc1 : List.Forall₂ (fun r v => (s1.heap r).score = some v) s1.ga.population sc := by
    rw [hpop1]
    refine hsc.imp ?_
    intro r v e
    rw [(hr1.core r).score]; exact e
  obtain ⟨s2', e2, hranks⟩ := hF s1 (by rw [hr1.ga]) hpop1 hsc1
  rw [e2] at hpre
  have hs2 : s2' = s2 := (Prod.mk.inj hpre).2
  subst hs2
  rw [hpop1] at hranks
  have hws : ws = sc.map F := by
    apply List.ext_getElem
    · rw [← hw.length_eq, List.length_map, hsc.length_eq]
    · intro i h1 h2
      rw [List.length_map] at h2
      have hi : i < s.ga.population.length := by rw [hsc.length_eq]; exact h2
      have := (List.forall₂_iff_get.mp hw).2 i hi h1
      simp only [List.get_eq_getElem] at this
      have hrk := hranks i _ _ (List.getElem?_eq_getElem hi) (List.getElem?_eq_getElem h2)
      unfold rankKey at this
      rw [hrk] at this
      injection this with this
      rw [← this]; simp
  subst hws
  have hpos : ∀ w ∈ sc.map F, 0 < w := by
    intro w hw
    obtain ⟨v, hv, rfl⟩ := List.mem_map.mp hw
    exact hpos v hv
  rw [hx, Arith.exact_rnd, selectionScoresR_id] at hs
  rw [hx, Arith.exact_rnd] at hp
  have hsum : 0 < (sc.map F).sum := List.sum_pos _ hpos (by simpa using hne)
  refine ⟨sel, hs, ?_, ?_, ?_⟩
  · intro i v hv
    obtain ⟨o, e⟩ := C27_width hpos hs (i := i) (w := F v) (by rw [List.getElem?_map, hv]; rfl)
    exact ⟨_, _, o, e⟩
  · have hnum : (s.ga.attrs.arith.share s.ga.childrenPercent s.ga.attrs.numIndivid 1) = ps.length := by
      rw [hl, numPairs_share]
    rw [hnum]
    have := inPairs_of_copied (P := SpunFrom sel s.ga.population) hpar hc (by rw [hr.next]; exact hal) (by
      intro p hpm
      obtain ⟨a, b, c⟩ := hp p hpm
      exact ⟨a, b, spunFrom hs hsum.ne' c⟩)
    rw [hr.next] at this
    exact this
  · intro i r v h1 h2
    have hm : r < s2'.next := by rw [hr.next]; exact hal r (List.mem_of_getElem? h1)
    rw [hc.old r hm]
    exact hranks i r v h1 h2

/-- C30: ranked selection is proportional to the average ranks.  When it returns on a sorted population with
lowest score other than -1, the pairs of parents are new objects equal to members at different positions
`i ≠ j`, where position `i` is answered exactly on an interval of width `rank_i / (n (n + 1) / 2)`. -/
theorem C30_ranked_proportional {s s' : St ℚ} {sc : List ℚ} (hx : s.ga.attrs.arith = .exact) (hal : ∀ r ∈ s.ga.population, r < s.next)
    (hsc : List.Forall₂ (fun r v => (s.heap r).score = some v) s.ga.population sc)
    (hne : sc ≠ []) (hsort : sc.Pairwise (· ≤ ·)) (hsent : sc.head? ≠ some (-1)) (h : rankedExec s = (.ok (), s')) :
    ∃ sel, selectionScores (sc.map (avgRank sc)) = .ok sel ∧
      (∀ (i : Nat) (v : ℚ), sc[i]? = some v → ∃ a b, Owns (rouletteIndex sel) i a b ∧
        b - a = avgRank sc v / ((sc.length : ℚ) * (sc.length + 1) / 2)) ∧
      InPairs (s.ga.attrs.arith.share s.ga.childrenPercent s.ga.attrs.numIndivid 1) s'.ga.parents
        (fun x a => s.next ≤ x ∧ a ∈ s.ga.population ∧ s'.heap x = s'.heap a)
        (SpunFrom sel s.ga.population) ∧
      ∀ (i r : Nat) (v : ℚ), s.ga.population[i]? = some r → sc[i]? = some v → (s'.heap r).rank = some (.sc (avgRank sc v)) := by
  have := ranked_proportional (F := avgRank sc) hx hal hsc hne (fun v hv => avgRank_pos hv) (by
    intro s1 ha _ hsc1
    obtain ⟨s2, e, _, _, _, hr⟩ := C30_average_ranks (s := s1) (by rw [ha, hx]; exact halfExact_id _) hsc1 hsort hsent
    exact ⟨s2, e, hr⟩) h
  rw [avgRank_sum] at this
  exact this

/-! ## C31 -/

/-- A state with the given scores, one object per score (used in examples and counterexamples). -/
def scored (sc : List ℚ) (tape : List Nat := []) : St ℚ :=
  { heap := fun i => { score := sc[i]?, genotype := some [.num i], idx := some i }, next := sc.length, tape := tape,
    ga := { population := List.range sc.length, childrenPercent := 1/2, attrs := { numIndivid := sc.length } } }

/-- C31, full claim: average ranks for every sorted population. -/
def RanksCorrect : Prop := ∀ (s : St ℚ) (sc : List ℚ), HalfExact s.ga.attrs.arith.rnd sc.length →
  List.Forall₂ (fun r v => (s.heap r).score = some v) s.ga.population sc → sc.Pairwise (· ≤ ·) →
  ∃ s', assignRanked scoreKey (fun q ind => { ind with rank := some (.sc q) }) s = (.ok (), s') ∧
    ∀ (i r : Nat) (v : ℚ), s.ga.population[i]? = some r → sc[i]? = some v → (s'.heap r).rank = some (.sc (avgRank sc v))

/-- C31 holds unless the lowest score is -1. -/
theorem C31_ranks_partial {s : St ℚ} {sc : List ℚ} (hhalf : HalfExact s.ga.attrs.arith.rnd sc.length)
    (hsc : List.Forall₂ (fun r v => (s.heap r).score = some v) s.ga.population sc)
    (hsort : sc.Pairwise (· ≤ ·)) (hsent : sc.head? ≠ some (-1)) :
    ∃ s', assignRanked scoreKey (fun q ind => { ind with rank := some (.sc q) }) s = (.ok (), s') ∧
    ∀ (i r : Nat) (v : ℚ), s.ga.population[i]? = some r → sc[i]? = some v → (s'.heap r).rank = some (.sc (avgRank sc v)) := by
  obtain ⟨s', e, _, _, _, h⟩ := C30_average_ranks hhalf hsc hsort hsent
  exact ⟨s', e, h⟩

/-- C31 is false: the scores `[-1, 0]` both get the rank 1/2 instead of 1 and 2. -/
theorem C31_ranks_refuted : ¬ RanksCorrect := by
  intro h
  obtain ⟨s', e, hr⟩ := h (scored [-1, 0]) [-1, 0] (halfExact_id _) (by simp [scored, List.range_succ]) (by norm_num)
  have h2 := hr 1 1 0 (by simp [scored]) (by simp)
  have h3 : (((assignRanked scoreKey (fun q ind => { ind with rank := some (.sc q) }) (scored [-1, 0])).2).heap 1).rank
      = some (.sc (1/2)) := by decide +kernel
  rw [e] at h3
  simp only at h3
  rw [h3] at h2
  injection h2 with h2
  injection h2 with h2
  have : avgRank [-1, 0] 0 = 2 := by decide +kernel
  rw [this] at h2
  norm_num at h2

/-! ## The hypotheses are met by concrete cases -/

example : (getBest scoreKey [0, 2, 1] (scored [3, 5, 5])).1 = .ok 2 := by decide +kernel
example : (tournamentExec 2 (scored [3, 5, 4] [0, 1, 0, 0, 1, 1])).2.ga.parents = [3, 4] ∧
    succeeded (tournamentExec 2 (scored [3, 5, 4] [0, 1, 0, 0, 1, 1])) = true := by decide +kernel
example : (balancedExec (scored [1, 3] [0, 9007199254740991])).2.ga.parents = [2, 3] := by decide +kernel
example : (rankedExec (scored [1, 3, 3] [0, 9007199254740991])).2.ga.parents = [3, 4] := by decide +kernel
example : avgRank [1, 3, 3] 3 = 5/2 := by decide +kernel
example : ∀ r ∈ (scored [3, 5, 4]).ga.population, r < (scored [3, 5, 4]).next := by decide +kernel
/-- A wheel with only one possible answer exists: a population of one individual. -/
example : selectionScores [5] = .ok [0, 1] ∧ ∀ r, 0 ≤ r → r < 1 → rouletteIndex [0, 1] r = 0 := by
  have hs : selectionScores [5] = .ok [0, 1] := by
    unfold selectionScores; rw [if_neg (by norm_num)]; simp only [cumShares]; norm_num
  refine ⟨hs, ?_⟩
  intro r h0 h1
  obtain ⟨i, e, hi⟩ := rouletteIndex_range hs (by norm_num) h0 h1
  simp at hi
  rw [e, hi]; rfl

end BaumEva
