import Verif.Proofs.Selection
import Verif.Spec.Selection
import Mathlib.Tactic.Linarith
import Mathlib.Tactic.FieldSimp
/-!
# Lemmas about the roulette wheel
-/
namespace BaumEva
open Spec
variable {σ : Type}

/-! ## cumulative shares -/

theorem cumShares_length (total : ℚ) : ∀ (ws : List ℚ) (acc : ℚ), (cumShares total ws acc).length = ws.length := by
  intro ws
  induction ws with
  | nil => intro acc; rfl
  | cons w ws ih => intro acc; simp [cumShares, ih]

theorem cumShares_get (total : ℚ) : ∀ (ws : List ℚ) (acc : ℚ) (i : Nat), i < ws.length →
    (cumShares total ws acc)[i]? = some (acc + (ws.take (i + 1)).sum / total) := by
  intro ws
  induction ws with
  | nil => intro acc i h; simp at h
  | cons w ws ih =>
    intro acc i h
    cases i with
    | zero => simp [cumShares]
    | succ i =>
      simp only [cumShares, List.getElem?_cons_succ]
      rw [ih _ i (by simpa using h)]
      simp only [List.take_succ_cons, List.sum_cons]
      congr 1
      ring

theorem selectionScores_ok {ws sel : List ℚ} (h : selectionScores ws = .ok sel) :
    sel.length = ws.length + 1 ∧ (ws ≠ [] → ws.sum ≠ 0) ∧ ∀ i, i ≤ ws.length → sel[i]? = some (share ws i) := by
  unfold selectionScores at h
  split at h
  · simp at h
  · rename_i hc
    push Not at hc
    injection h with h
    subst h
    refine ⟨by simp [cumShares_length], hc, ?_⟩
    intro i hi
    cases i with
    | zero => simp [share]
    | succ i =>
      rw [List.getElem?_cons_succ, cumShares_get _ _ _ _ (by omega)]
      simp [share]

theorem selectionScores_run {ws : List ℚ} (h : ws.sum ≠ 0) : ∃ sel, selectionScores ws = .ok sel := by
  unfold selectionScores
  rw [if_neg (by tauto)]
  exact ⟨_, rfl⟩

theorem share_zero (ws : List ℚ) : share ws 0 = 0 := by simp [share]

theorem share_full {ws : List ℚ} (h : ws.sum ≠ 0) : share ws ws.length = 1 := by
  simp [share, h]

theorem share_succ {ws : List ℚ} {i : Nat} {w : ℚ} (h : ws[i]? = some w) :
    share ws (i + 1) = share ws i + w / ws.sum := by
  unfold share
  rw [List.take_add_one, h]
  simp [add_div]

/-! ## nearest share -/

theorem argminLoop_spec (r : ℚ) : ∀ (xs : List ℚ) (i best : Nat) (d : ℚ) (sel : List ℚ),
    (∀ k, xs[k]? = sel[i + k]?) → sel.length = i + xs.length → best < i → (∃ y, sel[best]? = some y ∧ |y - r| = d) →
    (∀ j, j < i → ∀ y, sel[j]? = some y → d ≤ |y - r|) →
    ∃ y, sel[argminLoop r xs i best d]? = some y ∧ ∀ (j : Nat) (z : ℚ), sel[j]? = some z → |y - r| ≤ |z - r| := by
  intro xs
  induction xs with
  | nil =>
    intro i best d sel hx hl hb ⟨y, hy, hd⟩ hmin
    refine ⟨y, hy, ?_⟩
    intro j z hz
    rw [hd]
    have := (List.getElem?_eq_some_iff.mp hz).1
    simp at hl
    exact hmin j (by omega) z hz
  | cons x xs ih =>
    intro i best d sel hx hl hb ⟨y, hy, hd⟩ hmin
    have hxi : sel[i]? = some x := by have := hx 0; simpa using this.symm
    rw [argminLoop]
    split
    · rename_i hlt
      refine ih (i + 1) i _ sel ?_ (by simp at hl; omega) (by omega) ⟨x, hxi, rfl⟩ ?_
      · intro k; rw [show i + 1 + k = i + (k + 1) by omega, ← hx]; simp
      · intro j hj z hz
        rcases Nat.lt_succ_iff_lt_or_eq.mp hj with hj | rfl
        · exact hlt.le.trans (hmin j hj z hz)
        · rw [hxi] at hz; injection hz with hz; rw [hz]
    · rename_i hlt
      refine ih (i + 1) best d sel ?_ (by simp at hl; omega) (by omega) ⟨y, hy, hd⟩ ?_
      · intro k; rw [show i + 1 + k = i + (k + 1) by omega, ← hx]; simp
      · intro j hj z hz
        rcases Nat.lt_succ_iff_lt_or_eq.mp hj with hj | rfl
        · exact hmin j hj z hz
        · rw [hxi] at hz; injection hz with hz; rw [← hz]; exact not_lt.mp hlt

theorem argminDist_spec {sel : List ℚ} (r : ℚ) (h : sel ≠ []) :
    ∃ y, sel[argminDist sel r]? = some y ∧ ∀ (j : Nat) (z : ℚ), sel[j]? = some z → |y - r| ≤ |z - r| := by
  cases sel with
  | nil => exact absurd rfl h
  | cons x xs =>
    unfold argminDist
    refine argminLoop_spec r xs 1 0 _ (x :: xs) ?_ (by simp; omega) (by omega) ⟨x, by simp, rfl⟩ ?_
    · intro k; rw [show 1 + k = k + 1 by omega]; simp
    · intro j hj y hy
      have : j = 0 := by omega
      subst this
      simp at hy
      rw [hy]

/-! ## the wheel -/

/-- For any signs: the index is that of an existing individual. -/
theorem rouletteIndex_range {ws sel : List ℚ} {r : ℚ} (hs : selectionScores ws = .ok sel) (hsum : ws.sum ≠ 0)
    (h0 : 0 ≤ r) (h1 : r < 1) : ∃ i : Nat, rouletteIndex sel r = (i : Int) ∧ i < ws.length := by
  obtain ⟨hl, _, hsel⟩ := selectionScores_ok hs
  obtain ⟨y, hy, _⟩ := argminDist_spec r (sel := sel) (by intro e; rw [e] at hl; simp at hl)
  have hlt := (List.getElem?_eq_some_iff.mp hy).1
  unfold rouletteIndex
  simp only
  rw [List.getD_eq_getElem?_getD, hy, Option.getD_some]
  split
  · rename_i hle
    refine ⟨_, rfl, ?_⟩
    by_contra hc
    have e : argminDist sel r = ws.length := by omega
    rw [e, hsel _ le_rfl, share_full hsum] at hy
    injection hy with hy
    rw [← hy] at hle
    linarith
  · rename_i hle
    have hpos : argminDist sel r ≠ 0 := by
      intro e
      rw [e, hsel 0 (by omega), share_zero] at hy
      injection hy with hy
      rw [← hy] at hle
      exact hle h0
    exact ⟨argminDist sel r - 1, by omega, by omega⟩

/-- All shares positive: the index is that of the half-open interval containing `r`. -/
theorem rouletteIndex_pos {ws sel : List ℚ} {r : ℚ} (hs : selectionScores ws = .ok sel) (hsum : ws.sum ≠ 0)
    (hpos : ∀ w ∈ ws, 0 < w / ws.sum) (h0 : 0 ≤ r) (h1 : r < 1) :
    ∃ i : Nat, rouletteIndex sel r = (i : Int) ∧ i < ws.length ∧ share ws i ≤ r ∧ r < share ws (i + 1) := by
  obtain ⟨hl, _, hsel⟩ := selectionScores_ok hs
  have hstep : ∀ i, i < ws.length → share ws i < share ws (i + 1) := by
    intro i hi
    rw [share_succ (List.getElem?_eq_getElem hi)]
    have := hpos _ (List.getElem_mem hi)
    linarith
  obtain ⟨y, hy, hmin⟩ := argminDist_spec r (sel := sel) (by intro e; rw [e] at hl; simp at hl)
  have hlt := (List.getElem?_eq_some_iff.mp hy).1
  obtain ⟨i, hi, hilt⟩ := rouletteIndex_range hs hsum h0 h1
  refine ⟨i, hi, hilt, ?_⟩
  unfold rouletteIndex at hi
  simp only at hi
  rw [List.getD_eq_getElem?_getD, hy, Option.getD_some] at hi
  have hy' : y = share ws (argminDist sel r) := by
    rw [hsel _ (by omega)] at hy; injection hy with hy; exact hy.symm
  split at hi
  · rename_i hle
    have e : i = argminDist sel r := by omega
    subst e
    rw [← hy']
    refine ⟨hle, ?_⟩
    by_contra hc
    push Not at hc
    have hm := hmin _ _ (hsel (argminDist sel r + 1) (by omega))
    have hst := hstep _ hilt
    rw [← hy'] at hst
    rw [abs_of_nonpos (by linarith), abs_of_nonpos (by linarith)] at hm
    linarith
  · rename_i hle
    push Not at hle
    have e : argminDist sel r = i + 1 := by omega
    rw [e] at hy'
    rw [← hy']
    refine ⟨?_, hle⟩
    by_contra hc
    push Not at hc
    have hm := hmin _ _ (hsel i (by omega))
    have hst := hstep _ hilt
    rw [← hy'] at hst
    rw [abs_of_pos (by linarith), abs_of_pos (by linarith)] at hm
    linarith

theorem share_mono {ws : List ℚ} (hpos : ∀ w ∈ ws, 0 < w / ws.sum) {i j : Nat} (hij : i ≤ j) (hj : j ≤ ws.length) :
    share ws i ≤ share ws j := by
  induction j, hij using Nat.le_induction with
  | base => rfl
  | succ j hij ih =>
    have := ih (by omega)
    rw [share_succ (List.getElem?_eq_getElem (show j < ws.length by omega))]
    have := hpos _ (List.getElem_mem (show j < ws.length by omega))
    linarith

theorem rouletteIndex_iff {ws sel : List ℚ} {r : ℚ} (hs : selectionScores ws = .ok sel) (hsum : ws.sum ≠ 0)
    (hpos : ∀ w ∈ ws, 0 < w / ws.sum) (h0 : 0 ≤ r) (h1 : r < 1) (i : Nat) (hi : i < ws.length) :
    rouletteIndex sel r = (i : Int) ↔ share ws i ≤ r ∧ r < share ws (i + 1) := by
  obtain ⟨j, e, hj, l1, l2⟩ := rouletteIndex_pos hs hsum hpos h0 h1
  rw [e]
  constructor
  · intro h
    have : j = i := by omega
    subst this; exact ⟨l1, l2⟩
  · rintro ⟨m1, m2⟩
    rcases lt_trichotomy i j with h | h | h
    · have := share_mono hpos (show i + 1 ≤ j by omega) (by omega)
      linarith
    · rw [h]
    · have := share_mono hpos (show j + 1 ≤ i by omega) (by omega)
      linarith

theorem owns_pos {ws sel : List ℚ} (hs : selectionScores ws = .ok sel) (hsum : ws.sum ≠ 0)
    (hpos : ∀ w ∈ ws, 0 < w / ws.sum) (i : Nat) (hi : i < ws.length) :
    Owns (rouletteIndex sel) i (share ws i) (share ws (i + 1)) := by
  refine ⟨?_, share_mono hpos (by omega) (by omega), ?_, ?_, ?_⟩
  · rw [← share_zero ws]; exact share_mono hpos (by omega) (by omega)
  · rw [← share_full hsum]; exact share_mono hpos (by omega) le_rfl
  · intro r h0 h1 ha hb
    exact (rouletteIndex_iff hs hsum hpos h0 h1 i hi).mpr ⟨ha.le, hb⟩
  · intro r h0 h1 h
    obtain ⟨x, y⟩ := (rouletteIndex_iff hs hsum hpos h0 h1 i hi).mp h
    exact ⟨x, y.le⟩

/-- The width of the owned interval is determined. -/
theorem owns_width_le {wheel : ℚ → Int} {i : Int} {a b c d : ℚ} (h1 : Owns wheel i a b) (h2 : Owns wheel i c d) :
    b - a ≤ d - c := by
  obtain ⟨a0, ab, b1, hin, _⟩ := h1
  obtain ⟨c0, cd, d1, _, hout⟩ := h2
  by_contra hc
  push Not at hc
  have hab : a < b := by linarith
  have key : ∀ r, a < r → r < b → c ≤ r ∧ r ≤ d := fun r x y =>
    hout r (by linarith) (by linarith) (hin r (by linarith) (by linarith) x y)
  have hca : c ≤ a := by
    by_contra h
    push Not at h
    have hm : a < min b c := lt_min hab h
    have := (key ((a + min b c) / 2) (by linarith) (by have := min_le_left b c; linarith)).1
    have := min_le_right b c
    linarith
  have hbd : b ≤ d := by
    by_contra h
    push Not at h
    have hm : max a d < b := max_lt hab h
    have := (key ((b + max a d) / 2) (by have := le_max_left a d; linarith) (by linarith)).2
    have := le_max_right a d
    linarith
  linarith

theorem owns_width {wheel : ℚ → Int} {i : Int} {a b c d : ℚ} (h1 : Owns wheel i a b) (h2 : Owns wheel i c d) :
    b - a = d - c := le_antisymm (owns_width_le h1 h2) (owns_width_le h2 h1)

/-! ## never-ending pairs -/

theorem getIndex_run (sel : List ℚ) (s : St σ) :
    (∃ s', getIndex sel s = (.error .exhausted, s')) ∨
    ∃ r s', 0 ≤ r ∧ r < 1 ∧ getIndex sel s = (.ok (rouletteIndexR s.ga.attrs.arith.rnd sel r), s') ∧ s'.tape.length + 1 = s.tape.length ∧
      Drew s s' := by
  rcases h : getIndex sel s with ⟨x, s'⟩
  cases x with
  | error e =>
    left
    refine ⟨s', ?_⟩
    unfold getIndex random01 at h
    rw [bind_of_ok (getGa_run s)] at h
    cases ht : s.tape with
    | nil =>
      have hd : draw s = (.error .exhausted, s) := by unfold draw; simp only [ht]
      rw [bind_of_err (bind_of_err hd)] at h
      rw [(Prod.mk.inj h).1.symm]
    | cons x t =>
      have hd : draw s = (.ok x, { s with tape := t }) := by unfold draw; simp only [ht]
      rw [bind_run, bind_of_ok hd, pure_run] at h
      simp only [pure_run] at h
      exact absurd (Prod.mk.inj h).1 (by simp)
  | ok i =>
    right
    have h' := h
    unfold getIndex at h'
    rw [bind_of_ok (getGa_run s)] at h'
    obtain ⟨r, s1, h1, h2⟩ := bind_ok.mp h'
    obtain ⟨rfl, rfl⟩ := pure_ok.mp h2
    obtain ⟨a, b, c⟩ := random01_ok h1
    obtain ⟨x, e, _⟩ := random01_tape h1
    exact ⟨r, s', a, b, rfl, by rw [e]; simp, c⟩

theorem secondIndex_const {rnd : ℚ → ℚ} {sel : List ℚ} {i : Int} (h : ∀ r, 0 ≤ r → r < 1 → rouletteIndexR rnd sel r = i) :
    ∀ (f : Nat) (s : St σ), s.ga.attrs.arith.rnd = rnd → ∃ s', secondIndex sel i f s = (.error .exhausted, s') := by
  intro f
  induction f with
  | zero => intro s _; exact ⟨s, rfl⟩
  | succ f ih =>
    intro s hx
    rw [secondIndex]
    rcases getIndex_run sel s with ⟨s', e⟩ | ⟨r, s', h0, h1, e, _, d⟩
    · exact ⟨s', bind_of_err e⟩
    · rw [bind_of_ok e, ite_run, hx, h r h0 h1, if_neg (by simp)]
      exact ih s' (by obtain ⟨_, rfl⟩ := d; exact hx)

theorem roulettePair_const {sel : List ℚ} {i : Int} {s : St σ}
    (h : ∀ r, 0 ≤ r → r < 1 → rouletteIndexR s.ga.attrs.arith.rnd sel r = i) : ∃ s', roulettePair sel s = (.error .exhausted, s') := by
  unfold roulettePair
  rcases getIndex_run sel s with ⟨s', e⟩ | ⟨r, s', h0, h1, e, _, d⟩
  · exact ⟨s', bind_of_err e⟩
  · rw [bind_of_ok e, h r h0 h1, bind_of_ok (getS_run s')]
    obtain ⟨s2, e2⟩ := secondIndex_const h (s'.tape.length + 1) s' (by obtain ⟨_, rfl⟩ := d; rfl)
    exact ⟨s2, bind_of_err e2⟩

/-! ## no other failure -/

theorem secondIndex_err {sel : List ℚ} {i : Int} : ∀ {f : Nat} {s s' : St σ} {e : PyErr},
    secondIndex sel i f s = (.error e, s') → e = .exhausted := by
  intro f
  induction f with
  | zero => intro s s' e h; rw [secondIndex, throwE_run] at h; simp at h; exact h.1.symm
  | succ f ih =>
    intro s s' e h
    rw [secondIndex] at h
    rcases getIndex_run sel s with ⟨s1, e1⟩ | ⟨r, s1, _, _, e1, _⟩
    · rw [bind_of_err e1] at h; simp at h; exact h.1.symm
    · rw [bind_of_ok e1, ite_run] at h
      split at h
      · rw [pure_run] at h; simp at h
      · exact ih h

theorem addParent_run (r : Nat) (s : St σ) : ∃ s', addParent r s = (.ok (), s') := ⟨_, rfl⟩

/-- The wheel answers a position below `n` for every random number. -/
def WheelIn (rnd : ℚ → ℚ) (sel : List ℚ) (n : Nat) : Prop :=
  ∀ r, 0 ≤ r → r < 1 → ∃ i : Nat, rouletteIndexR rnd sel r = (i : Int) ∧ i < n

theorem wheelIn_exact {rnd : ℚ → ℚ} (hx : rnd = id) {ws sel : List ℚ} (hs : selectionScores ws = .ok sel) (hsum : ws.sum ≠ 0) :
    WheelIn rnd sel ws.length := by
  subst hx
  intro r h0 h1
  rw [rouletteIndexR_id]
  exact rouletteIndex_range hs hsum h0 h1

theorem roulettePair_err {n : Nat} {sel : List ℚ} {s s' : St σ} {e : PyErr} (hw : WheelIn s.ga.attrs.arith.rnd sel n)
    (hlen : s.ga.population.length = n) (h : roulettePair sel s = (.error e, s')) :
    e = .exhausted := by
  unfold roulettePair at h
  rcases getIndex_run sel s with ⟨s1, e1⟩ | ⟨r, s1, h0, h1, e1, _, d1⟩
  · rw [bind_of_err e1] at h; simp at h; exact h.1.symm
  rw [bind_of_ok e1, bind_of_ok (getS_run s1)] at h
  rcases hm : secondIndex sel (rouletteIndexR s.ga.attrs.arith.rnd sel r) (s1.tape.length + 1) s1 with ⟨x, s2⟩
  cases x with
  | error e2 =>
    rw [bind_of_err hm] at h; simp at h; rw [← h.1]; exact secondIndex_err hm
  | ok j =>
    rw [bind_of_ok hm] at h
    obtain ⟨⟨q, q0, q1, hj⟩, _, d2⟩ := secondIndex_ok hm
    rw [show s1.ga = s.ga by obtain ⟨_, rfl⟩ := d1; rfl] at hj
    obtain ⟨i', ei, hi⟩ := hw r h0 h1
    obtain ⟨j', ej, hj'⟩ := hw q q0 q1
    have hp : s2.ga.population = s.ga.population := by
      obtain ⟨_, rfl⟩ := d1; obtain ⟨_, rfl⟩ := d2; rfl
    rw [ei, bind_of_ok (popAt_run (List.getElem?_eq_getElem (by rw [hp]; omega)))] at h
    obtain ⟨s3, e3⟩ := addParent_run (s2.ga.population[i']'(by rw [hp]; omega)) s2
    rw [bind_of_ok e3] at h
    have hp3 : s3.ga.population = s.ga.population := by rw [(addParent_copied e3).ga]; exact hp
    rw [hj, ej, bind_of_ok (popAt_run (List.getElem?_eq_getElem (by rw [hp3]; omega)))] at h
    obtain ⟨s4, e4⟩ := addParent_run (s3.ga.population[j']'(by rw [hp3]; omega)) s3
    rw [e4] at h
    simp at h

theorem roulette_err {n : Nat} {sel : List ℚ} {m : Nat} {s s' : St σ} {e : PyErr} (hw : WheelIn s.ga.attrs.arith.rnd sel n)
    (hal : ∀ r ∈ s.ga.population, r < s.next)
    (hlen : s.ga.population.length = n) (h : roulette sel m s = (.error e, s')) : e = .exhausted := by
  unfold roulette at h
  rw [bind_of_ok (getGa_run s)] at h
  have aux : ∀ (l : List Nat) (s s' : St σ), WheelIn s.ga.attrs.arith.rnd sel n → s.ga.population.length = n → (∀ r ∈ s.ga.population, r < s.next) →
      forEach l (fun _ => roulettePair sel) s = (.error e, s') → e = .exhausted := by
    intro l
    induction l with
    | nil => intro s s' _ _ _ h; rw [forEach_nil] at h; simp at h
    | cons x xs ih =>
      intro s s' hw hlen hal h
      rw [forEach, bind_run] at h
      rcases hm : roulettePair sel s with ⟨y, s1⟩
      rw [hm] at h
      cases y with
      | error e1 => simp at h; rw [← h.1]; exact roulettePair_err hw hlen hm
      | ok u =>
        simp only at h
        obtain ⟨a, b, hc, _⟩ := roulettePair_ok hal hm
        have hp : s1.ga.population = s.ga.population := by rw [hc.ga]
        refine ih s1 s' (by rw [hc.ga]; exact hw) (by rw [hp]; exact hlen) ?_ h
        intro r hr
        rw [hp] at hr
        have := hal r hr
        rw [hc.next]; omega
  exact aux _ s s' hw hlen hal h

end BaumEva
