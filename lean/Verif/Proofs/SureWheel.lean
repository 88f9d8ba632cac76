import Verif.Proofs.Sure
import Verif.Proofs.AnySelection
import Verif.Proofs.SafeRanked
/-!
# The roulette succeeds with probability one
-/
namespace BaumEva
open Spec
variable {σ : Type}

/-- No second place is found with the draws `te`. -/
def Stuck (sel : List ℚ) (i : Int) (s : St σ) (te : List Nat) : Prop :=
  ¬ ∃ f j s', secondIndex sel i f { s with tape := te } = (.ok j, s')

/-- The place the draw `x` stops at. -/
def stopAt (rnd : ℚ → ℚ) (sel : List ℚ) (x : Nat) : Int := rouletteIndexR rnd sel (((x % 2 ^ 53 : Nat) : ℚ) / ((2 ^ 53 : Nat) : ℚ))

theorem Stuck.step {sel : List ℚ} {i : Int} {s : St σ} {x : Nat} {u : List Nat} (h : Stuck sel i s (x :: u)) :
    stopAt s.ga.attrs.arith.rnd sel x = i ∧ Stuck sel i s u := by
  by_cases hd : stopAt s.ga.attrs.arith.rnd sel x = i
  · refine ⟨hd, ?_⟩
    rintro ⟨f, j, s', hx⟩
    refine h ⟨f + 1, j, s', ?_⟩
    rw [secondIndex, bind_of_ok (getIndex_cons (s := { s with tape := x :: u }) rfl)]
    exact (congrFun (if_neg (by simpa [stopAt] using hd)) _).trans hx
  · refine absurd ⟨1, stopAt s.ga.attrs.arith.rnd sel x, { s with tape := u }, ?_⟩ h
    rw [secondIndex, bind_of_ok (getIndex_cons (s := { s with tape := x :: u }) rfl)]
    exact congrFun (if_pos (by simpa [stopAt] using hd)) _

theorem chance_stuck {B : Nat} (hB : 2 ^ 53 ≤ B) {sel : List ℚ} {i : Int} {s : St σ} (hw : TwoStops s.ga.attrs.arith.rnd sel) :
    ∀ k M, chance B (k + M) (Stuck sel i s) ≤ (1 - 1 / (B : ℚ)) ^ k := by
  have hB0 : 0 < B := by omega
  have hBq : (1 : ℚ) ≤ B := by exact_mod_cast hB0
  have hp0 : 0 ≤ 1 - 1 / (B : ℚ) := by
    have : 1 / (B : ℚ) ≤ 1 := by rw [div_le_one (by linarith)]; exact hBq
    linarith
  obtain ⟨x, hxB, hx⟩ : ∃ x : Nat, x < B ∧ stopAt s.ga.attrs.arith.rnd sel x ≠ i := by
    have hlt : ∀ x : Nat, x % 2 ^ 53 < B := fun x => (Nat.mod_lt x (by norm_num)).trans_le hB
    obtain ⟨x, y, hne⟩ := hw
    by_cases h : stopAt s.ga.attrs.arith.rnd sel x = i
    · refine ⟨y % 2 ^ 53, hlt y, fun e => hne ?_⟩
      unfold stopAt at h e
      rw [Nat.mod_mod] at e
      exact h.trans e.symm
    · refine ⟨x % 2 ^ 53, hlt x, fun e => h ?_⟩
      unfold stopAt at e ⊢
      rw [Nat.mod_mod] at e
      exact e
  intro k
  induction k with
  | zero => intro M; rw [pow_zero]; exact chance_le_one hB0
  | succ k ih =>
    intro M
    rw [show k + 1 + M = 1 + (k + M) by omega]
    set P := (1 - 1 / (B : ℚ)) ^ k with hP
    have hP0 : 0 ≤ P := pow_nonneg hp0 _
    refine (chance_split hB0 (a := 0) (b := P) (q := fun t => ∃ y, t = [y] ∧ stopAt s.ga.attrs.arith.rnd sel y = i) ?_ ?_).trans ?_
    · rintro t _ ⟨y, rfl, _⟩
      rw [zero_add]
      exact le_trans (chance_mono fun u hu => (Stuck.step hu).2) (ih M)
    · intro t ht hq
      rw [mem_tapes] at ht
      obtain ⟨y, rfl⟩ := List.length_eq_one_iff.mp ht.1
      rw [chance_none]
      intro u hu
      exact hq ⟨y, rfl, (Stuck.step hu).1⟩
    · rw [zero_add, pow_succ]
      refine mul_le_mul_of_nonneg_left ?_ hP0
      have := chance_some (K := 1) hB0 (p := fun t => ∃ y, t = [y] ∧ stopAt s.ga.attrs.arith.rnd sel y = i) (t := [x])
        (mem_tapes.mpr ⟨rfl, by simpa using hxB⟩) (by
          rintro ⟨y, e, h⟩
          injection e with e
          exact hx (e ▸ h))
      simpa using this

theorem secondIndex_sure {B : Nat} (hB : 2 ^ 53 ≤ B) {sel : List ℚ} {i : Int} {s : St σ} (hw : TwoStops s.ga.attrs.arith.rnd sel) :
    Sure B (getS >>= fun st => secondIndex sel i (st.tape.length + 1)) s := by
  have hB0 : 0 < B := by omega
  have left : ∀ (te : List Nat) u, Stuck sel i s (te ++ u) → Stuck sel i s u := by
    intro te
    induction te with
    | nil => intro u h; exact h
    | cons x te ih => intro u h; exact ih u (Stuck.step (by simpa using h)).2
  intro ε hε
  have hBq : (0 : ℚ) < B := by exact_mod_cast hB0
  obtain ⟨k, hk⟩ := exists_pow_lt_of_lt_one hε (show 1 - 1 / (B : ℚ) < 1 by
    have : 0 < 1 / (B : ℚ) := by positivity
    linarith)
  refine ⟨k, fun L hL => ?_⟩
  obtain ⟨M, rfl⟩ : ∃ M, L = k + M := ⟨L - k, by omega⟩
  refine le_trans (chance_mono fun u hu => ?_) ((chance_stuck (i := i) (s := s) hB hw k M).trans hk.le)
  refine left s.tape u ?_
  rintro ⟨f, r, s', hx⟩
  refine hu ⟨r, s', ?_⟩
  rw [bind_of_ok (getS_run _)]
  have hx : secondIndex sel i f (s.more u) = (.ok r, s') := hx
  exact secondIndex_mono (by omega) (secondIndex_rounds hx).2

theorem roulettePair_sure {B : Nat} (hB : 2 ^ 53 ≤ B) {n : Nat} {sel : List ℚ} {s : St σ} (hin : WheelIn s.ga.attrs.arith.rnd sel n)
    (hw : TwoStops s.ga.attrs.arith.rnd sel) (hseed : s.seed = none) (hlen : s.ga.population.length = n) :
    Sure B (roulettePair sel) s := by
  have hat : ∀ {i : Int} {x : St σ}, x.ga.population = s.ga.population → (∃ r, 0 ≤ r ∧ r < 1 ∧ i = rouletteIndexR s.ga.attrs.arith.rnd sel r) →
      ∃ a, popAt i x = (.ok a, x) := by
    rintro i x hp ⟨r, h0, h1, rfl⟩
    obtain ⟨j, e, hj⟩ := hin r h0 h1
    refine ⟨s.ga.population[j]'(by omega), popAt_ok.mpr ⟨?_, rfl⟩⟩
    rw [e, pyGet?_nat, hp, List.getElem?_eq_getElem (by omega)]
  unfold roulettePair
  refine Sure.bind (by omega) hseed (Tame.getIndex sel).ext (Sure.of_tame hseed (Tame.getIndex sel) fun u => getIndex_safe sel _) ?_
  intro u i s1 e
  obtain ⟨q, q0, q1, hi, d1, _⟩ := getIndex_ok e
  have hg1 : s1.ga = s.ga := by obtain ⟨_, rfl⟩ := d1; rfl
  refine (secondIndex_sure (i := i) (s := s1) hB (by rw [hg1]; exact hw)).congr ?_
  intro w j s2 h
  rw [bind_of_ok (getS_run _)] at h
  obtain ⟨hj, _, d2⟩ := secondIndex_ok h
  rw [show (s1.more w).ga = s.ga from hg1] at hj
  have hp2 : s2.ga.population = s.ga.population := by
    obtain ⟨_, rfl⟩ := d1
    obtain ⟨_, rfl⟩ := d2
    rfl
  obtain ⟨a, ha⟩ := hat hp2 ⟨q, q0, q1, hi⟩
  obtain ⟨s3, e3⟩ : ∃ s', addParent a s2 = (.ok (), s') := ⟨_, rfl⟩
  have c1 := addParent_copied e3
  obtain ⟨b, hb⟩ := hat (x := s3) (by rw [c1.ga]; exact hp2) hj
  obtain ⟨s4, e4⟩ : ∃ s', addParent b s3 = (.ok (), s') := ⟨_, rfl⟩
  refine ⟨(), s4, ?_⟩
  refine (bind_of_ok (getS_run _)).trans ?_
  refine (bind_of_ok h).trans ?_
  rw [bind_of_ok ha, bind_of_ok e3, bind_of_ok hb]
  exact e4

/-- Every member has a positive weight, and the first does not exceed the rest beyond measure. -/
structure Balance (w : Ind σ → Except PyErr ℚ) (s : St σ) : Prop where
  pos : ∀ r ∈ s.ga.population, ∃ q, w (s.heap r) = .ok q ∧ 0 < q
  fair : ∀ ws, List.Forall₂ (fun r q => w (s.heap r) = .ok q) s.ga.population ws →
    ∃ a rest, ws = a :: rest ∧ a ≤ (2 ^ 53 - 1) * rest.sum

/-- Weights between `lo` and `hi`. -/
theorem Balance.of_range {w : Ind σ → Except PyErr ℚ} {s : St σ} (h2 : 2 ≤ s.ga.population.length) {lo hi : ℚ} (h0 : 0 < lo)
    (hr : ∀ r ∈ s.ga.population, ∃ q, w (s.heap r) = .ok q ∧ lo ≤ q ∧ q ≤ hi)
    (hh : hi ≤ (2 ^ 53 - 1) * ((s.ga.population.length - 1) * lo)) : Balance w s where
  pos := fun r hm => by
    obtain ⟨q, q1, q2, _⟩ := hr r hm
    exact ⟨q, q1, h0.trans_le q2⟩
  fair := by
    intro ws hws
    have hlen := hws.length_eq
    have hall : ∀ q ∈ ws, lo ≤ q ∧ q ≤ hi := by
      intro q hq
      obtain ⟨r, hm, hrq⟩ := forall₂_mem hws hq
      obtain ⟨q', hq', hh⟩ := hr r hm
      rw [hq'] at hrq
      injection hrq with hrq
      rw [← hrq]; exact hh
    obtain ⟨a, rest, rfl⟩ : ∃ a rest, ws = a :: rest := by
      match ws, hlen with
      | [], h => rw [h] at h2; simp at h2
      | a :: rest, _ => exact ⟨a, rest, rfl⟩
    refine ⟨a, rest, rfl, ?_⟩
    have hrest : (rest.length : ℚ) * lo ≤ rest.sum := by
      have := List.card_nsmul_le_sum rest lo fun q hq => (hall q (List.mem_cons_of_mem _ hq)).1
      rwa [nsmul_eq_mul] at this
    have ha := (hall a (by simp)).2
    rw [hlen, List.length_cons] at hh
    push_cast at hh
    rw [add_sub_cancel_right] at hh
    calc a ≤ hi := ha
      _ ≤ _ := hh
      _ ≤ _ := mul_le_mul_of_nonneg_left hrest (by norm_num)

/-- Scores in ascending order. -/
theorem Balance.of_ascending {s : St ℚ} (h2 : 2 ≤ s.ga.population.length) (hasc : Ascending s.heap s.ga.population)
    (hpos : ∀ r ∈ s.ga.population, ∃ q, (s.heap r).score = some q ∧ 0 < q) : Balance scoreKey s where
  pos := fun r hm => by
    obtain ⟨q, q1, q2⟩ := hpos r hm
    exact ⟨q, by unfold scoreKey; rw [q1], q2⟩
  fair := by
    intro ws hws
    have key : ∀ r q, scoreKey (s.heap r) = .ok q → (s.heap r).score = some q := by
      intro r q h
      unfold scoreKey at h
      cases hv : (s.heap r).score with
      | none => rw [hv] at h; cases h
      | some v => rw [hv] at h; injection h with h; rw [h]
    match hpop : s.ga.population, ws, hws with
    | [], _, _ => rw [hpop] at h2; simp at h2
    | [_], _, _ => rw [hpop] at h2; simp at h2
    | r0 :: r1 :: rs, a :: b :: qs, .cons e0 (.cons e1 er) =>
      refine ⟨a, b :: qs, rfl, ?_⟩
      have hpw := hasc.2
      rw [hpop] at hpw hpos
      have hab : a ≤ b := (List.pairwise_cons.mp hpw).1 r1 (by simp) a b (key _ _ e0) (key _ _ e1)
      have hq : 0 ≤ qs.sum := List.sum_nonneg fun q hq => by
        obtain ⟨r, hm, hrq⟩ := forall₂_mem er hq
        obtain ⟨q', z1, z2⟩ := hpos r (by simp [hm])
        rw [key _ _ hrq] at z1
        injection z1 with z1
        rw [z1]; exact z2.le
      have hb : 0 < b := by
        obtain ⟨q', z1, z2⟩ := hpos r1 (by simp)
        rw [key _ _ e1] at z1
        injection z1 with z1
        rw [z1]; exact z2
      rw [List.sum_cons]
      linarith

theorem twoStops_first {a : ℚ} {rest sel : List ℚ} (hs : selectionScores (a :: rest) = .ok sel) (hpos : ∀ q ∈ a :: rest, 0 < q)
    (hr : a ≤ (2 ^ 53 - 1) * rest.sum) : TwoStops id sel := by
  have ha0 := hpos a (by simp)
  have hr0 : 0 ≤ rest.sum := List.sum_nonneg fun q hq => (hpos q (List.mem_cons_of_mem _ hq)).le
  have hsum : 0 < (a :: rest).sum := by simp only [List.sum_cons]; linarith
  have hsh : ∀ w ∈ a :: rest, 0 < w / (a :: rest).sum := fun w hw => div_pos (hpos w hw) hsum
  have hs1 : share (a :: rest) 1 = a / (a :: rest).sum := by
    rw [share_succ (i := 0) (w := a) rfl, share_zero, zero_add]
  refine ⟨0, 2 ^ 53 - 1, ?_⟩
  rw [rouletteIndexR_id, rouletteIndexR_id]
  have e0 : rouletteIndex sel (((0 % 2 ^ 53 : Nat) : ℚ) / ((2 ^ 53 : Nat) : ℚ)) = ((0 : Nat) : Int) := by
    refine (rouletteIndex_iff hs hsum.ne' hsh (by positivity) (by norm_num) 0 (by simp)).mpr ⟨?_, ?_⟩
    · rw [share_zero]; positivity
    · rw [hs1]; simp only [Nat.zero_mod, Nat.cast_zero, zero_div]; exact hsh a (by simp)
  rw [e0]
  intro e
  have := ((rouletteIndex_iff hs hsum.ne' hsh (by positivity) (by norm_num) 0 (by simp)).mp e.symm).2
  rw [hs1, lt_div_iff₀ hsum] at this
  simp only [List.sum_cons] at this
  norm_num at this hr
  linarith

/-- The roulette after the preparations succeeds with probability one. -/
theorem spin_sure {B : Nat} (hB : 2 ^ 53 ≤ B) {w : Ind σ → Except PyErr ℚ} {m : Nat} {s : St σ}
    (hx : s.ga.attrs.arith = .exact) (hseed : s.seed = none) (hal : ∀ r ∈ s.ga.population, r < s.next) (hb : Balance w s) :
    Sure B (spin w m) s := by
  have hB0 : 0 < B := by omega
  have hne : s.ga.population ≠ [] := by
    intro e
    obtain ⟨a, rest, h, _⟩ := hb.fair [] (by rw [e]; exact .nil)
    cases h
  unfold spin
  refine Sure.bind hB0 hseed (Tame.weights w).ext ?_ ?_
  · refine Sure.of_tame hseed (Tame.weights w) fun u => ?_
    have hs : Safe (spin w m) (s.more u) := spin_safe hx hal hne hb.pos
    exact fun e s' h => hs e s' (by unfold spin; exact bind_of_err h)
  intro u ws s2 h2
  obtain ⟨rfl, hws⟩ := weights_ok h2
  have hws : List.Forall₂ (fun r q => w (s.heap r) = .ok q) s.ga.population ws := hws
  have hall : ∀ q ∈ ws, 0 < q := by
    intro q hq
    obtain ⟨r, hm, hrq⟩ := forall₂_mem hws hq
    obtain ⟨q', hq', hh⟩ := hb.pos r hm
    rw [hq'] at hrq
    injection hrq with hrq
    rw [← hrq]; exact hh
  have hlen := hws.length_eq
  have hsum : ws.sum ≠ 0 := by
    refine ne_of_gt (List.sum_pos ws hall ?_)
    rintro rfl
    exact hne (List.length_eq_zero_iff.mp (by rw [hlen]; rfl))
  obtain ⟨sel, hsel⟩ := selectionScores_run hsum
  have hts : TwoStops id sel := by
    obtain ⟨a, rest, rfl, hfair⟩ := hb.fair ws hws
    exact twoStops_first hsel hall hfair
  refine Sure.bind hB0 hseed Tame.getGa.ext (Sure.of_ok hseed Tame.getGa.ext (getGa_run _)) ?_
  intro u2 ga s3 e3
  obtain ⟨e4, rfl⟩ := Prod.mk.inj ((getGa_run _).symm.trans e3)
  injection e4 with e4
  subst e4
  rw [show ((s.more u).more u2).ga.attrs.arith = .exact from hx, Arith.exact_rnd, selectionScoresR_id]
  refine Sure.bind hB0 hseed (Tame.liftE _).ext (Sure.of_ok hseed (Tame.liftE _).ext (liftE_ok.mpr ⟨hsel, rfl⟩)) ?_
  intro u4 sel' s4 h4
  obtain ⟨e, rfl⟩ := liftE_ok.mp h4
  rw [hsel] at e
  injection e with e
  subst e
  unfold roulette
  refine Sure.bind hB0 hseed Tame.getGa.ext (Sure.of_ok hseed Tame.getGa.ext (getGa_run _)) ?_
  intro u5 ga s5 e5
  obtain ⟨_, rfl⟩ := Prod.mk.inj ((getGa_run _).symm.trans e5)
  have aux : ∀ (l : List Nat) (x : St σ), x.seed = none → (∀ r ∈ x.ga.population, r < x.next) →
      x.ga.attrs.arith = .exact → x.ga.population = s.ga.population → Sure B (forEach l fun _ => roulettePair sel) x := by
    intro l
    induction l with
    | nil => intro x k1 _ _ _; exact Sure.of_ok k1 (Tame.pure ()).ext rfl
    | cons y ys ih =>
      intro x k1 k2 kx k3
      rw [BaumEva.forEach]
      refine Sure.bind hB0 k1 (roulettePair_ext sel) (roulettePair_sure hB (wheelIn_exact (by rw [kx]; rfl) hsel hsum) (by rw [kx]; exact hts) k1 (by rw [k3]; exact hlen)) ?_
      intro u _ x' h
      obtain ⟨_, _, hc, _⟩ := roulettePair_ok (s := x.more u) k2 h
      have hp : x'.ga.population = x.ga.population := by rw [hc.ga]; rfl
      refine ih x' (hc.seed.trans k1) ?_ (by rw [hc.ga]; exact kx) (hp.trans k3)
      intro r hr
      rw [hp] at hr
      have := k2 r hr
      rw [hc.next]
      simp only [St.more_next]; omega
  exact aux _ _ hseed hal hx rfl

/-- `BalancedSelection` succeeds with probability one when no weight dominates. -/
theorem balanced_sure {B : Nat} (hB : 2 ^ 53 ≤ B) {w : Ind σ → Except PyErr ℚ} (hw : ∀ a b, SameCore a b → w b = w a) {m : Nat} {s : St σ}
    (hx : s.ga.attrs.arith = .exact) (hseed : s.seed = none) (hal : ∀ r ∈ s.ga.population, r < s.next) (hb : Balance w s) :
    Sure B (balancedWith (pure ()) w m) s := by
  have hB0 : 0 < B := by omega
  show Sure B (baseSelection >>= fun _ => (pure () : M σ Unit) >>= fun _ => spin w m) s
  obtain ⟨s1, e1⟩ := baseSelection_run s
  refine Sure.bind hB0 hseed Tame.baseSelection.ext (Sure.of_ok hseed Tame.baseSelection.ext e1) ?_
  clear e1 s1
  intro u _ s1 e1
  obtain ⟨hr, _⟩ := baseSelection_relabelled e1
  have hp : s1.ga.population = s.ga.population := by rw [hr.ga]; rfl
  have n1 : s1.seed = none := hr.seed.trans hseed
  refine Sure.bind hB0 n1 (Tame.pure ()).ext (Sure.of_ok n1 (Tame.pure ()).ext (pure_run () s1)) ?_
  intro u2 _ s2 e2
  obtain ⟨_, rfl⟩ := pure_ok.mp e2
  refine spin_sure (s := s1.more u2) hB (by show s1.ga.attrs.arith = _; rw [hr.ga]; exact hx) n1 (by
    show ∀ r ∈ s1.ga.population, r < s1.next
    rw [hp, hr.next]; exact hal) ?_
  have hkey : ∀ r, w (s1.heap r) = w (s.heap r) := fun r => hw _ _ (hr.core r)
  refine ⟨fun r hm => ?_, fun ws hws => hb.fair ws ?_⟩
  · have hm : r ∈ s1.ga.population := hm
    rw [hp] at hm
    obtain ⟨q, q1, q2⟩ := hb.pos r hm
    exact ⟨q, (hkey r).trans q1, q2⟩
  · have hws : List.Forall₂ (fun r q => w (s1.heap r) = .ok q) s1.ga.population ws := hws
    rw [hp] at hws
    exact hws.imp fun r q h => (hkey r) ▸ h

section
variable {key rd : Ind σ → Except PyErr ℚ} {setRank : ℚ → Ind σ → Ind σ} {Ready : Ind σ → Prop}

/-- `RankedSelection` succeeds with probability one on every evaluated population of two or more: no rank dominates. -/
theorem ranked_sure {B : Nat} (hB : 2 ^ 53 ≤ B) (ops : RankOps key setRank rd Ready) (hcore : ∀ a b, SameCore a b → key b = key a)
    (hready : ∀ (a : Ind σ) k, Ready a → Ready { a with idx := k }) {m : Nat} {s : St σ} (hx : s.ga.attrs.arith = .exact)
    (hseed : s.seed = none) (hal : ∀ r ∈ s.ga.population, r < s.next) (h2 : 2 ≤ s.ga.population.length) (hs : Rankable key Ready s) :
    Sure B (balancedWith (assignRanked key setRank) rd m) s := by
  have hB0 : 0 < B := by omega
  show Sure B (baseSelection >>= fun _ => assignRanked key setRank >>= fun _ => spin rd m) s
  obtain ⟨s1, e1⟩ := baseSelection_run s
  refine Sure.bind hB0 hseed Tame.baseSelection.ext (Sure.of_ok hseed Tame.baseSelection.ext e1) ?_
  clear e1 s1
  intro u _ s1 e1
  obtain ⟨hr, _⟩ := baseSelection_relabelled e1
  have hp : s1.ga.population = s.ga.population := by rw [hr.ga]; rfl
  have n1 : s1.seed = none := hr.seed.trans hseed
  have hx1 : s1.ga.attrs.arith = .exact := by rw [hr.ga]; exact hx
  have hs1 : Rankable key Ready s1 := by
    intro r hm
    rw [hp] at hm
    obtain ⟨⟨v, hv⟩, h2⟩ := hs r hm
    obtain ⟨k, ek⟩ := (baseSelection_ok e1).2.2.2.2.2.2.2.2.1 r
    exact ⟨⟨v, by rw [hcore _ _ (hr.core r)]; exact hv⟩, by rw [ek]; exact hready _ _ h2⟩
  have hF : ∀ u : List Nat, Fair (fun q => 1 / 2 ≤ q ∧ q ≤ s.ga.population.length) (s1.more u).ga.attrs.arith.rnd (s1.more u).ga.population.length := by
    intro u
    have : (s1.more u).ga.attrs.arith.rnd = id := by show s1.ga.attrs.arith.rnd = id; rw [hx1]; rfl
    rw [this, show (s1.more u).ga.population = s.ga.population from hp]
    exact Fair.within _
  obtain ⟨s2, e2, _⟩ := assignRanked_ranks (s := s1) ops (hF []) hs1
  refine Sure.bind hB0 n1 (Tame.assignRanked _ _).ext (Sure.of_ok n1 (Tame.assignRanked _ _).ext e2) ?_
  intro w _ s2 e2
  obtain ⟨s2', e2', hpos, _⟩ := assignRanked_ranks (s := s1.more w) ops (hF w) hs1
  obtain ⟨_, rfl⟩ := Prod.mk.inj (e2'.symm.trans e2)
  obtain ⟨hr2, hga, ht⟩ := assignRanked_ranked ops.core e2
  have hp2 : s2'.ga.population = s.ga.population := by rw [hga]; exact hp
  have h2q : (2 : ℚ) ≤ s.ga.population.length := by exact_mod_cast h2
  refine spin_sure hB (by rw [hga]; exact hx1) (hr2.seed.trans n1) ?_ (Balance.of_range (lo := 1 / 2) (hi := s.ga.population.length)
    (by rw [hp2]; exact h2) (by norm_num) ?_ ?_)
  · rw [hp2, hr2.next]
    show ∀ r ∈ s.ga.population, r < s1.next
    rw [hr.next]; exact hal
  · intro r hm
    rw [hp2] at hm
    exact hpos r (by show r ∈ s1.ga.population; rw [hp]; exact hm)
  · rw [hp2]
    nlinarith

end

theorem rankedExec_sure {B : Nat} (hB : 2 ^ 53 ≤ B) {s : St ℚ} (hx : s.ga.attrs.arith = .exact) (hseed : s.seed = none)
    (hal : ∀ r ∈ s.ga.population, r < s.next) (h2 : 2 ≤ s.ga.population.length) (hk : Keyed scoreKey s) : Sure B rankedExec s :=
  ranked_sure hB rankOps_score (fun a b h => by unfold scoreKey; rw [h.score]) (fun _ _ h => h) hx hseed hal h2 (fun r hr => ⟨hk r hr, trivial⟩)

theorem balancedExec_sure {B : Nat} (hB : 2 ^ 53 ≤ B) {s : St ℚ} (hx : s.ga.attrs.arith = .exact) (hseed : s.seed = none)
    (hal : ∀ r ∈ s.ga.population, r < s.next) (hb : Balance scoreKey s) : Sure B balancedExec s :=
  balanced_sure hB (fun a b h => by unfold scoreKey; rw [h.score]) hx hseed hal hb

end BaumEva
