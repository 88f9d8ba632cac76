import Verif.Proofs.Liveness
import Verif.Proofs.SafeMultiRun
/-!
# Multi-objective runs that can be completed
-/
namespace BaumEva
open BaumEva.Spec
variable {σ α β : Type}

namespace Tame

theorem random01 : Tame (BaumEva.random01 : M σ ℚ) := bind draw fun _ => pure _

theorem ensurePhenotype : Tame (BaumEva.ensurePhenotype : M σ Unit) := by
  unfold BaumEva.ensurePhenotype
  exact bind getGa fun _ => ite getPhenotype (pure _)

theorem objVector (t : Task σ) (r : Nat) : Tame (BaumEva.objVector t r) := by
  unfold BaumEva.objVector
  refine bind (getInd _) fun _ => ?_
  split
  · exact throwE _
  · refine bind (callObj _ _) fun _ => ?_
    split
    · exact pure _
    · exact throwE _

theorem rankPair (t : Task σ) (x y : Nat) : Tame (BaumEva.rankPair t x y) := by
  unfold BaumEva.rankPair
  refine bind (objVector _ _) fun _ => bind (objVector _ _) fun _ => bind (liftE _) fun _ => ?_
  split
  · exact pure _
  · exact modInd _ _
  · exact modInd _ _

theorem rankLoop (t : Task σ) : ∀ l : List Nat, Tame (BaumEva.rankLoop t l)
  | [] => pure _
  | x :: xs => by
    rw [BaumEva.rankLoop]
    exact bind (forEach (fun _ => rankPair _ _ _) _) fun _ => rankLoop t xs

theorem multiFitness (fit : Fit σ) : Tame (multiFitnessExec fit) := by
  unfold multiFitnessExec assignRanks
  exact bind ensurePhenotype fun _ => bind (bind getGa fun _ => bind (forEach (fun _ => modInd _ _) _) fun _ => rankLoop _ _) fun _ =>
    baseFitness fit

theorem rankOf (r : Nat) : Tame (BaumEva.rankOf r : M σ ℚ) := by
  unfold BaumEva.rankOf
  refine blind (fun s t => ?_) (fun s => ?_)
  · rcases h : (s.heap r).rank with _ | x
    · simp only
    · cases x <;> simp only
  · rcases h : (s.heap r).rank with _ | x
    · simp only
    · cases x <;> simp only

theorem multiUpdate [DecidableEq σ] : Tame (BaumEva.multiUpdate : M σ Unit) := by
  unfold BaumEva.multiUpdate ensureRankSorted sortByRank initFront decideFront copyAll snapshot
  refine bind (bind getGa fun _ => ite (pure _) (bind getGa fun _ => bind (mapEach (fun _ => bind (rankOf _) fun _ => pure _) _) fun _ => modGa _))
    fun _ => bind getGa fun _ => bind (frontPrefix _) fun _ => bind (modGa _) fun _ => bind (bind getGa fun _ => ?_) fun _ =>
    bind (getS (fun s => ?_) (fun s t => rfl)) fun _ => bind (modGa _) fun _ => modifyS (fun _ _ => rfl) (fun _ => rfl)
  · split
    · exact modGa _
    · exact pure _
  · split
    · exact ite (modGa _) (bind (mapEach (fun _ => bind (getInd _) fun _ => alloc _) _) fun _ => modGa _)
    · exact throwE _

theorem multiNewGen (tr : Transfer) : Tame (multiNewGenExec tr : M σ Unit) := by
  unfold multiNewGenExec chooseFront
  refine bind ensurePhenotype fun _ => bind (bind getGa fun _ => ?_) fun _ => installPop _
  split
  · exact frontPrefix _
  · exact addRandom _

theorem getIndex (sel : List ℚ) : Tame (BaumEva.getIndex sel : M σ Int) := bind getGa fun _ => bind random01 fun _ => pure _

theorem weights (w : Ind σ → Except PyErr ℚ) : Tame (BaumEva.weights w) := by
  unfold BaumEva.weights
  exact bind getGa fun _ => mapEach (fun _ => bind (getInd _) fun _ => liftE _) _

end Tame

/-! ## the roulette -/

theorem secondIndex_ext (sel : List ℚ) (i : Int) : ∀ f : Nat, ExtOk (secondIndex sel i f : M σ Int) := by
  intro f
  induction f with
  | zero => exact (Tame.throwE _).ext
  | succ f ih =>
    rw [secondIndex]
    refine ExtOk.bind (Tame.getIndex sel).ext fun j => ?_
    split
    · exact (Tame.pure _).ext
    · exact ih

theorem roulettePair_ext (sel : List ℚ) : ExtOk (roulettePair sel : M σ Unit) := by
  intro s s' x u hn h
  unfold roulettePair at h ⊢
  obtain ⟨a, s1, h1, h2⟩ := bind_ok.mp h
  obtain ⟨e1, n1⟩ := (Tame.getIndex sel).ext s s1 a u hn h1
  rw [bind_of_ok e1, bind_of_ok (getS_run _)]
  rw [bind_of_ok (getS_run _)] at h2
  obtain ⟨b, s2, h3, h4⟩ := bind_ok.mp h2
  have hmono : secondIndex sel a (s1.tape.length + 1) (s1.more u) = (.ok b, s2.more u) ∧ s2.seed = none :=
    secondIndex_ext sel a _ s1 s2 b u n1 h3
  have hf : ∀ {f g : Nat} {s s' : St σ} {r : Int}, f ≤ g → secondIndex sel a f s = (.ok r, s') → secondIndex sel a g s = (.ok r, s') := by
    intro f
    induction f with
    | zero => intro g s s' r _ h; rw [secondIndex, throwE_ok] at h; exact h.elim
    | succ f ih =>
      intro g s s' r hg h
      obtain ⟨g, rfl⟩ : ∃ k, g = k + 1 := ⟨g - 1, by omega⟩
      rw [secondIndex] at h ⊢
      obtain ⟨b, s1, h1, h2⟩ := bind_ok.mp h
      rw [bind_of_ok h1]
      split at h2
      · rename_i hc; rw [if_pos hc]; exact h2
      · rename_i hc; rw [if_neg hc]; exact ih (by omega) h2
  rw [bind_of_ok (hf (by simp) hmono.1)]
  exact ((Tame.popAt a).bind fun _ => (Tame.addParent _).bind fun _ => (Tame.popAt b).bind fun _ => Tame.addParent _).ext s2 s' x u hmono.2 h4

theorem roulette_ext (sel : List ℚ) (m : Nat) : ExtOk (roulette sel m : M σ Unit) := by
  unfold roulette
  exact ExtOk.bind Tame.getGa.ext fun _ => ExtOk.forEach (fun _ => roulettePair_ext sel) _

theorem balanced_ext (w : Ind σ → Except PyErr ℚ) (m : Nat) : ExtOk (balancedWith (pure ()) w m) := by
  unfold balancedWith
  exact ExtOk.bind Tame.baseSelection.ext fun _ => ExtOk.bind (Tame.pure ()).ext fun _ => ExtOk.bind (Tame.weights w).ext fun _ =>
    ExtOk.bind Tame.getGa.ext fun _ => ExtOk.bind (Tame.liftE _).ext fun _ => roulette_ext _ _

/-- The wheel can stop at two different places. -/
def TwoStops (rnd : ℚ → ℚ) (sel : List ℚ) : Prop :=
  ∃ x y : Nat, rouletteIndexR rnd sel (((x % 2 ^ 53 : Nat) : ℚ) / ((2 ^ 53 : Nat) : ℚ)) ≠ rouletteIndexR rnd sel (((y % 2 ^ 53 : Nat) : ℚ) / ((2 ^ 53 : Nat) : ℚ))

theorem getIndex_cons {sel : List ℚ} {s : St σ} {x : Nat} {t : List Nat} (h : s.tape = x :: t) :
    getIndex sel s = (.ok (rouletteIndexR s.ga.attrs.arith.rnd sel (((x % 2 ^ 53 : Nat) : ℚ) / ((2 ^ 53 : Nat) : ℚ))), { s with tape := t }) := by
  unfold getIndex random01
  have e : (draw >>= fun x => pure (((x % 2 ^ 53 : Nat) : ℚ) / ((2 ^ 53 : Nat) : ℚ)) : M σ ℚ) s =
      (.ok (((x % 2 ^ 53 : Nat) : ℚ) / ((2 ^ 53 : Nat) : ℚ)), { s with tape := t }) := by
    rw [bind_of_ok (draw_ok.mpr ⟨t, h, rfl⟩)]
    rfl
  exact bind_of_ok e

theorem secondIndex_poss {sel : List ℚ} (i : Int) : ∀ {t : List Nat} {s : St σ}, TwoStops s.ga.attrs.arith.rnd sel → s.tape = t →
    ∃ u j s', ∀ f, s.tape.length + u.length < f → secondIndex sel i f (s.more u) = (.ok j, s') := by
  intro t
  induction t with
  | nil =>
    intro s hw ht
    obtain ⟨x, hx⟩ : ∃ x : Nat, rouletteIndexR s.ga.attrs.arith.rnd sel (((x % 2 ^ 53 : Nat) : ℚ) / ((2 ^ 53 : Nat) : ℚ)) ≠ i := by
      obtain ⟨x, y, hne⟩ := hw
      by_cases h : rouletteIndexR s.ga.attrs.arith.rnd sel (((x % 2 ^ 53 : Nat) : ℚ) / ((2 ^ 53 : Nat) : ℚ)) = i
      · exact ⟨y, fun e => hne (h.trans e.symm)⟩
      · exact ⟨x, h⟩
    refine ⟨[x], rouletteIndexR s.ga.attrs.arith.rnd sel (((x % 2 ^ 53 : Nat) : ℚ) / ((2 ^ 53 : Nat) : ℚ)), { s with tape := [] }, fun f hf => ?_⟩
    obtain ⟨f, rfl⟩ : ∃ k, f = k + 1 := ⟨f - 1, by omega⟩
    have e : (s.more [x]).tape = x :: [] := by simp [St.more, ht]
    rw [secondIndex, bind_of_ok (getIndex_cons e)]
    exact congrFun (if_pos hx) _
  | cons x t ih =>
    intro s hw ht
    by_cases hx : rouletteIndexR s.ga.attrs.arith.rnd sel (((x % 2 ^ 53 : Nat) : ℚ) / ((2 ^ 53 : Nat) : ℚ)) ≠ i
    · refine ⟨[], rouletteIndexR s.ga.attrs.arith.rnd sel (((x % 2 ^ 53 : Nat) : ℚ) / ((2 ^ 53 : Nat) : ℚ)), { s with tape := t }, fun f hf => ?_⟩
      obtain ⟨f, rfl⟩ : ∃ k, f = k + 1 := ⟨f - 1, by omega⟩
      rw [St.more_nil, secondIndex, bind_of_ok (getIndex_cons ht), if_pos hx]
      rfl
    · obtain ⟨u, j, s', h⟩ := ih (s := { s with tape := t }) hw rfl
      refine ⟨u, j, s', fun f hf => ?_⟩
      obtain ⟨f, rfl⟩ : ∃ k, f = k + 1 := ⟨f - 1, by omega⟩
      have e : (s.more u).tape = x :: (t ++ u) := by simp [St.more, ht]
      rw [secondIndex, bind_of_ok (getIndex_cons e)]
      refine (congrFun (if_neg hx) _).trans (h f ?_)
      rw [ht, List.length_cons] at hf
      simp only
      omega

theorem roulettePair_poss {n : Nat} {sel : List ℚ} {s : St σ} (hin : WheelIn s.ga.attrs.arith.rnd sel n) (hw : TwoStops s.ga.attrs.arith.rnd sel)
    (hseed : s.seed = none) (hlen : s.ga.population.length = n) : Poss (roulettePair sel) s := by
  have hat : ∀ {i : Int} {x : St σ}, x.ga.population = s.ga.population → (∃ r, 0 ≤ r ∧ r < 1 ∧ i = rouletteIndexR s.ga.attrs.arith.rnd sel r) →
      ∃ a, popAt i x = (.ok a, x) := by
    rintro i x hp ⟨r, h0, h1, rfl⟩
    obtain ⟨j, e, hj⟩ := hin r h0 h1
    refine ⟨s.ga.population[j]'(by omega), popAt_ok.mpr ⟨?_, rfl⟩⟩
    rw [e, pyGet?_nat, hp, List.getElem?_eq_getElem (by omega)]
  unfold roulettePair
  refine Poss.bind hseed (Tame.getIndex sel).ext (Poss.of_tame hseed (Tame.getIndex sel) fun u => getIndex_safe sel _) ?_
  intro u i s1 e
  obtain ⟨q, q0, q1, hi, d1, _⟩ := getIndex_ok e
  have hg1 : s1.ga = s.ga := by obtain ⟨_, rfl⟩ := d1; rfl
  obtain ⟨w, j, s2, h⟩ := secondIndex_poss i (s := s1) (by rw [hg1]; exact hw) rfl
  have e2 := h (s1.tape.length + w.length + 1) (Nat.lt_succ_self _)
  obtain ⟨hj, _, d2⟩ := secondIndex_ok e2
  rw [show (s1.more w).ga = s.ga from hg1] at hj
  have hp2 : s2.ga.population = s.ga.population := by
    obtain ⟨_, rfl⟩ := d1
    obtain ⟨_, rfl⟩ := d2
    rfl
  obtain ⟨a, ha⟩ := hat hp2 ⟨q, q0, q1, hi⟩
  obtain ⟨s3, e3⟩ : ∃ s', addParent a s2 = (.ok (), s') := ⟨_, rfl⟩
  have c1 := addParent_copied e3
  obtain ⟨b, hb⟩ := hat (x := s3) (by rw [c1.ga]; exact hp2) hj
  obtain ⟨s4, e4⟩ : ∃ s', addParent b s3 = (.ok (), s') := ⟨_, rfl⟩
  refine ⟨w, (), s4, ?_⟩
  rw [bind_of_ok (getS_run _), show (s1.more w).tape.length = s1.tape.length + w.length by simp, bind_of_ok e2, bind_of_ok ha,
    bind_of_ok e3, bind_of_ok hb]
  exact e4

/-- The roulette can succeed when the wheel can stop at two places, or when no pairs are wanted. -/
theorem balanced_poss {w : Ind σ → Except PyErr ℚ} (hw : ∀ a b, SameCore a b → w b = w a) {m : Nat} {s : St σ}
    (hx : s.ga.attrs.arith = .exact) (hseed : s.seed = none) (hal : ∀ r ∈ s.ga.population, r < s.next) (hne : s.ga.population ≠ [])
    (hpos : ∀ r ∈ s.ga.population, ∃ q, w (s.heap r) = .ok q ∧ 0 < q)
    (htwo : numPairs s.ga m = 0 ∨ ∀ ws sel, List.Forall₂ (fun r q => w (s.heap r) = .ok q) s.ga.population ws →
      selectionScores ws = .ok sel → TwoStops id sel) : Poss (balancedWith (pure ()) w m) s := by
  unfold balancedWith
  obtain ⟨s1, e1⟩ := baseSelection_run s
  refine Poss.bind hseed Tame.baseSelection.ext (Poss.of_ok e1) ?_
  clear e1 s1
  intro u _ s1 e1
  obtain ⟨hr, _⟩ := baseSelection_relabelled e1
  have hp : s1.ga.population = s.ga.population := by rw [hr.ga]; rfl
  have n1 : s1.seed = none := hr.seed.trans hseed
  refine Poss.bind n1 (Tame.pure ()).ext (Poss.of_ok (pure_run () s1)) ?_
  intro u2 _ s2 e2
  obtain ⟨_, rfl⟩ := pure_ok.mp e2
  have hkey : ∀ r, w (s1.heap r) = w (s.heap r) := fun r => hw _ _ (hr.core r)
  have hrun : ∀ (l : List Nat), (∀ r ∈ l, r ∈ s.ga.population) → ∀ u, ∃ ws : List ℚ, mapEach l (fun r => do
      let ind ← getInd r
      liftE (w ind)) (s1.more u) = (.ok ws, s1.more u) := by
    intro l
    induction l with
    | nil => intro _ u; exact ⟨[], rfl⟩
    | cons r rs ih =>
      intro hl u
      obtain ⟨ws, e⟩ := ih (fun x hx => hl x (List.mem_cons_of_mem _ hx)) u
      obtain ⟨q, hq, _⟩ := hpos r (hl r List.mem_cons_self)
      rw [← hkey r] at hq
      refine ⟨q :: ws, ?_⟩
      have e0 : (getInd r >>= fun ind => liftE (w ind) : M σ ℚ) (s1.more u) = (.ok q, s1.more u) := by
        rw [bind_of_ok (getInd_run _ _)]
        exact liftE_ok.mpr ⟨hq, rfl⟩
      rw [BaumEva.mapEach, bind_of_ok e0, bind_of_ok e]
      rfl
  have hwts : ∀ u, ∃ ws, weights w (s1.more u) = (.ok ws, s1.more u) := by
    intro u
    obtain ⟨ws, e⟩ := hrun s1.ga.population (by rw [hp]; exact fun _ h => h) u
    refine ⟨ws, ?_⟩
    unfold weights
    rw [bind_of_ok (getGa_run _)]
    exact e
  obtain ⟨ws0, hws0⟩ := hwts u2
  refine Poss.bind n1 (Tame.weights w).ext (Poss.of_ok hws0) ?_
  intro u3 ws s3 h3
  obtain ⟨rfl, hws⟩ := weights_ok h3
  have hws : List.Forall₂ (fun r q => w (s.heap r) = .ok q) s.ga.population ws := by
    have hws : List.Forall₂ (fun r q => w (s1.heap r) = .ok q) s1.ga.population ws := hws
    rw [hp] at hws
    exact hws.imp fun r q h => (hkey r) ▸ h
  have hall : ∀ q ∈ ws, 0 < q := by
    intro q hq
    obtain ⟨r, hm, hrq⟩ := forall₂_mem hws hq
    obtain ⟨q', hq', h0⟩ := hpos r hm
    rw [hq'] at hrq
    injection hrq with hrq
    rw [← hrq]; exact h0
  have hsum : ws.sum ≠ 0 := by
    refine ne_of_gt (List.sum_pos ws hall ?_)
    rintro rfl
    exact hne (List.length_eq_zero_iff.mp (by rw [hws.length_eq]; rfl))
  obtain ⟨sel, hsel⟩ := selectionScores_run hsum
  have har : s1.ga.attrs.arith = .exact := by rw [hr.ga]; exact hx
  refine Poss.bind n1 Tame.getGa.ext (Poss.of_ok (getGa_run _)) ?_
  intro u4 ga s4 e4
  obtain ⟨e6, rfl⟩ := Prod.mk.inj ((getGa_run _).symm.trans e4)
  injection e6 with e6
  subst e6
  rw [show (((s1.more u2).more u3).more u4).ga.attrs.arith = .exact from har, Arith.exact_rnd, selectionScoresR_id]
  refine Poss.bind n1 (Tame.liftE _).ext (Poss.of_ok (liftE_ok.mpr ⟨hsel, rfl⟩)) ?_
  intro u4 sel' s4 h4
  obtain ⟨e, rfl⟩ := liftE_ok.mp h4
  rw [hsel] at e
  injection e with e
  subst e
  unfold roulette
  refine Poss.bind n1 Tame.getGa.ext (Poss.of_ok (getGa_run _)) ?_
  intro u5 ga s5 e5
  have e5 := Prod.mk.inj ((getGa_run _).symm.trans e5)
  obtain ⟨e6, rfl⟩ := e5
  injection e6 with e6
  subst e6
  have hnp : numPairs s1.ga m = numPairs s.ga m := by rw [hr.ga]; rfl
  have aux : ∀ (l : List Nat) (x : St σ), l.length ≤ numPairs s.ga m → x.seed = none → (∀ r ∈ x.ga.population, r < x.next) →
      x.ga.attrs.arith = .exact → x.ga.population = s.ga.population → Poss (forEach l fun _ => roulettePair sel) x := by
    intro l
    induction l with
    | nil => intro x _ _ _ _ _; exact Poss.of_ok rfl
    | cons y ys ih =>
      intro x hl k1 k2 kx k3
      rw [BaumEva.forEach]
      have hts : TwoStops id sel := by
        rcases htwo with h | h
        · rw [h] at hl; simp at hl
        · exact h ws sel hws hsel
      refine Poss.bind k1 (roulettePair_ext sel) (roulettePair_poss (wheelIn_exact (by rw [kx]; rfl) hsel hsum) (by rw [kx]; exact hts) k1 (by rw [k3]; exact hws.length_eq)) ?_
      intro u _ x' h
      obtain ⟨_, _, hc, _⟩ := roulettePair_ok (s := x.more u) k2 h
      have hp : x'.ga.population = x.ga.population := by rw [hc.ga]; rfl
      refine ih x' (by simp at hl; omega) (hc.seed.trans k1) ?_ (by rw [hc.ga]; exact kx) (hp.trans k3)
      intro r hr
      rw [hp] at hr
      have := k2 r hr
      rw [hc.next]
      simp only [St.more_next]; omega
  refine aux _ _ ?_ n1 ?_ har hp
  · rw [List.length_range]; exact hnp.le
  · intro r hm
    have hm : r ∈ s1.ga.population := hm
    rw [hp] at hm
    show r < s1.next
    rw [hr.next]
    exact hal r hm

/-- Two places, and weights of which the first is not overwhelming: the first and the last draw stop at different places. -/
theorem twoStops {ws sel : List ℚ} {lo hi : ℚ} (hs : selectionScores ws = .ok sel) (hlen : 2 ≤ ws.length) (h0 : 0 < lo)
    (hlo : ∀ q ∈ ws, lo ≤ q) (hhi : ∀ q ∈ ws, q ≤ hi) (hr : hi ≤ (2 ^ 53 - 1) * ((ws.length - 1) * lo)) : TwoStops id sel := by
  obtain ⟨a, rest, rfl⟩ : ∃ a rest, ws = a :: rest := by
    match ws, hlen with
    | a :: b :: rest, _ => exact ⟨a, b :: rest, rfl⟩
  have hpos : ∀ q ∈ a :: rest, 0 < q := fun q hq => h0.trans_le (hlo q hq)
  have hrest : (rest.length : ℚ) * lo ≤ rest.sum := by
    have := List.card_nsmul_le_sum rest lo fun q hq => hlo q (List.mem_cons_of_mem _ hq)
    rwa [nsmul_eq_mul] at this
  have hr1 : (1 : ℚ) ≤ rest.length := by
    rw [List.length_cons] at hlen
    exact_mod_cast (by omega : 1 ≤ rest.length)
  have hrl : lo ≤ rest.length * lo := by nlinarith
  have ha := hhi a (by simp)
  have ha0 := hpos a (by simp)
  have hsum : 0 < (a :: rest).sum := by simp only [List.sum_cons]; linarith
  have hsh : ∀ w ∈ a :: rest, 0 < w / (a :: rest).sum := fun w hw => div_pos (hpos w hw) hsum
  have hs1 : share (a :: rest) 1 = a / (a :: rest).sum := by
    rw [share_succ (i := 0) (w := a) rfl, share_zero, zero_add]
  refine ⟨0, 2 ^ 53 - 1, ?_⟩
  rw [rouletteIndexR_id, rouletteIndexR_id]
  have e0 : rouletteIndex sel (((0 % 2 ^ 53 : Nat) : ℚ) / ((2 ^ 53 : Nat) : ℚ)) = ((0 : Nat) : Int) := by
    refine (rouletteIndex_iff hs hsum.ne' hsh (by positivity) (by norm_num) 0 (by simp)).mpr ⟨?_, ?_⟩
    · rw [share_zero]; positivity
    · rw [hs1]; simp only [Nat.zero_mod, Nat.cast_zero, zero_div]; exact hsh a (by simp)
  rw [e0]
  intro e
  have := ((rouletteIndex_iff hs hsum.ne' hsh (by positivity) (by norm_num) 0 (by simp)).mp e.symm).2
  rw [hs1, lt_div_iff₀ hsum] at this
  simp only [List.sum_cons, List.length_cons] at this hr
  push_cast at hr
  norm_num at this hr
  linarith

/-! ## whole runs -/

/-- A multi-objective run that raises nothing, whose selections can always succeed. -/
structure MultiLive [DecidableEq σ] (ops : Ops σ) (fit : Fit σ) (op : CrossOp) (mop : MutOp) (P : List Val → Prop) (s0 : St σ) : Prop where
  safe : ∀ u, MultiSafe ops fit op mop P (s0.more u)
  seed : s0.seed = none
  newGen : Tame ops.newGen
  sel : ExtOk ops.selection
  poss : ∀ u k s, After ops (s0.more u) k s → s.seed = none → Poss ops.selection s

section
variable [DecidableEq σ] {ops : Ops σ} {fit : Fit σ} {op : CrossOp} {mop : MutOp} {P : List Val → Prop} {s0 : St σ}

theorem MultiLive.more (h0 : MultiLive ops fit op mop P s0) (u : List Nat) : MultiLive ops fit op mop P (s0.more u) :=
  ⟨fun w => by rw [St.more_more]; exact h0.safe _, h0.seed, h0.newGen, h0.sel, fun w k s h => h0.poss (u ++ w) k s (by rw [← St.more_more]; exact h)⟩

theorem MultiLive.now (h0 : MultiLive ops fit op mop P s0) : MultiSafe ops fit op mop P s0 := by
  have := h0.safe []
  rwa [St.more_nil] at this

theorem MultiLive.run (h0 : MultiLive ops fit op mop P s0) : MultiRun ops fit op mop := h0.now.run

theorem MultiRun.rest (h : MultiRun ops fit op mop) (hng : Tame ops.newGen) : Tame (breedRest ops) := by
  unfold breedRest
  rw [h.crossover, h.mutation, h.fitness, h.update]
  exact (Tame.crossExec op).bind fun _ => (Tame.mutExec mop).bind fun _ => hng.bind fun _ =>
    (Tame.multiFitness fit).bind fun _ => Tame.multiUpdate

theorem MultiRun.generation_ext (h : MultiRun ops fit op mop) (hng : Tame ops.newGen) (hsel : ExtOk ops.selection) :
    ExtOk (BaumEva.generation ops) :=
  ExtOk.bind (f := fun _ => breedRest ops) hsel fun _ => (h.rest hng).ext

theorem MultiRun.after_more (hrun : MultiRun ops fit op mop) (hng : Tame ops.newGen) (hsel : ExtOk ops.selection) (hseed : s0.seed = none)
    {k : Nat} {s : St σ} (h : After ops s0 k s) (u : List Nat) : After ops (s0.more u) k (s.more u) ∧ s.seed = none := by
  induction h with
  | @first s1 s a b =>
    have a' := a
    have b' := b
    rw [hrun.fitness] at a'
    rw [hrun.update] at b'
    obtain ⟨e1, n1⟩ := (Tame.multiFitness fit).ext s0 s1 () u hseed a'
    obtain ⟨e2, n2⟩ := Tame.multiUpdate.ext s1 s () u n1 b'
    rw [← hrun.fitness] at e1
    rw [← hrun.update] at e2
    exact ⟨After.first e1 e2, n2⟩
  | @next k s s' a b ih =>
    obtain ⟨e2, n2⟩ := hrun.generation_ext hng hsel s s' () u ih.2 b
    exact ⟨After.next ih.1 e2, n2⟩

theorem MultiLive.rest (h0 : MultiLive ops fit op mop P s0) : Tame (breedRest ops) := h0.run.rest h0.newGen

theorem MultiLive.generation_ext (h0 : MultiLive ops fit op mop P s0) : ExtOk (BaumEva.generation ops) :=
  h0.run.generation_ext h0.newGen h0.sel

theorem MultiLive.after_more (h0 : MultiLive ops fit op mop P s0) {k : Nat} {s : St σ} (h : After ops s0 k s) (u : List Nat) :
    After ops (s0.more u) k (s.more u) ∧ s.seed = none := h0.run.after_more h0.newGen h0.sel h0.seed h u

theorem MultiLive.generation_poss (h0 : MultiLive ops fit op mop P s0) {k : Nat} {s : St σ} (h : After ops s0 k s)
    (hk : k < s0.ga.numGenerations) : Poss (BaumEva.generation ops) s := by
  obtain ⟨_, hseed⟩ := h0.after_more h []
  refine Poss.bind (m := ops.selection) (f := fun _ => breedRest ops) hseed h0.sel
    (h0.poss [] k s (by rw [St.more_nil]; exact h) hseed) ?_
  intro u _ s1 e
  obtain ⟨_, n1⟩ := h0.sel (s.more u) s1 () [] hseed e
  refine Poss.of_tame n1 h0.rest ?_
  intro w
  obtain ⟨e2, _⟩ := h0.sel (s.more u) s1 () w hseed e
  rw [St.more_more] at e2
  have hsafe := (h0.safe (u ++ w)).generation (h0.after_more h (u ++ w)).1 hk
  intro er s2 hx
  refine hsafe er s2 ?_
  show (ops.selection >>= fun _ => breedRest ops) _ = _
  rw [bind_of_ok e2]
  exact hx

theorem MultiLive.mainLoop_ext (h0 : MultiLive ops fit op mop P s0) : ∀ n, ExtOk (BaumEva.mainLoop ops n) := by
  intro n
  induction n with
  | zero => exact (Tame.pure ()).ext
  | succ n ih =>
    rw [BaumEva.mainLoop]
    refine ExtOk.bind h0.generation_ext fun _ => ExtOk.bind Tame.getGa.ext fun ga => ?_
    cases ga.earlyStop with
    | none => exact (Tame.throwE _).ext
    | some e =>
      show ExtOk (if _ then _ else _)
      split
      · exact (Tame.pure ()).ext
      · exact ih

theorem MultiLive.evolve_ext (h0 : MultiLive ops fit op mop P s0) : ExtOk (BaumEva.evolve ops) := by
  unfold BaumEva.evolve
  refine ExtOk.bind ?_ fun _ => ExtOk.bind ?_ fun _ => ExtOk.bind Tame.getGa.ext fun _ => h0.mainLoop_ext _
  · rw [h0.run.fitness]; exact (Tame.multiFitness fit).ext
  · rw [h0.run.update]; exact Tame.multiUpdate.ext

theorem MultiLive.mainLoop_poss : ∀ {n k : Nat} {s0 s : St σ}, MultiLive ops fit op mop P s0 → After ops s0 k s →
    k + n ≤ max 1 s0.ga.numGenerations → Poss (BaumEva.mainLoop ops n) s := by
  intro n
  induction n with
  | zero => intro k s0 s _ _ _; exact Poss.of_ok rfl
  | succ n ih =>
    intro k s0 s h0 h hn
    have hk := h.pos
    rw [BaumEva.mainLoop]
    obtain ⟨_, hseed⟩ := h0.after_more h []
    refine Poss.bind hseed h0.generation_ext (h0.generation_poss h (by omega)) ?_
    intro u _ s1 e
    have h' := After.next (h0.after_more h u).1 e
    obtain ⟨_, n1⟩ := (h0.more u).after_more h' []
    refine Poss.bind n1 Tame.getGa.ext (Poss.of_ok (getGa_run s1)) ?_
    intro w ga s2 e2
    have e2 := Prod.mk.inj ((getGa_run _).symm.trans e2)
    obtain ⟨e3, rfl⟩ := e2
    injection e3 with e3
    subst e3
    obtain ⟨⟨_, _, hes⟩, _, _⟩ := h'.keeps sameSetup_frame (h0.safe u).keep
    show Poss (match s1.ga.earlyStop with | none => _ | some e => _) _
    cases he : s1.ga.earlyStop with
    | none => exact absurd (hes.symm.trans he) (h0.safe u).stop
    | some e =>
      simp only
      split
      · exact Poss.of_ok rfl
      · exact ih ((h0.more u).more w) ((h0.more u).after_more h' w).1 (by show _ ≤ max 1 s0.ga.numGenerations; omega)

theorem MultiLive.evolve_poss (h0 : MultiLive ops fit op mop P s0) : Poss (BaumEva.evolve ops) s0 := by
  have hsafe := fun u => (h0.safe u).evolve
  unfold BaumEva.evolve at hsafe ⊢
  have t1 : Tame ops.fitness := by rw [h0.run.fitness]; exact Tame.multiFitness fit
  have t2 : Tame ops.update := by rw [h0.run.update]; exact Tame.multiUpdate
  refine Poss.bind h0.seed t1.ext ?_ ?_
  · refine Poss.of_tame h0.seed t1 fun u => ?_
    intro e s' hx
    exact hsafe u e s' (bind_of_err hx)
  intro u _ s1 e1
  obtain ⟨_, n1⟩ := t1.ext (s0.more u) s1 () [] h0.seed e1
  refine Poss.bind n1 t2.ext ?_ ?_
  · refine Poss.of_tame n1 t2 fun w => ?_
    intro e s' hx
    obtain ⟨e2, _⟩ := t1.ext (s0.more u) s1 () w h0.seed e1
    rw [St.more_more] at e2
    refine hsafe (u ++ w) e s' ?_
    rw [bind_of_ok e2]
    exact bind_of_err hx
  intro w _ s2 e2
  obtain ⟨_, n2⟩ := t2.ext (s1.more w) s2 () [] n1 e2
  obtain ⟨e1', _⟩ := t1.ext (s0.more u) s1 () w h0.seed e1
  have hA : After ops ((s0.more u).more w) 1 s2 := After.first e1' e2
  refine Poss.bind n2 Tame.getGa.ext (Poss.of_ok (getGa_run s2)) ?_
  intro z ga s3 e3
  obtain ⟨e4, rfl⟩ := Prod.mk.inj ((getGa_run _).symm.trans e3)
  injection e4 with e4
  subst e4
  refine MultiLive.mainLoop_poss (((h0.more u).more w).more z) (((h0.more u).more w).after_more hA z).1 ?_
  obtain ⟨⟨hg, _, _⟩, _, _⟩ := hA.keeps sameSetup_frame ((h0.more u).safe w).keep
  show 1 + (s2.ga.numGenerations - 1) ≤ max 1 s0.ga.numGenerations
  have : s2.ga.numGenerations = s0.ga.numGenerations := hg
  omega

end

end BaumEva
