import Verif.Proofs.SureWheel
import Verif.Proofs.LiveMulti
/-!
# Multi-objective runs that return with probability one
-/
namespace BaumEva
open Spec
variable {σ α : Type}

/-- What succeeds with probability one can succeed. -/
theorem Sure.poss {B : Nat} (hB : 0 < B) {m : M σ α} {s : St σ} (h : Sure B m s) : Poss m s := by
  obtain ⟨N, hN⟩ := h (1 / 2) (by norm_num)
  by_contra hno
  have h1 := hN N le_rfl
  have h2 := chance_compl (L := N) (p := fun u => ∃ a s', m (s.more u) = (.ok a, s')) hB
  have h3 : chance B N (fun u => ∃ a s', m (s.more u) = (.ok a, s')) = 0 := by
    unfold chance
    rw [List.countP_eq_zero.mpr]
    · simp
    · intro u _
      simp only [decide_eq_true_eq]
      rintro ⟨a, s', e⟩
      exact hno ⟨u, a, s', e⟩
  rw [h3] at h2
  linarith

/-- The roulette when no pairs are wanted. -/
theorem balanced_sure_none {B : Nat} (hB : 0 < B) {w : Ind σ → Except PyErr ℚ} (hw : ∀ a b, SameCore a b → w b = w a) {m : Nat} {s : St σ}
    (hx : s.ga.attrs.arith = .exact) (hseed : s.seed = none) (hal : ∀ r ∈ s.ga.population, r < s.next) (hne : s.ga.population ≠ [])
    (hpos : ∀ r ∈ s.ga.population, ∃ q, w (s.heap r) = .ok q ∧ 0 < q) (hz : numPairs s.ga m = 0) :
    Sure B (balancedWith (pure ()) w m) s := by
  show Sure B (baseSelection >>= fun _ => (pure () : M σ Unit) >>= fun _ => spin w m) s
  obtain ⟨s1, e1⟩ := baseSelection_run s
  refine Sure.bind hB hseed Tame.baseSelection.ext (Sure.of_ok hseed Tame.baseSelection.ext e1) ?_
  clear e1 s1
  intro u _ s1 e1
  obtain ⟨hr, _⟩ := baseSelection_relabelled e1
  have hp : s1.ga.population = s.ga.population := by rw [hr.ga]; rfl
  have n1 : s1.seed = none := hr.seed.trans hseed
  have hkey : ∀ r, w (s1.heap r) = w (s.heap r) := fun r => hw _ _ (hr.core r)
  have hx1 : s1.ga.attrs.arith = .exact := by rw [hr.ga]; exact hx
  have hz1 : numPairs s1.ga m = 0 := by rw [hr.ga]; exact hz
  refine Sure.bind hB n1 (Tame.pure ()).ext (Sure.of_ok n1 (Tame.pure ()).ext (pure_run () s1)) ?_
  intro u2 _ s2 e2
  obtain ⟨_, rfl⟩ := pure_ok.mp e2
  have hpos1 : ∀ r ∈ s1.ga.population, ∃ q, w (s1.heap r) = .ok q ∧ 0 < q := by
    intro r hm
    rw [hp] at hm
    rw [hkey]
    exact hpos r hm
  unfold spin
  refine Sure.bind hB n1 (Tame.weights w).ext ?_ ?_
  · refine Sure.of_tame n1 (Tame.weights w) fun v => ?_
    have hs : Safe (spin w m) ((s1.more u2).more v) := spin_safe hx1 (by
      show ∀ r ∈ s1.ga.population, r < s1.next
      rw [hp, hr.next]; exact hal) (by show s1.ga.population ≠ []; rw [hp]; exact hne) hpos1
    exact fun e s' h => hs e s' (by unfold spin; exact bind_of_err h)
  intro v ws s2 h2
  obtain ⟨rfl, hws⟩ := weights_ok h2
  have hws : List.Forall₂ (fun r q => w (s1.heap r) = .ok q) s1.ga.population ws := hws
  have hall : ∀ q ∈ ws, 0 < q := by
    intro q hq
    obtain ⟨r, hm, hrq⟩ := forall₂_mem hws hq
    obtain ⟨q', hq', hh⟩ := hpos1 r hm
    rw [hq'] at hrq
    injection hrq with hrq
    rw [← hrq]; exact hh
  have hsum : ws.sum ≠ 0 := by
    refine ne_of_gt (List.sum_pos ws hall ?_)
    rintro rfl
    exact hne (List.length_eq_zero_iff.mp (by rw [← hp, hws.length_eq]; rfl))
  obtain ⟨sel, hsel⟩ := selectionScores_run hsum
  refine Sure.of_ok (a := ()) (s' := (s1.more u2).more v) n1 ?_ ?_
  · exact ExtOk.bind Tame.getGa.ext fun _ => ExtOk.bind (Tame.liftE _).ext fun _ => roulette_ext _ _
  · refine (bind_of_ok (getGa_run _)).trans ?_
    rw [show ((s1.more u2).more v).ga.attrs.arith = .exact from hx1, Arith.exact_rnd, selectionScoresR_id]
    refine (bind_of_ok (liftE_ok.mpr ⟨hsel, rfl⟩)).trans ?_
    unfold roulette
    refine (bind_of_ok (getGa_run _)).trans ?_
    rw [show numPairs ((s1.more u2).more v).ga m = 0 from hz1]
    rfl

/-- A multi-objective run that raises nothing, whose selections succeed with probability one. -/
structure MultiSure [DecidableEq σ] (B : Nat) (ops : Ops σ) (fit : Fit σ) (op : CrossOp) (mop : MutOp) (P : List Val → Prop)
    (s0 : St σ) : Prop where
  safe : ∀ u, MultiSafe ops fit op mop P (s0.more u)
  seed : s0.seed = none
  newGen : Tame ops.newGen
  sel : ExtOk ops.selection
  sure : ∀ u k s, After ops (s0.more u) k s → s.seed = none → Sure B ops.selection s

section
variable [DecidableEq σ] {B : Nat} {ops : Ops σ} {fit : Fit σ} {op : CrossOp} {mop : MutOp} {P : List Val → Prop} {s0 : St σ}

theorem MultiSure.live (hB : 0 < B) (h0 : MultiSure B ops fit op mop P s0) : MultiLive ops fit op mop P s0 :=
  ⟨h0.safe, h0.seed, h0.newGen, h0.sel, fun u k s h hn => (h0.sure u k s h hn).poss hB⟩

theorem MultiSure.more (h0 : MultiSure B ops fit op mop P s0) (u : List Nat) : MultiSure B ops fit op mop P (s0.more u) :=
  ⟨fun w => by rw [St.more_more]; exact h0.safe _, h0.seed, h0.newGen, h0.sel, fun w k s h => h0.sure (u ++ w) k s (by rw [← St.more_more]; exact h)⟩

theorem MultiSure.generation (hB : 0 < B) (h0 : MultiSure B ops fit op mop P s0) {k : Nat} {s : St σ} (h : After ops s0 k s)
    (hk : k < s0.ga.numGenerations) : Sure B (BaumEva.generation ops) s := by
  have hl := h0.live hB
  obtain ⟨_, hseed⟩ := hl.after_more h []
  refine Sure.bind (m := ops.selection) (f := fun _ => breedRest ops) hB hseed h0.sel
    (h0.sure [] k s (by rw [St.more_nil]; exact h) hseed) ?_
  intro u _ s1 e
  obtain ⟨_, n1⟩ := h0.sel (s.more u) s1 () [] hseed e
  refine Sure.of_tame n1 hl.rest ?_
  intro w
  obtain ⟨e2, _⟩ := h0.sel (s.more u) s1 () w hseed e
  rw [St.more_more] at e2
  have hsafe := (h0.safe (u ++ w)).generation (hl.after_more h (u ++ w)).1 hk
  intro er s2 hx
  refine hsafe er s2 ?_
  show (ops.selection >>= fun _ => breedRest ops) _ = _
  rw [bind_of_ok e2]
  exact hx

theorem MultiSure.mainLoop (hB : 0 < B) : ∀ {n k : Nat} {s0 s : St σ}, MultiSure B ops fit op mop P s0 → After ops s0 k s →
    k + n ≤ max 1 s0.ga.numGenerations → Sure B (BaumEva.mainLoop ops n) s := by
  intro n
  induction n with
  | zero =>
    intro k s0 s h0 h _
    exact Sure.of_ok ((h0.live hB).after_more h []).2 (Tame.pure ()).ext rfl
  | succ n ih =>
    intro k s0 s h0 h hn
    have hl := h0.live hB
    have hk := h.pos
    rw [BaumEva.mainLoop]
    obtain ⟨_, hseed⟩ := hl.after_more h []
    refine Sure.bind hB hseed hl.generation_ext (h0.generation hB h (by omega)) ?_
    intro u _ s1 e
    have h' := After.next (hl.after_more h u).1 e
    obtain ⟨_, n1⟩ := (hl.more u).after_more h' []
    refine Sure.bind hB n1 Tame.getGa.ext (Sure.of_ok n1 Tame.getGa.ext (getGa_run s1)) ?_
    intro w ga s2 e2
    obtain ⟨e3, rfl⟩ := Prod.mk.inj ((getGa_run _).symm.trans e2)
    injection e3 with e3
    subst e3
    obtain ⟨⟨_, _, hes⟩, _, _⟩ := h'.keeps sameSetup_frame (h0.safe u).keep
    show Sure B (match s1.ga.earlyStop with | none => _ | some e => _) _
    cases he : s1.ga.earlyStop with
    | none => exact absurd (hes.symm.trans he) (h0.safe u).stop
    | some e =>
      simp only
      split
      · exact Sure.of_ok n1 (Tame.pure ()).ext rfl
      · exact ih ((h0.more u).more w) ((hl.more u).after_more h' w).1 (by show _ ≤ max 1 s0.ga.numGenerations; omega)

theorem MultiSure.evolve (hB : 0 < B) (h0 : MultiSure B ops fit op mop P s0) : Sure B (BaumEva.evolve ops) s0 := by
  have hl := h0.live hB
  have hsafe := fun u => (h0.safe u).evolve
  unfold BaumEva.evolve at hsafe ⊢
  have t1 : Tame ops.fitness := by rw [hl.run.fitness]; exact Tame.multiFitness fit
  have t2 : Tame ops.update := by rw [hl.run.update]; exact Tame.multiUpdate
  refine Sure.bind hB h0.seed t1.ext ?_ ?_
  · refine Sure.of_tame h0.seed t1 fun u => ?_
    intro e s' hx
    exact hsafe u e s' (bind_of_err hx)
  intro u _ s1 e1
  obtain ⟨_, n1⟩ := t1.ext (s0.more u) s1 () [] h0.seed e1
  refine Sure.bind hB n1 t2.ext ?_ ?_
  · refine Sure.of_tame n1 t2 fun w => ?_
    intro e s' hx
    obtain ⟨e2, _⟩ := t1.ext (s0.more u) s1 () w h0.seed e1
    rw [St.more_more] at e2
    refine hsafe (u ++ w) e s' ?_
    rw [bind_of_ok e2]
    exact bind_of_err hx
  intro w _ s2 e2
  obtain ⟨_, n2⟩ := t2.ext (s1.more w) s2 () [] n1 e2
  obtain ⟨e1', _⟩ := t1.ext (s0.more u) s1 () w h0.seed e1
  have hA : After ops ((s0.more u).more w) 1 s2 := After.first e1' e2
  refine Sure.bind hB n2 Tame.getGa.ext (Sure.of_ok n2 Tame.getGa.ext (getGa_run s2)) ?_
  intro z ga s3 e3
  obtain ⟨e4, rfl⟩ := Prod.mk.inj ((getGa_run _).symm.trans e3)
  injection e4 with e4
  subst e4
  refine MultiSure.mainLoop hB (((h0.more u).more w).more z) (((hl.more u).more w).after_more hA z).1 ?_
  obtain ⟨⟨hg, _, _⟩, _, _⟩ := hA.keeps sameSetup_frame ((h0.more u).safe w).keep
  show 1 + (s2.ga.numGenerations - 1) ≤ max 1 s0.ga.numGenerations
  have : s2.ga.numGenerations = s0.ga.numGenerations := hg
  omega

end

end BaumEva
