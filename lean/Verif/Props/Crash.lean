import Verif.Props.Again
import Verif.Proofs.Touch
/-!
# C81: exceptions during a run
-/
namespace BaumEva
open Spec

/-! ## what an evaluation does, also when it raises -/

section
variable {σ : Type}

/-- `s'` is `s` after a part of an evaluation of the population `L`: scores exist or get written, but those of `X` may change. -/
def EvalKept (L : List Nat) (X : Nat → Prop) (s s' : St σ) : Prop := s.ga.population = L →
  s'.ga = s.ga ∧ s'.next = s.next ∧ s'.snaps = s.snaps ∧ (∀ r, r ∉ L → s'.heap r = s.heap r) ∧
    ∀ r, ¬ X r → (s.heap r).score.isSome → (s'.heap r).score = (s.heap r).score

theorem evalKept_step (L : List Nat) (X : Nat → Prop) : Step (EvalKept L X : St σ → St σ → Prop) where
  refl s := fun _ => ⟨rfl, rfl, rfl, fun _ _ => rfl, fun _ _ _ => rfl⟩
  trans h1 h2 := fun h => by
    obtain ⟨a1, a2, a3, a4, a5⟩ := h1 h
    obtain ⟨b1, b2, b3, b4, b5⟩ := h2 (by rw [a1]; exact h)
    refine ⟨b1.trans a1, b2.trans a2, b3.trans a3, fun r hr => (b4 r hr).trans (a4 r hr), fun r hx hs => ?_⟩
    have e := a5 r hx hs
    exact (b5 r hx (by rw [e]; exact hs)).trans e

variable {L : List Nat} {X : Nat → Prop}

theorem evalKept_modInd {r : Nat} (hr : r ∈ L) (f : Ind σ → Ind σ) (hf : X r ∨ ∀ i, (f i).score = i.score) :
    Keeps (EvalKept L X) (modInd r f) := fun s _ => by
  refine ⟨rfl, rfl, rfl, fun x hx => ?_, fun x hx _ => ?_⟩
  · have : x ≠ r := fun e => hx (e ▸ hr)
    simp only [modInd, upd]
    rw [if_neg this]
  · simp only [modInd, upd]
    split
    · rename_i e
      subst e
      rcases hf with h | h
      · exact absurd h hx
      · exact h _
    · rfl

theorem evalKept_ga {α : Type} {f : GaData σ → M σ α} (h : ∀ ga : GaData σ, ga.population = L → Keeps (EvalKept L X) (f ga)) :
    Keeps (EvalKept L X) (getGa >>= f) := by
  intro s hs
  rw [bind_of_ok (getGa_run s)]
  exact h s.ga hs s hs

theorem getPhenotype_evalKept : Keeps (EvalKept L X) (getPhenotype : M σ Unit) := by
  have hR := evalKept_step (σ := σ) L X
  unfold getPhenotype
  refine evalKept_ga fun ga hga => Keeps.forEach_mem hR fun r hr => Keeps.bind hR (Keeps.getInd hR r) fun ind => ?_
  split
  · exact Keeps.pure hR _
  · exact Keeps.bind hR (Keeps.genoOf hR r) fun g => Keeps.bind hR (Keeps.liftE hR _) fun p =>
      evalKept_modInd (hga ▸ hr) _ (.inr fun _ => rfl)

theorem swapPop_evalKept : Keeps (EvalKept L X) (swapPop : M σ Unit) := by
  have hR := evalKept_step (σ := σ) L X
  unfold swapPop
  exact evalKept_ga fun ga hga => Keeps.forEach_mem hR fun r hr => evalKept_modInd (hga ▸ hr) _ (.inr fun _ => rfl)

theorem feasLoop_evalKept {r : Nat} (hr : r ∈ L) : ∀ (cs : List Cond) (vs : List ℚ),
    Keeps (EvalKept L X) (feasLoop r cs vs : M σ Unit)
  | [], [] => Keeps.pure (evalKept_step L X) _
  | _ :: _, [] => Keeps.pure (evalKept_step L X) _
  | [], _ :: _ => Keeps.throwE (evalKept_step L X) _
  | c :: cs, v :: vs => by
    rw [feasLoop]
    refine Keeps.bind (evalKept_step L X) ?_ fun _ => feasLoop_evalKept hr cs vs
    unfold markFeas
    exact Keeps.ite (Keeps.pure (evalKept_step L X) _) (evalKept_modInd hr _ (.inr fun _ => rfl))

theorem evalInd_evalKept (fit : Fit σ) {r : Nat} (hr : r ∈ L) : Keeps (EvalKept L fun _ => False) (evalInd fit r : M σ Unit) := by
  intro s hL
  unfold evalInd
  rw [bind_of_ok (getInd_run r s)]
  cases hsc : (s.heap r).score with
  | some v => exact (evalKept_step L _).refl s hL
  | none =>
    have hR := evalKept_step (σ := σ) L (· = r)
    have hrest : Keeps (EvalKept L (· = r)) (do
        let g ← genoOf r
        let values ← calcObj fit g
        let pen ← evalValues fit r values
        let ind ← getInd r
        let sc ← liftE (fit.task.score ind pen)
        modInd r fun ind => { ind with score := some sc } : M σ Unit) := by
      refine Keeps.bind hR (Keeps.genoOf hR r) fun g => Keeps.bind hR ?_ fun v => Keeps.bind hR ?_ fun p =>
        Keeps.bind hR (Keeps.getInd hR r) fun ind => Keeps.bind hR (Keeps.liftE hR _) fun sc => evalKept_modInd hr _ (.inl rfl)
      · unfold calcObj callObj
        exact Keeps.bind hR (Keeps.bind hR (fun s h => ⟨rfl, rfl, rfl, fun _ _ => rfl, fun _ _ _ => rfl⟩) fun _ => Keeps.liftE hR _)
          fun _ => Keeps.liftE hR _
      · unfold evalValues
        refine Keeps.ite ?_ (Keeps.bind hR (evalKept_modInd hr _ (.inl rfl)) fun _ => Keeps.pure hR _)
        split
        · unfold evalCond
          refine Keeps.bind hR (Keeps.liftE hR _) fun pr => Keeps.bind hR (evalKept_modInd hr _ (.inl rfl)) fun _ =>
            Keeps.bind hR (feasLoop_evalKept hr _ _) fun _ => Keeps.bind hR (Keeps.getS hR) fun s => ?_
          split
          · exact Keeps.throwE hR _
          · exact Keeps.liftE hR _
        · exact Keeps.throwE hR _
    obtain ⟨a1, a2, a3, a4, a5⟩ := hrest s hL
    refine ⟨a1, a2, a3, a4, fun x _ hx => a5 x ?_ hx⟩
    rintro rfl
    rw [hsc] at hx
    simp at hx

theorem baseFitness_evalKept (fit : Fit σ) (s : St σ) :
    EvalKept s.ga.population (fun _ => False) s ((baseFitnessExec fit : M σ Unit) s).2 := by
  have hR := evalKept_step (σ := σ) s.ga.population (fun _ => False)
  have : Keeps (EvalKept s.ga.population (fun _ => False)) (baseFitnessExec fit : M σ Unit) := by
    unfold baseFitnessExec
    refine evalKept_ga fun ga hga => ?_
    have hloop : Keeps (EvalKept s.ga.population fun _ => False) (forEach ga.population (evalInd fit) : M σ Unit) :=
      Keeps.forEach_mem hR fun r hr => evalInd_evalKept fit (hga ▸ hr)
    exact Keeps.ite (Keeps.bind hR getPhenotype_evalKept fun _ => Keeps.bind hR swapPop_evalKept fun _ =>
      Keeps.bind hR hloop fun _ => swapPop_evalKept) hloop
  exact this s

/-! ## what selection, crossover and mutation do, also when they raise -/

/-- The records, the population and the scores are kept. -/
structure ScoresKept (s s' : St σ) : Prop where
  record : SameRecord s.ga s'.ga
  members : SameMembers s.ga s'.ga
  snaps : s'.snaps = s.snaps
  next : s.next ≤ s'.next
  score : ∀ r, r < s.next → (s'.heap r).score = (s.heap r).score

theorem scoresKept_gentle : Gentle (ScoresKept : St σ → St σ → Prop) where
  step := ⟨fun s => ⟨⟨rfl, rfl, rfl, rfl, rfl, rfl, rfl, rfl, rfl, rfl⟩, ⟨rfl, rfl⟩, rfl, le_rfl, fun _ _ => rfl⟩,
    fun h1 h2 => ⟨⟨h2.record.1.trans h1.record.1, h2.record.2.trans h1.record.2, h2.record.3.trans h1.record.3,
      h2.record.4.trans h1.record.4, h2.record.5.trans h1.record.5, h2.record.6.trans h1.record.6, h2.record.7.trans h1.record.7,
      h2.record.8.trans h1.record.8, h2.record.9.trans h1.record.9, h2.record.10.trans h1.record.10⟩,
      ⟨h2.members.1.trans h1.members.1, h2.members.2.trans h1.members.2⟩, h2.snaps.trans h1.snaps, h1.next.trans h2.next,
      fun r hr => (h2.score r (hr.trans_le h1.next)).trans (h1.score r hr)⟩⟩
  tape _ _ _ _ := ⟨⟨rfl, rfl, rfl, rfl, rfl, rfl, rfl, rfl, rfl, rfl⟩, ⟨rfl, rfl⟩, rfl, le_rfl, fun _ _ => rfl⟩
  seeded _ _ _ := ⟨⟨rfl, rfl, rfl, rfl, rfl, rfl, rfl, rfl, rfl, rfl⟩, ⟨rfl, rfl⟩, rfl, le_rfl, fun _ _ => rfl⟩
  fresh s v := ⟨⟨rfl, rfl, rfl, rfl, rfl, rfl, rfl, rfl, rfl, rfl⟩, ⟨rfl, rfl⟩, rfl, Nat.le_succ _, fun r hr => by
    simp only [upd]; rw [if_neg (by omega)]⟩
  ga _ _ h1 h2 := ⟨h1, h2, rfl, le_rfl, fun _ _ => rfl⟩
  mutLvl _ _ := ⟨⟨rfl, rfl, rfl, rfl, rfl, rfl, rfl, rfl, rfl, rfl⟩, ⟨rfl, rfl⟩, rfl, le_rfl, fun _ _ => rfl⟩
  write r f hf := fun s => ⟨⟨rfl, rfl, rfl, rfl, rfl, rfl, rfl, rfl, rfl, rfl⟩, ⟨rfl, rfl⟩, rfl, le_rfl, fun x _ => by
    simp only [modInd, upd]
    split
    · rename_i e; subst e; exact hf _
    · rfl⟩

end

/-! ## states in which a run can be resumed -/

section
variable {σ : Type} [LinearOrder σ]

/-- A state with a record of `k` generations from which a run can go on. -/
structure Resumable (s : St σ) (k : Nat) : Prop where
  hist : Hist s k
  alive : ∀ r ∈ s.ga.population, r < s.next
  distinct : (unscored s.heap s.ga.population).Nodup
  sorted : s.ga.attrs.isSorted = true → Ascending s.heap s.ga.population
  surv : ∀ b g, s.ga.best = some (.single b g) → b ∉ s.ga.population ∧
    ∀ v, (s.heap b).score = some v → ∃ r ∈ s.ga.population, (s.heap r).score = some v

theorem Fresh.resumable {s : St σ} (h : Fresh s) : Resumable s 0 :=
  ⟨h.hist, h.alive, h.distinct.sublist (unscored_sublist _ _), fun e => by rw [h.unsorted] at e; simp at e,
    fun b g e => by rw [h.best] at e; simp at e⟩

theorem RunInv.resumable {s : St σ} {k : Nat} (h : RunInv s k) : Resumable s k := by
  refine ⟨h.hist, h.settled.alive, by rw [h.scored]; exact List.nodup_nil, fun _ => h.settled.asc, fun b g e => ?_⟩
  obtain ⟨b', g', v, r, t1, t2, t3, t4, _⟩ := h.top
  rw [t1] at e
  simp at e
  obtain ⟨rfl, rfl⟩ := e
  refine ⟨(h.settled.best b' g' t1).2, fun w hw => ⟨r, List.mem_of_getLast? t3, ?_⟩⟩
  rw [t4, ← t2]; exact hw

omit [LinearOrder σ] in
theorem unscored_mono {h h' : Nat → Ind σ} {l : List Nat} (hs : ∀ r ∈ l, (h r).score.isSome → (h' r).score.isSome) :
    (unscored h' l).Sublist (unscored h l) := by
  have : unscored h' l = (unscored h l).filter fun r => (h' r).score.isNone := by
    unfold unscored
    rw [List.filter_filter]
    refine List.filter_congr fun r hr => ?_
    cases h1 : (h' r).score with
    | some v => simp
    | none =>
      cases h2 : (h r).score with
      | none => simp
      | some v =>
        have := hs r hr (by rw [h2]; rfl)
        rw [h1] at this
        simp at this
  rw [this]
  exact List.filter_sublist

theorem Ascending.transfer {h h' : Nat → Ind σ} {l : List Nat} (ha : Ascending h l) (hs : ∀ r ∈ l, (h' r).score = (h r).score) :
    Ascending h' l := by
  refine ⟨fun r hr => by rw [hs r hr]; exact ha.1 r hr, ha.2.imp_of_mem fun {x y} hx hy hxy => ?_⟩
  rw [hs x hx, hs y hy]; exact hxy

/-- Evaluations keep a state resumable. -/
theorem Resumable.eval {s s' : St σ} {k : Nat} (h : Resumable s k) (he : EvalKept s.ga.population (fun _ => False) s s') :
    Resumable s' k := by
  obtain ⟨a1, a2, a3, a4, a5⟩ := he rfl
  refine ⟨h.hist.frame (by rw [a1]) a3 (by rw [a1]) (by rw [a1]) (by rw [a1]) (by rw [a1]) (by rw [a1]) a2.ge ?_,
    by rw [a1, a2]; exact h.alive, ?_, ?_, ?_⟩
  · intro b g e; exact a4 b (h.surv b g e).1
  · rw [a1]
    refine h.distinct.sublist (unscored_mono fun r _ hs => ?_)
    rw [a5 r not_false hs]; exact hs
  · rw [a1]
    intro e
    exact (h.sorted e).transfer fun r hr => a5 r not_false ((h.sorted e).1 r hr)
  · rw [a1]
    intro b g e
    obtain ⟨b1, b2⟩ := h.surv b g e
    refine ⟨b1, fun v hv => ?_⟩
    rw [a4 b b1] at hv
    obtain ⟨r, hr, e⟩ := b2 v hv
    exact ⟨r, hr, by rw [a5 r not_false (by rw [e]; rfl)]; exact e⟩

/-- So do selection, crossover and mutation. -/
theorem Resumable.bred {s s' : St σ} {k : Nat} (h : Resumable s k) (hk : ScoresKept s s') (ht : Touch s.ga.population s s') :
    Resumable s' k := by
  have hb : ∀ b g, s.ga.best = some (.single b g) → s'.heap b = s.heap b := by
    intro b g e
    refine ht.2 b ?_ (h.surv b g e).1
    rcases h.hist.best with ⟨_, e', _⟩ | ⟨b', g', _, _, e', hlt, _⟩
    · rw [e'] at e; simp at e
    · rw [e'] at e; simp at e; rw [← e.1]; exact hlt
  have hr := hk.record
  have hsc : ∀ r ∈ s.ga.population, (s'.heap r).score = (s.heap r).score := fun r hr => hk.score r (h.alive r hr)
  refine ⟨h.hist.frame hr.idxGeneration hk.snaps hr.histBest hr.histMed hr.histWorst hr.best hr.noImprove hk.next hb, ?_, ?_, ?_, ?_⟩
  · rw [hk.members.1]; exact fun r hr => (h.alive r hr).trans_le hk.next
  · rw [hk.members.1]
    refine h.distinct.sublist (unscored_mono fun r hr hs => ?_)
    rw [hsc r hr]; exact hs
  · rw [hk.members.1, hk.members.2]
    exact fun e => (h.sorted e).transfer hsc
  · rw [hk.members.1, hr.best]
    intro b g e
    obtain ⟨b1, b2⟩ := h.surv b g e
    refine ⟨b1, fun v hv => ?_⟩
    rw [hb b g e] at hv
    obtain ⟨r, hr, e⟩ := b2 v hv
    exact ⟨r, hr, by rw [hsc r hr]; exact e⟩

/-- The part of the state that `update` writes: the records, the recorded populations, and the individual in
`best_solution`. -/
structure SameHistory (s s' : St σ) : Prop where
  record : SameRecord s.ga s'.ga
  snaps : s'.snaps = s.snaps
  best : ∀ b g, s.ga.best = some (.single b g) → s'.heap b = s.heap b

omit [LinearOrder σ] in
theorem SameHistory.refl (s : St σ) : SameHistory s s :=
  ⟨⟨rfl, rfl, rfl, rfl, rfl, rfl, rfl, rfl, rfl, rfl⟩, rfl, fun _ _ _ => rfl⟩

omit [LinearOrder σ] in
theorem SameHistory.trans {a b c : St σ} (h1 : SameHistory a b) (h2 : SameHistory b c) : SameHistory a c :=
  ⟨⟨h2.record.1.trans h1.record.1, h2.record.2.trans h1.record.2, h2.record.3.trans h1.record.3,
      h2.record.4.trans h1.record.4, h2.record.5.trans h1.record.5, h2.record.6.trans h1.record.6, h2.record.7.trans h1.record.7,
      h2.record.8.trans h1.record.8, h2.record.9.trans h1.record.9, h2.record.10.trans h1.record.10⟩,
    h2.snaps.trans h1.snaps, fun x g e => (h2.best x g (h1.record.best.trans e)).trans (h1.best x g e)⟩

theorem Resumable.best_lt {s : St σ} {k b g : Nat} (h : Resumable s k) (e : s.ga.best = some (.single b g)) : b < s.next := by
  rcases h.hist.best with ⟨_, e', _⟩ | ⟨b', g', _, _, e', hlt, _⟩
  · rw [e'] at e; simp at e
  · rw [e'] at e; simp at e; rw [← e.1]; exact hlt

theorem Resumable.eval_history {s s' : St σ} {k : Nat} (h : Resumable s k) (he : EvalKept s.ga.population (fun _ => False) s s') :
    SameHistory s s' := by
  obtain ⟨a1, a2, a3, a4, a5⟩ := he rfl
  refine ⟨?_, a3, fun b g e => a4 b (h.surv b g e).1⟩
  rw [a1]
  exact ⟨rfl, rfl, rfl, rfl, rfl, rfl, rfl, rfl, rfl, rfl⟩

theorem Resumable.bred_history {s s' : St σ} {k : Nat} (h : Resumable s k) (hk : ScoresKept s s') (ht : Touch s.ga.population s s') :
    SameHistory s s' :=
  ⟨hk.record, hk.snaps, fun b g e => ht.2 b (h.best_lt e) (h.surv b g e).1⟩

omit [LinearOrder σ] in
theorem scoreOf_state (r : Nat) (s : St σ) : (scoreOf r s).2 = s := by
  unfold scoreOf; split <;> rfl

omit [LinearOrder σ] in
theorem mapEach_state {α β : Type} {f : α → M σ β} (hf : ∀ a s, (f a s).2 = s) : ∀ (l : List α) (s : St σ), (mapEach l f s).2 = s
  | [], s => rfl
  | x :: l, s => by
    rw [mapEach]
    rcases hx : f x s with ⟨y, s1⟩
    have h1 : s1 = s := by have := hf x s; rw [hx] at this; exact this
    subst h1
    cases y with
    | error e => rw [bind_of_err hx]
    | ok a =>
      rw [bind_of_ok hx]
      rcases hy : mapEach l f s1 with ⟨z, s2⟩
      have h2 : s2 = s1 := by have := mapEach_state hf l s1; rw [hy] at this; exact this
      subst h2
      cases z with
      | error e => rw [bind_of_err hy]
      | ok a => rw [bind_of_ok hy]; rfl

theorem sortByScore_error {s s' : St σ} {e : PyErr} (h : sortByScore s = (.error e, s')) : s' = s := by
  unfold sortByScore at h
  rw [bind_of_ok (getGa_run s)] at h
  have hst : (mapEach s.ga.population (fun r => do let v ← scoreOf r; pure (v, r) : Nat → M σ (σ × Nat)) s).2 = s := by
    refine mapEach_state (fun r s => ?_) _ _
    rcases hx : scoreOf r s with ⟨y, s1⟩
    have h1 : s1 = s := by have := scoreOf_state r s; rw [hx] at this; exact this
    subst h1
    cases y with
    | error e => rw [bind_of_err hx]
    | ok a => rw [bind_of_ok hx]; rfl
  rcases bind_err.mp h with h1 | ⟨a, s1, h1, h2⟩
  · rw [h1] at hst; exact hst
  · rw [modGa_run] at h2; simp at h2

theorem ensureSorted_error {s s' : St σ} {e : PyErr} (h : ensureSorted s = (.error e, s')) : s' = s := by
  unfold ensureSorted at h
  rw [bind_of_ok (getGa_run s), ite_run] at h
  split at h
  · simp [pure_run] at h
  · exact sortByScore_error h

omit [LinearOrder σ] in
theorem recordScores_error {s s' : St σ} {e : PyErr} (h : recordScores s = (.error e, s')) : s' = s := by
  unfold recordScores at h
  rw [bind_of_ok (getGa_run s)] at h
  cases h1 : s.ga.population.getLast? with
  | none => simp only [h1, throwE_run] at h; exact (Prod.mk.inj h).2.symm
  | some rb =>
  cases h2 : s.ga.population[s.ga.population.length / 2]? with
  | none => simp only [h1, h2, throwE_run] at h; exact (Prod.mk.inj h).2.symm
  | some rm =>
  cases h3 : s.ga.population.head? with
  | none => simp only [h1, h2, h3, throwE_run] at h; exact (Prod.mk.inj h).2.symm
  | some rw =>
  simp only [h1, h2, h3] at h
  have hst : ∀ r (t : St σ), (scoreOf r t).2 = t := scoreOf_state
  rcases bind_err.mp h with k1 | ⟨b, s1, k1, h4⟩
  · have := hst rb s; rw [k1] at this; exact this
  obtain ⟨_, rfl⟩ := scoreOf_ok.mp k1
  rcases bind_err.mp h4 with k2 | ⟨b, s2, k2, h5⟩
  · have := hst rm s1; rw [k2] at this; exact this
  obtain ⟨_, rfl⟩ := scoreOf_ok.mp k2
  rcases bind_err.mp h5 with k3 | ⟨b, s3, k3, h6⟩
  · have := hst rw s2; rw [k3] at this; exact this
  rw [modGa_run] at h6; simp at h6

/-- What an `update` that raises can have changed. -/
theorem Resumable.update_error {s s' : St σ} {k : Nat} {e : PyErr} (h : Resumable s k) (hu : gaUpdate s = (.error e, s')) :
    s' = s ∨ ∃ pop, pop.Perm s.ga.population ∧ Ascending s.heap pop ∧
      s' = { s with ga := { s.ga with population := pop, attrs := { s.ga.attrs with isSorted := true } } } := by
  unfold gaUpdate at hu
  rcases bind_err.mp hu with h1 | ⟨_, s1, h1, hu⟩
  · exact .inl (ensureSorted_error h1)
  obtain ⟨pop, rfl, hperm, hs1, hs2⟩ := ensureSorted_ok h1
  have hasc : Ascending s.heap pop := by
    cases hx : s.ga.attrs.isSorted with
    | true => rw [hs1 hx]; exact h.sorted hx
    | false => exact (hs2 hx).ascending
  rcases bind_err.mp hu with h2 | ⟨_, s2, h2, hu⟩
  · exact .inr ⟨pop, hperm, hasc, recordScores_error h2⟩
  · exfalso
    obtain ⟨rb, rm, rw', b, m, w, r1, r2, r3, r4, r5, r6, rfl⟩ := recordScores_ok h2
    simp only at r1 r4 hu
    rw [bind_of_ok (getGa_run _)] at hu
    simp only [r1] at hu
    have hdec : ∀ (t : St σ) {e t'}, decideBest rb t = (.error e, t') → t.ga.best = s.ga.best → t.heap = s.heap → False := by
      intro t e t' ht ht1 ht2
      suffices hx : ∃ t', decideBest rb t = (.ok (), t') by
        obtain ⟨t', hx⟩ := hx
        rw [hx] at ht; simp at ht
      unfold decideBest
      rw [bind_of_ok (getGa_run t)]
      rcases h.hist.best with ⟨_, e', _⟩ | ⟨b', g', v, _, e', _, hv, _⟩
      · simp only [ht1, e']
        exact ⟨_, replaceBest_run _ _⟩
      · simp only [ht1, e']
        have c1 : scoreOf b' t = (.ok v, t) := scoreOf_ok.mpr ⟨by rw [ht2]; exact hv, rfl⟩
        have c2 : scoreOf rb t = (.ok b, t) := scoreOf_ok.mpr ⟨by rw [ht2]; exact r4, rfl⟩
        rw [bind_of_ok c1, bind_of_ok c2, ite_run]
        split
        · rw [bind_of_ok (replaceBest_run _ _), modGa_run]; exact ⟨_, rfl⟩
        · rw [modGa_run]; exact ⟨_, rfl⟩
    rcases bind_err.mp hu with h3 | ⟨_, s3, h3, hu⟩
    · exact hdec _ h3 rfl rfl
    · rw [bind_of_ok (modGa_run _ _)] at hu
      unfold snapshot at hu
      rw [modifyS_run] at hu
      simp at hu

/-- `update` either completes the record of one more generation or leaves the record as it was. -/
theorem Resumable.update {s s' : St σ} {k : Nat} {x : Except PyErr Unit} (h : Resumable s k) (hu : gaUpdate s = (x, s')) :
    (x = .ok () ∧ RunInv s' (k + 1)) ∨ ∃ e, x = .error e ∧ Resumable s' k ∧ SameHistory s s' := by
  cases x with
  | ok u =>
    obtain ⟨a1, a2, a3, _⟩ := gaUpdate_step h.hist h.alive h.sorted h.surv hu
    exact .inl ⟨rfl, ⟨Nat.succ_pos _, a1, a2, a3⟩⟩
  | error e =>
    refine .inr ⟨e, rfl, ?_⟩
    rcases h.update_error hu with rfl | ⟨pop, hperm, hasc, rfl⟩
    · exact ⟨h, SameHistory.refl _⟩
    · refine ⟨⟨h.hist.frame rfl rfl rfl rfl rfl rfl rfl le_rfl fun _ _ _ => rfl, fun r hr => h.alive r (hperm.subset hr), ?_,
        fun _ => hasc, fun b g e => ?_⟩, ⟨⟨rfl, rfl, rfl, rfl, rfl, rfl, rfl, rfl, rfl, rfl⟩, rfl, fun _ _ _ => rfl⟩⟩
      · exact ((hperm.filter _).nodup_iff).mpr h.distinct
      · obtain ⟨b1, b2⟩ := h.surv b g e
        refine ⟨fun hc => b1 (hperm.subset hc), fun v hv => ?_⟩
        obtain ⟨r, hr, e⟩ := b2 v hv
        exact ⟨r, hperm.symm.subset hr, e⟩

end

section
variable {fit : Fit ℚ} {sel : SelOp} {op : CrossOp} {mop : MutOp} {tr : Transfer}

theorem newGenExec_error {s s' : St ℚ} {e : PyErr} (hs : s.ga.attrs.isSorted = true) (h : newGenExec tr s = (.error e, s')) :
    ScoresKept s s' ∧ Touch [] s s' := by
  unfold newGenExec at h
  have h1 : ensureSorted s = (.ok (), s) := by
    unfold ensureSorted
    rw [bind_of_ok (getGa_run s), ite_run, if_pos hs]; rfl
  rw [bind_of_ok h1, bind_of_ok (getGa_run s), ite_run] at h
  split at h
  · rcases bind_err.mp h with h2 | ⟨l, s2, h2, h3⟩
    · have a := chooseElites_frame (scoresKept_gentle (σ := ℚ)).toCalm tr (s.ga.attrs.numIndivid - s.ga.children.length) s
      have b := chooseElites_frame (touch_calm (σ := ℚ) []) tr (s.ga.attrs.numIndivid - s.ga.children.length) s
      rw [h2] at a b
      exact ⟨a, b⟩
    · unfold installPop at h3
      rw [modGa_run] at h3; simp at h3
  · cases hl : s.ga.population.getLast? with
    | none =>
      simp only [hl, throwE_run] at h
      obtain rfl := (Prod.mk.inj h).2
      exact ⟨scoresKept_gentle.step.refl _, (touch_step _).refl _⟩
    | some r =>
      simp only [hl] at h
      unfold installPop at h
      rw [modGa_run] at h; simp at h

/-- The new population, before it is evaluated. -/
theorem newGen_resumable {s s1 s2 : St ℚ} {k : Nat} {u : Unit} (hs : RunInv s k) (hB : Bore op mop s s1)
    (h4 : newGenExec tr s1 = (.ok u, s2)) : Resumable s2 k ∧ SameHistory s s2 := by
  have hsorted : s1.ga.attrs.isSorted = true := by rw [hB.ga]; exact hs.settled.sorted
  have hpop : s1.ga.population = s.ga.population := by rw [hB.ga]
  obtain ⟨pop, es, t, _, e1, _, hel, e2, e3, e4⟩ := newGenExec_ok h4
  have e1 := e1 hsorted
  rw [e1, hpop] at hel
  obtain ⟨n0, hn0, hrange, hn1⟩ := hB.range
  have hsn : s.next ≤ s1.next := by omega
  have hn2 : s2.next = s1.next := by rw [e2]
  have hh2 : s2.heap = s1.heap := by rw [e2]
  have hp2 : s2.ga.population = s1.ga.children ++ es := by rw [e2]
  have hu2 : s2.ga.attrs.isSorted = false := by rw [e2]
  obtain ⟨b, g, v, r, t1, t2, t3, t4, t5⟩ := hs.top
  have hb := hs.settled.best b g t1
  have hbc : b ∉ s2.ga.population := by
    rw [hp2, List.mem_append]
    rintro (hc | hc)
    · rw [hrange, List.mem_range'_1] at hc; omega
    · exact hb.2 (hel.mem b hc)
  have hbh : s2.heap b = s.heap b := by rw [hh2]; exact hB.old b hb.1 hb.2
  have hrec : SameRecord s.ga s2.ga := by
    rw [e2]
    simp only
    rw [hB.ga]
    exact ⟨rfl, rfl, rfl, rfl, rfl, rfl, rfl, rfl, rfl, rfl⟩
  have hsn2 : s2.snaps = s.snaps := by rw [e2]; exact hB.snaps
  have hbest : ∀ b' g', s.ga.best = some (.single b' g') → s2.heap b' = s.heap b' := by
    intro b' g' e; rw [t1] at e; simp at e; rw [← e.1]; exact hbh
  have hlast : s2.ga.population.getLast? = some r := by
    rw [hp2, List.getLast?_append, hel.last, t3]; rfl
  have hrm : r ∈ s.ga.population := List.mem_of_getLast? t3
  refine ⟨⟨hs.hist.frame hrec.idxGeneration hsn2 hrec.histBest hrec.histMed hrec.histWorst hrec.best hrec.noImprove
    (by rw [hn2]; exact hsn) hbest, ?_, ?_, fun e => by rw [hu2] at e; simp at e, ?_⟩, hrec, hsn2, hbest⟩
  · rw [hn2, hp2]
    intro x hx
    rcases List.mem_append.mp hx with hx | hx
    · rw [hrange, List.mem_range'_1] at hx; omega
    · exact (hs.settled.alive x (hel.mem x hx)).trans_le hsn
  · have hun : unscored s2.heap s2.ga.population = unscored s1.heap s1.ga.children := by
      rw [hh2, hp2]
      unfold unscored
      rw [List.filter_append]
      have c2 : (es.filter fun r => (s1.heap r).score.isNone) = [] := by
        rw [List.filter_eq_nil_iff]
        intro r hr
        have hm := hel.mem r hr
        rw [(hB.core r (hs.settled.alive r hm)).score]
        have := hs.settled.asc.1 r hm
        cases hx : (s.heap r).score with
        | none => rw [hx] at this; simp at this
        | some v => simp
      rw [c2, List.append_nil]
    rw [hun]
    refine List.Nodup.sublist (unscored_sublist _ _) ?_
    rw [hrange]; exact List.nodup_range'
  · intro b' g' e
    rw [hrec.best, t1] at e
    simp at e
    rw [← e.1]
    refine ⟨hbc, fun v' hv' => ⟨r, List.mem_of_getLast? hlast, ?_⟩⟩
    rw [hbh, t2] at hv'
    rw [hh2, (hB.core r (hs.settled.alive r hrm)).score, t4]
    exact hv'

theorem fitness_any {s s' : St ℚ} {k : Nat} {x : Except PyErr Unit} (h : Resumable s k)
    (hf : baseFitnessExec fit s = (x, s')) : Resumable s' k ∧ SameHistory s s' := by
  have := baseFitness_evalKept fit s
  rw [hf] at this
  exact ⟨h.eval this, h.eval_history this⟩

theorem cross_children {σ : Type} {op : CrossOp} {s s' : St σ} {u : Unit} (hp : ∀ r ∈ s.ga.parents, r < s.next)
    (h : crossExec op s = (.ok u, s')) : ∀ r ∈ s'.ga.children, s.next ≤ r := by
  obtain ⟨r0, g0, e1, e2, sx, gs, hd, hga, hb, hlen, hch⟩ := crossExec_ok h hp
  have hxn : sx.next = s.next := by obtain ⟨t, ht⟩ := hd; simp at ht; simp [ht]
  have hchild : s'.ga.children = List.range' s.next gs.length := by rw [hb.ga, hga, hxn]; simp
  intro r hr
  rw [hchild, List.mem_range'_1] at hr
  exact hr.1

/-- A generation is recorded completely or not at all. -/
theorem generation_any {s s' : St ℚ} {k : Nat} {x : Except PyErr Unit} (hs : RunInv s k)
    (h : generation (singleOps fit sel op mop tr) s = (x, s')) :
    (x = .ok () ∧ RunInv s' (k + 1)) ∨ ∃ e, x = .error e ∧ Resumable s' k ∧ SameHistory s s' := by
  have hops := singleOps_run fit sel op mop tr
  cases x with
  | ok u => exact .inl ⟨rfl, (generation_inv hops hs h).1⟩
  | error e =>
    refine .inr ⟨e, rfl, ?_⟩
    have hG := scoresKept_gentle (σ := ℚ)
    have hres := hs.resumable
    have hal := hs.settled.alive
    unfold generation at h
    have k1 := selExec_ranking hG.ranking sel s
    have t1 := selExec_writes sel s hal
    rcases bind_err.mp h with h1 | ⟨_, s1, h1, h⟩
    · rw [show selExec sel s = _ from h1] at k1 t1
      exact ⟨hres.bred k1 t1, hres.bred_history k1 t1⟩
    rw [show selExec sel s = _ from h1] at k1 t1
    simp only at k1 t1
    have k2 := hG.step.trans k1 (crossExec_frame hG.toCalm op s1)
    have t2 := (touch_step _).trans t1 (crossExec_writes op s.ga.population s1)
    rcases bind_err.mp h with h2 | ⟨_, s2, h2, h⟩
    · rw [show crossExec op s1 = _ from h2] at k2 t2
      exact ⟨hres.bred k2 t2, hres.bred_history k2 t2⟩
    rw [show crossExec op s1 = _ from h2] at k2 t2
    simp only at k2 t2
    have k3 := hG.step.trans k2 (mutExec_gentle hG mop s2)
    have t3 : Touch s.ga.population s (mutExec mop s2).2 := by
      have hm := mutExec_writes mop s2
      have hS := (selExec_isSelection sel s s1 _ hal h1).1
      refine ⟨t2.1.trans hm.1, fun r hr hn => (hm.2 r (hr.trans_le t2.1) fun hc => ?_).trans (t2.2 r hr hn)⟩
      have := cross_children (fun r hr => (hS.fresh r hr).2.1) h2 r hc
      have := hS.next
      omega
    rcases bind_err.mp h with h3 | ⟨_, s3, h3, h⟩
    · rw [show mutExec mop s2 = _ from h3] at k3 t3
      exact ⟨hres.bred k3 t3, hres.bred_history k3 t3⟩
    rw [show mutExec mop s2 = _ from h3] at k3 t3
    simp only at k3 t3
    have hbr : breed (selExec sel) op mop s = (.ok (), s3) := by
      unfold breed
      rw [bind_of_ok (show selExec sel s = _ from h1), bind_of_ok (show crossExec op s1 = _ from h2)]
      exact h3
    obtain ⟨hB, _⟩ := breed_ok (selExec_isSelection sel) hal hbr
    have hsorted : s3.ga.attrs.isSorted = true := by rw [k3.members.2]; exact hs.settled.sorted
    rcases bind_err.mp h with h4 | ⟨_, s4, h4, h⟩
    · obtain ⟨a, b⟩ := newGenExec_error hsorted h4
      have k4 := hG.step.trans k3 a
      have t4 := (touch_step _).trans t3 (b.mono (L' := s.ga.population) (by simp))
      exact ⟨hres.bred k4 t4, hres.bred_history k4 t4⟩
    obtain ⟨r4, d4⟩ := newGen_resumable hs hB h4
    rcases bind_err.mp h with h5 | ⟨_, s5, h5, h⟩
    · obtain ⟨r5, d5⟩ := fitness_any r4 h5
      exact ⟨r5, d4.trans d5⟩
    obtain ⟨r5, d5⟩ := fitness_any r4 h5
    rcases r5.update h with ⟨e, _⟩ | ⟨_, _, r6, d6⟩
    · simp at e
    · exact ⟨r6, (d4.trans d5).trans d6⟩

/-- `s'` is the state after `j` generations of the run from `s` (`j = 0`: none), or what an exception in the next one left
of it. -/
def Reached (ops : Ops ℚ) (s : St ℚ) (j : Nat) (s' : St ℚ) : Prop :=
  ∃ sj, ((j = 0 ∧ sj = s) ∨ After ops s j sj) ∧ SameHistory sj s'

theorem mainLoop_any {s0 : St ℚ} : ∀ {n j k : Nat} {s s' : St ℚ} {x : Except PyErr Unit},
    After (singleOps fit sel op mop tr) s0 j s → RunInv s (k + j) → mainLoop (singleOps fit sel op mop tr) n s = (x, s') →
    ∃ i, j ≤ i ∧ i ≤ j + n ∧ Resumable s' (k + i) ∧ Reached (singleOps fit sel op mop tr) s0 i s' := by
  intro n
  induction n with
  | zero =>
    intro j k s s' x ha hs h
    rw [mainLoop, pure_run] at h
    obtain rfl := (Prod.mk.inj h).2
    exact ⟨j, le_rfl, le_rfl, hs.resumable, s, .inr ha, SameHistory.refl _⟩
  | succ n ih =>
    intro j k s s' x ha hs h
    rw [mainLoop] at h
    rcases hg : generation (singleOps fit sel op mop tr) s with ⟨y, s1⟩
    rcases generation_any hs hg with ⟨rfl, hs1⟩ | ⟨e, rfl, hr, hd⟩
    · rw [bind_of_ok hg, bind_of_ok (getGa_run s1)] at h
      have ha1 := After.next ha hg
      have hs1 : RunInv s1 (k + (j + 1)) := hs1
      cases he : s1.ga.earlyStop with
      | none =>
        simp only [he, throwE_run] at h
        obtain rfl := (Prod.mk.inj h).2
        exact ⟨j + 1, by omega, by omega, hs1.resumable, s1, .inr ha1, SameHistory.refl _⟩
      | some e =>
        simp only [he] at h
        rw [ite_run] at h
        split at h
        · rw [pure_run] at h
          obtain rfl := (Prod.mk.inj h).2
          exact ⟨j + 1, by omega, by omega, hs1.resumable, s1, .inr ha1, SameHistory.refl _⟩
        · obtain ⟨i, i1, i2, i3⟩ := ih ha1 hs1 h
          exact ⟨i, by omega, by omega, i3⟩
    · rw [bind_of_err hg] at h
      obtain rfl := (Prod.mk.inj h).2
      exact ⟨j, le_rfl, by omega, hr, s, .inr ha, hd⟩

/-- A call of `optimize()`, whether it returns or raises. -/
theorem optimize_any {s s' : St ℚ} {k : Nat} {x : Except PyErr Unit} (hs : Resumable s k)
    (h : collectorOptimize (singleOps fit sel op mop tr) s = (x, s')) :
    ∃ j, Resumable s' (k + j) ∧ Reached (singleOps fit sel op mop tr) s j s' ∧ (x = .ok () → 1 ≤ j) := by
  unfold collectorOptimize at h
  rcases he : evolve (singleOps fit sel op mop tr) s with ⟨y, s1⟩
  have hst : s' = s1 := by
    cases y with
    | error e => rw [bind_of_err he] at h; exact (Prod.mk.inj h).2.symm
    | ok u => rw [bind_of_ok he] at h; exact printBest_state h
  have hxy : x = .ok () → y = .ok () := by
    rintro rfl
    cases y with
    | error e => rw [bind_of_err he] at h; simp at h
    | ok u => rfl
  subst hst
  clear h
  unfold evolve at he
  rcases hf : baseFitnessExec fit s with ⟨z, a1⟩
  obtain ⟨r1, d1⟩ := fitness_any hs hf
  cases z with
  | error e =>
    rw [bind_of_err (show (singleOps fit sel op mop tr).fitness s = _ from hf)] at he
    obtain ⟨rfl, rfl⟩ := Prod.mk.inj he
    exact ⟨0, r1, ⟨s, .inl ⟨rfl, rfl⟩, d1⟩, fun e => by simpa using hxy e⟩
  | ok u =>
    rw [bind_of_ok (show (singleOps fit sel op mop tr).fitness s = _ from hf)] at he
    rcases hu : gaUpdate a1 with ⟨w, a2⟩
    rcases r1.update hu with ⟨rfl, hi⟩ | ⟨e, rfl, r2, d2⟩
    · rw [bind_of_ok (show (singleOps fit sel op mop tr).update a1 = _ from hu), bind_of_ok (getGa_run a2)] at he
      obtain ⟨i, i1, _, i3, i4⟩ := mainLoop_any (.first hf hu) hi he
      exact ⟨i, i3, i4, fun _ => i1⟩
    · rw [bind_of_err (show (singleOps fit sel op mop tr).update a1 = _ from hu)] at he
      obtain ⟨rfl, rfl⟩ := Prod.mk.inj he
      exact ⟨0, r2, ⟨s, .inl ⟨rfl, rfl⟩, d1.trans d2⟩, fun e => by simpa using hxy e⟩

end

/-! ## C81: exceptions and `CollectorGA` -/

theorem Resumable.interlude {s s1 : St ℚ} {k : Nat} (hs : Resumable s k) (h : Interlude s s1) : Resumable s1 k := by
  obtain ⟨t, sd, lv, cs, N, cp, e, rfl⟩ := h
  exact ⟨hs.hist.frame rfl rfl rfl rfl rfl rfl rfl le_rfl (fun _ _ _ => rfl), hs.alive, hs.distinct, hs.sorted, hs.surv⟩

/-- The state after `n` calls of `optimize()` of `CollectorGA`s that share a storage object, each of which returns or
raises; the components may be others in every call, as far as `ok` allows them and the result. -/
inductive Attempts (ok : CrossOp → MutOp → Except PyErr Unit → Prop) (s0 : St ℚ) : Nat → St ℚ → Prop
  | none : Attempts ok s0 0 s0
  | more {n : Nat} {s s1 s' : St ℚ} {x : Except PyErr Unit} (fit : Fit ℚ) (sel : SelOp) (op : CrossOp) (mop : MutOp) (tr : Transfer) :
      ok op mop x → Attempts ok s0 n s → Interlude s s1 → collectorOptimize (singleOps fit sel op mop tr) s1 = (x, s') →
      Attempts ok s0 (n + 1) s'

theorem Attempts.resumable {ok : CrossOp → MutOp → Except PyErr Unit → Prop} {s0 s : St ℚ} {n : Nat} (h0 : Fresh s0) (h : Attempts ok s0 n s) :
    ∃ k, Resumable s k := by
  induction h with
  | none => exact ⟨0, h0.resumable⟩
  | more fit sel op mop tr _ _ hi hc ih =>
    obtain ⟨k, hk⟩ := ih
    obtain ⟨j, hj, _⟩ := optimize_any (hk.interlude hi) hc
    exact ⟨k + j, hj⟩

/-- C81: an exception never leaves a generation half recorded.  After any calls of `optimize()`, any of which may have
raised, the record of a further call that raises (or returns) is the record after some number `j` of completed generations
of that call, down to the contents of `best_solution`. -/
theorem C81_complete {fit : Fit ℚ} {sel : SelOp} {op : CrossOp} {mop : MutOp} {tr : Transfer} {ok : CrossOp → MutOp → Except PyErr Unit → Prop}
    {s0 s s1 s' : St ℚ} {n : Nat} {x : Except PyErr Unit} (h0 : Fresh s0) (h : Attempts ok s0 n s) (hi : Interlude s s1)
    (hc : collectorOptimize (singleOps fit sel op mop tr) s1 = (x, s')) :
    ∃ j sj, ((j = 0 ∧ sj = s1) ∨ After (singleOps fit sel op mop tr) s1 j sj) ∧
      s'.ga.idxGeneration = s.ga.idxGeneration + j ∧ s'.ga.idxGeneration = sj.ga.idxGeneration ∧
      s'.ga.noImprove = sj.ga.noImprove ∧ s'.ga.histBest = sj.ga.histBest ∧ s'.ga.histMed = sj.ga.histMed ∧
      s'.ga.histWorst = sj.ga.histWorst ∧ s'.snaps = sj.snaps ∧ s'.ga.best = sj.ga.best ∧
      (∀ b g, sj.ga.best = some (.single b g) → s'.heap b = sj.heap b) ∧ (x = .ok () → 1 ≤ j) := by
  obtain ⟨k, hk⟩ := h.resumable h0
  have hk1 := hk.interlude hi
  obtain ⟨j, hj, ⟨sj, hsj, hd⟩, hx⟩ := optimize_any hk1 hc
  have hr := hd.record
  exact ⟨j, sj, hsj, by rw [hj.hist.idx, hk.hist.idx], hr.idxGeneration, hr.noImprove, hr.histBest, hr.histMed, hr.histWorst,
    hd.snaps, hr.best, hd.best, hx⟩

/-- C81: after any number of calls of `optimize()`, any of which may have raised, the record is consistent: one entry per
completed generation in each history, `historical_best` never decreases, and either no generation has been completed and
`best_solution` is `None`, or `best_solution` is an individual of a recorded generation, nobody recorded has a larger
score, and the counter is the number of most recent generations without improvement. -/
theorem C81_records {ok : CrossOp → MutOp → Except PyErr Unit → Prop} {s0 s : St ℚ} {n : Nat} (h0 : Fresh s0) (h : Attempts ok s0 n s) :
    s.snaps.length = s.ga.idxGeneration ∧ s.ga.histBest.length = s.ga.idxGeneration ∧
    s.ga.histMed.length = s.ga.idxGeneration ∧ s.ga.histWorst.length = s.ga.idxGeneration ∧ s.ga.histBest.Pairwise (· ≤ ·) ∧
    s.ga.noImprove = stale s.ga.histBest ∧
    ((s.ga.idxGeneration = 0 ∧ s.ga.best = none) ∨
      ∃ b g v l, s.ga.best = some (.single b g) ∧ (s.heap b).score = some v ∧ s.ga.histBest.getLast? = some v ∧
      s.snaps[g]? = some l ∧ s.heap b ∈ l ∧ ∀ l ∈ s.snaps, ∀ x ∈ l, ∃ w, x.score = some w ∧ w ≤ v) := by
  obtain ⟨k, hk⟩ := h.resumable h0
  have hh := hk.hist
  refine ⟨by rw [hh.idx, hh.snaps], by rw [hh.idx, hh.lenB], by rw [hh.idx, hh.lenM], by rw [hh.idx, hh.lenW], hh.mono, ?_, ?_⟩
  · rcases hh.best with ⟨e, _, e2⟩ | ⟨b, g, v, l, b1, b2, b3, b4, b5, b6, b7, b8⟩
    · have : s.ga.histBest = [] := List.length_eq_zero_iff.mp (by rw [hh.lenB]; exact e)
      rw [this, e2]; rfl
    · exact (stale_of_plateau (by rw [hh.lenB]; exact b4.symm) b7 b8).symm
  · rcases hh.best with ⟨e, e1, _⟩ | ⟨b, g, v, l, b1, b2, b3, b4, b5, b6, b7, b8⟩
    · exact .inl ⟨by rw [hh.idx, e], e1⟩
    refine .inr ⟨b, g, v, l, b1, b3, ?_, b5, b6, ?_⟩
    · rw [List.getLast?_eq_getElem?, hh.lenB]
      have hlt : k - 1 < s.ga.histBest.length := by rw [hh.lenB]; omega
      rw [List.getElem?_eq_getElem hlt]
      exact congrArg some (b8 (k - 1) _ (by omega) (List.getElem?_eq_getElem hlt))
    · intro l' hl' x hx
      obtain ⟨i, hi, rfl⟩ := List.mem_iff_getElem.mp hl'
      obtain ⟨bb, mm, ww, c1, _, _, hok⟩ := hh.entry i _ (List.getElem?_eq_getElem hi)
      obtain ⟨w, hw⟩ := Option.isSome_iff_exists.mp (hok.scored x hx)
      refine ⟨w, hw, ?_⟩
      have hle : w ≤ bb := by
        obtain ⟨y, hy, hb⟩ := Option.bind_eq_some_iff.mp hok.best
        obtain ⟨pre, hpre⟩ := List.getLast?_eq_some_iff.mp hy
        have hso := hok.sorted
        rw [hpre] at hx hso
        rcases List.mem_append.mp hx with hx | hx
        · exact (List.pairwise_append.mp hso).2.2 x hx y (by simp) w bb hw hb
        · simp at hx
          subst hx
          rw [hw] at hb
          injection hb with hb
          exact hb.le
      by_cases hig : i < g
      · exact hle.trans (b7 i bb hig c1).le
      · exact hle.trans (b8 i bb (by omega) c1).le

theorem After.inv_resumed {fit : Fit ℚ} {sel : SelOp} {op : CrossOp} {mop : MutOp} {tr : Transfer} {s s' : St ℚ} {k j : Nat}
    (hs : Resumable s k) (h : After (singleOps fit sel op mop tr) s j s') : RunInv s' (k + j) := by
  induction h with
  | first h1 h2 =>
    obtain ⟨r1, _⟩ := fitness_any hs h1
    rcases r1.update h2 with ⟨_, h⟩ | ⟨_, e, _⟩
    · exact h
    · simp at e
  | next _ h2 ih => exact (generation_inv (singleOps_run fit sel op mop tr) ih h2).1

theorem resumed_budget {fit : Fit ℚ} {sel : SelOp} {op : CrossOp} {mop : MutOp} {tr : Transfer} {s s' : St ℚ} {k j : Nat}
    (hs : Resumable s k) (h : After (singleOps fit sel op mop tr) s j s') :
    s'.calls.length = s.calls.length + (unscored s.heap s.ga.population).length + (j - 1) * numPairs s.ga 1 ∧
      s'.ga.attrs = { s.ga.attrs with isSorted := true } := by
  have hops := singleOps_run fit sel op mop tr
  induction h with
  | @first s1 s' h1 h2 =>
    have e : s'.calls = s1.calls := (gaUpdate_frame sameCalls_quiet).ok h2
    obtain ⟨hc, ⟨gs, d4, d5⟩, _⟩ := baseFitness_ok h1 hs.distinct
    have := d5.length_eq
    obtain ⟨r1, _⟩ := fitness_any hs h1
    obtain ⟨_, _, _, _, _, a6, _⟩ := gaUpdate_step r1.hist r1.alive r1.sorted r1.surv h2
    have hga : s1.ga = s.ga := by rw [hc]
    rw [hga] at a6
    refine ⟨?_, a6⟩
    rw [e, d4]
    simp [this]
  | @next j s1 s' a c ih =>
    have hinv := a.inv_resumed hs
    obtain ⟨_, a1, a2, a3, es, t, hB, hlen, hel, e2, e3, e4, hun, hfit, hF, hup, _, _, hat, _⟩ := generation_inv hops hinv c
    obtain ⟨_, hcp, _⟩ := (a.keeps sameSetup_frame (singleOps_keep fit sel op mop tr)).1
    obtain ⟨n0, hn0, hrange, hn1⟩ := hB.range
    obtain ⟨_, ⟨gs, d4, d5⟩, _⟩ := baseFitness_ok hfit (by rw [hun, hrange]; exact List.nodup_range')
    have e1 : s'.calls = a3.calls := (gaUpdate_frame sameCalls_quiet).ok hup
    have e5 : a2.calls = s1.calls := by rw [e2]; exact hB.calls
    have hpairs : numPairs s1.ga 1 = numPairs s.ga 1 := by
      unfold numPairs
      rw [hcp, ih.2]
    have hgs := d5.length_eq
    rw [hun, hlen, hpairs] at hgs
    refine ⟨?_, hat.trans ih.2⟩
    rw [e1, d4, e5, List.length_append, ih.1, ← hgs]
    obtain ⟨i, rfl⟩ : ∃ i, j = i + 1 := ⟨j - 1, by have := a.pos; omega⟩
    simp only [Nat.add_sub_cancel]
    ring

/-- C81: work done before an exception is not repeated.  A call of `optimize()` that returns, after calls any of which may
have raised, extends the record by `j` generations without changing it, and it calls the objective once for each member of
the population that has no score yet, and once per child of the other `j - 1` generations. -/
theorem C81_resume {fit : Fit ℚ} {sel : SelOp} {op : CrossOp} {mop : MutOp} {tr : Transfer} {ok : CrossOp → MutOp → Except PyErr Unit → Prop}
    {s0 s s1 s' : St ℚ} {n : Nat} (h0 : Fresh s0) (h : Attempts ok s0 n s) (hi : Interlude s s1)
    (hc : collectorOptimize (singleOps fit sel op mop tr) s1 = (.ok (), s')) :
    ∃ j, 1 ≤ j ∧ s'.ga.idxGeneration = s.ga.idxGeneration + j ∧ Grows s s' ∧
      s'.calls.length = s.calls.length + (s.ga.population.filter fun r => (s.heap r).score.isNone).length +
        (j - 1) * s1.ga.attrs.arith.share s1.ga.childrenPercent s1.ga.attrs.numIndivid 1 := by
  obtain ⟨k, hk⟩ := h.resumable h0
  have hk1 := hk.interlude hi
  obtain ⟨_, j, _, hj, _, ha, _⟩ := evolve_after (collector_ok hc)
  have hgrow1 : Grows s s1 := by
    obtain ⟨t, sd, lv, cs, N, cp, e, rfl⟩ := hi
    exact ⟨List.prefix_rfl, List.prefix_rfl, List.prefix_rfl, List.prefix_rfl, List.prefix_rfl, List.prefix_rfl, le_rfl⟩
  have hsame : s1.ga.population = s.ga.population ∧ s1.heap = s.heap ∧ s1.calls = s.calls := by
    obtain ⟨t, sd, lv, cs, N, cp, e, rfl⟩ := hi
    exact ⟨rfl, rfl, rfl⟩
  have hb := (resumed_budget hk1 ha).1
  rw [hsame.1, hsame.2.1, hsame.2.2, numPairs_share] at hb
  exact ⟨j, hj, by rw [(ha.inv_resumed hk1).hist.idx, hk.hist.idx], hgrow1.trans (after_grows ha), hb⟩

/-! ### a concrete interrupted run: the objective raises on the third individual of the first population -/

/-- The objective of `exFit`, except that it raises on `[1, 5, 3]`. -/
def exObjRaising (g : List Val) : Except PyErr Ret := if g = [.num 1, .num 5, .num 3] then .error (.user 1) else exObj g
def exFitRaising : Fit ℚ := ⟨hyperbolaTask exObjRaising exObjRaising false none none, false, [.optimize], []⟩
def exBroken : Except PyErr Unit × St ℚ :=
  collectorOptimize (singleOps exFitRaising (.tournament 2) .uniform .categorical .best) exSet.2
/-- The next call of `optimize()`, with the repaired objective. -/
def exRepaired : Except PyErr Unit × St ℚ := collectorOptimize exOps exBroken.2

set_option maxRecDepth 100000 in
theorem exBroken_error : exBroken.1 = .error (.user 1) := by decide +kernel
set_option maxRecDepth 100000 in
theorem exRepaired_ok : exRepaired.1 = .ok () := by decide +kernel

theorem of_error {x : Except PyErr Unit × St ℚ} {e : PyErr} (h : x.1 = .error e) : x = (.error e, x.2) := by rw [← h]

theorem exBroken_attempts : Attempts (fun _ _ _ => True) exSet.2 1 exBroken.2 :=
  .more exFitRaising (.tournament 2) .uniform .categorical .best trivial .none (interlude_refl _) (of_error exBroken_error)

/-- The hypotheses of `C81_complete`, `C81_records` and `C81_resume` are met by a run of which the first call raised. -/
example : ∃ s0 s s1 s', Fresh s0 ∧ Attempts (fun _ _ _ => True) s0 1 s ∧ Interlude s s1 ∧ collectorOptimize exOps s1 = (.ok (), s') :=
  ⟨exSet.2, exBroken.2, exBroken.2, exRepaired.2, exSet_fresh, exBroken_attempts, interlude_refl _,
    show collectorOptimize exOps exBroken.2 = _ from of_ok exRepaired_ok⟩

set_option maxRecDepth 100000 in
/-- The interrupted call records nothing but keeps the two scores it paid for; the next call evaluates only the other two
members and the children. -/
example : exBroken.2.ga.idxGeneration = 0 ∧ exBroken.2.ga.best = none ∧ exBroken.2.calls.length = 3 ∧
    (exBroken.2.ga.population.map fun r => (exBroken.2.heap r).score.isSome) = [true, true, false, false] ∧
    exRepaired.2.calls.length = 3 + 2 + 4 ∧ exRepaired.2.ga.histBest = [-7, -7, -7] := by decide +kernel

end BaumEva
