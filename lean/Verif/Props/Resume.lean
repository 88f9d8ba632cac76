import Verif.Props.Crash
import Verif.Props.Genotypes
import Verif.Props.FailFast
/-!
# C82: the search space after exceptions
-/
namespace BaumEva
open Spec

/-! ## evaluations without phenotype that may raise -/

section
variable {σ : Type}

/-- `s'` is `s` after a part of an evaluation that looks at the genotypes of `L`. -/
def PlainEval (L : List Nat) (s s' : St σ) : Prop :=
  SamePlaces s s' ∧ ∀ v ∈ s'.calls, v ∈ s.calls ∨ ∃ r ∈ L, (s.heap r).genotype = some v

theorem plainEval_step (L : List Nat) : Step (PlainEval L : St σ → St σ → Prop) where
  refl s := ⟨samePlaces_step.refl s, fun _ h => .inl h⟩
  trans h1 h2 := ⟨samePlaces_step.trans h1.1 h2.1, fun v hv => by
    rcases h2.2 v hv with h | ⟨r, hr, h⟩
    · exact h1.2 v h
    · exact .inr ⟨r, hr, by rw [← (h1.1 r).1]; exact h⟩⟩

theorem evalValues_sameCalls (fit : Fit σ) (r : Nat) (v : Option Ret) : Keeps (SameCalls (σ := σ)) (evalValues fit r v) := by
  have hR := sameCalls_quiet (σ := σ)
  have hfe : ∀ (cs : List Cond) (vs : List ℚ), Keeps (SameCalls (σ := σ)) (feasLoop r cs vs) := by
    intro cs
    induction cs with
    | nil => intro vs; cases vs with
      | nil => exact hR.pure _
      | cons _ _ => exact hR.throwE _
    | cons c cs ih => intro vs; cases vs with
      | nil => exact hR.pure _
      | cons v vs => exact hR.bind (Keeps.ite (hR.pure _) (hR.modInd _ _)) fun _ => ih _
  unfold evalValues
  refine Keeps.ite ?_ (hR.bind (hR.modInd _ _) fun _ => hR.pure _)
  split
  · unfold evalCond
    refine hR.bind (hR.liftE _) fun _ => hR.bind (hR.modInd _ _) fun _ => hR.bind (hfe _ _) fun _ => hR.bind hR.getS fun s => ?_
    cases fit.task.penalty with
    | none => exact hR.throwE _
    | some p => exact hR.liftE _
  · exact hR.throwE _

theorem evalInd_plain (fit : Fit σ) {L : List Nat} {r : Nat} (hr : r ∈ L) : Keeps (PlainEval L) (evalInd fit r) := by
  intro s
  refine ⟨keeps_evalInd fit r s, ?_⟩
  have hR := sameCalls_quiet (σ := σ)
  unfold evalInd
  rw [bind_of_ok (getInd_run r s)]
  cases hsc : (s.heap r).score with
  | some v => intro v hv; exact .inl hv
  | none =>
    simp only
    cases hg : (s.heap r).genotype with
    | none =>
      have : genoOf r s = (.error .typeError, s) := by unfold genoOf; rw [hg]
      rw [bind_of_err this]
      intro v hv; exact .inl hv
    | some g =>
      rw [bind_of_ok (genoOf_ok.mpr ⟨hg, rfl⟩)]
      have hQ : Step (fun s s' : St σ => ∀ v ∈ s'.calls, v ∈ s.calls ∨ v = g) :=
        ⟨fun _ _ h => .inl h, fun h1 h2 v hv => (h2 v hv).elim (h1 v) .inr⟩
      have hsame : ∀ {α : Type} {m : M σ α}, Keeps (SameCalls (σ := σ)) m → Keeps (fun s s' : St σ => ∀ v ∈ s'.calls, v ∈ s.calls ∨ v = g) m := by
        intro α m h s v hv
        rw [show (m s).2.calls = s.calls from h s] at hv
        exact .inl hv
      have hcall : Keeps (fun s s' : St σ => ∀ v ∈ s'.calls, v ∈ s.calls ∨ v = g) (calcObj fit g) := by
        refine Keeps.bind hQ (Keeps.bind hQ (fun s v hv => ?_) fun _ => hsame (hR.liftE _)) fun _ => hsame (hR.liftE _)
        rw [modifyS_run] at hv
        simpa using hv
      intro v hv
      rcases Keeps.bind hQ hcall (fun values => hsame (hR.bind (evalValues_sameCalls fit r values) fun _ =>
          hR.bind (hR.getInd r) fun _ => hR.bind (hR.liftE _) fun _ => hR.modInd _ _)) s v hv with h | h
      · exact .inl h
      · exact .inr ⟨r, hr, by rw [h]; exact hg⟩

/-- An evaluation of a population without phenotypes, whether it returns or raises. -/
theorem fitness_plain {fit : Fit σ} {s s' : St σ} {x : Except PyErr Unit} (hb : s.ga.attrs.isPhenotype = false)
    (h : baseFitnessExec fit s = (x, s')) : PlainEval s.ga.population s s' := by
  unfold baseFitnessExec at h
  rw [bind_of_ok (getGa_run s), ite_run, if_neg (by simp [hb])] at h
  have := Keeps.forEach_mem (plainEval_step s.ga.population) (fun r hr => evalInd_plain fit hr) s
  rw [h] at this
  exact this

end

/-! ## an invariant about genotypes that survives exceptions -/

/-- Arguments the objective may get: points of the search space. -/
def IsPoint (P : List Val → Prop) (at_ : Attrs) (v : List Val) : Prop :=
  (at_.isPhenotype = true ∧ ∃ g, P g ∧ decodeIndivid at_ g = .ok v) ∨ (at_.isPhenotype = false ∧ P v)

/-- Well-formed, or about to be when it is evaluated. -/
def Viable (P : List Val → Prop) (at_ : Attrs) (x : Ind ℚ) : Prop :=
  (∃ g, x.genotype = some g ∧ P g ∧ x.phenotype = none) ∨ WellFormed P at_ x

structure Sound (P : List Val → Prop) (at_ : Attrs) (s : St ℚ) : Prop where
  attrs : ∃ b, s.ga.attrs = { at_ with isSorted := b }
  members : ∀ r ∈ s.ga.population, Viable P at_ (s.heap r)
  snaps : ∀ l ∈ s.snaps, ∀ x ∈ l, WellFormed P at_ x
  calls : ∀ v ∈ s.calls, IsPoint P at_ v

section
variable {P : List Val → Prop} {at_ : Attrs} {fit : Fit ℚ} {sel : SelOp} {op : CrossOp} {mop : MutOp} {tr : Transfer}

theorem Viable.core {x y : Ind ℚ} (h : Viable P at_ x) (hg : y.genotype = x.genotype) (hp : y.phenotype = x.phenotype) : Viable P at_ y := by
  rcases h with ⟨g, h1, h2, h3⟩ | ⟨g, h1, h2, h3⟩
  · exact .inl ⟨g, hg.trans h1, h2, hp.trans h3⟩
  · exact .inr ⟨g, hg.trans h1, h2, fun e => by rw [hp]; exact h3 e⟩

theorem Viable.plain {x : Ind ℚ} (hb : at_.isPhenotype = false) (h : Viable P at_ x) : WellFormed P at_ x := by
  rcases h with ⟨g, h1, h2, _⟩ | h
  · exact ⟨g, h1, h2, fun e => by rw [hb] at e; simp at e⟩
  · exact h

theorem Sound.phen {s : St ℚ} (h : Sound P at_ s) : s.ga.attrs.isPhenotype = at_.isPhenotype := by
  obtain ⟨b, e⟩ := h.attrs; rw [e]

theorem Sound.plain {s : St ℚ} (h : Sound P at_ s) (hb : at_.isPhenotype = false) :
    (∀ v ∈ s.calls, P v) ∧ (∀ r ∈ s.ga.population, ∃ g, (s.heap r).genotype = some g ∧ P g) ∧
      ∀ l ∈ s.snaps, ∀ x ∈ l, ∃ g, x.genotype = some g ∧ P g := by
  refine ⟨fun v hv => ?_, fun r hr => ?_, fun l hl x hx => ?_⟩
  · rcases h.calls v hv with ⟨e, _⟩ | ⟨_, e⟩
    · rw [hb] at e; simp at e
    · exact e
  · obtain ⟨g, g1, g2, _⟩ := (h.members r hr).plain hb
    exact ⟨g, g1, g2⟩
  · obtain ⟨g, g1, g2, _⟩ := h.snaps l hl x hx
    exact ⟨g, g1, g2⟩

/-- Evaluation. -/
theorem Sound.eval {s s' : St ℚ} {k : Nat} {x : Except PyErr Unit} (hs : Sound P at_ s) (hr : Resumable s k)
    (h : baseFitnessExec fit s = (x, s')) (hx : at_.isPhenotype = false ∨ x = .ok ()) :
    Sound P at_ s' ∧ (x = .ok () → ∀ r ∈ s'.ga.population, WellFormed P at_ (s'.heap r)) := by
  obtain ⟨b, hat⟩ := hs.attrs
  obtain ⟨a1, _, a3, _, _⟩ := (show EvalKept s.ga.population (fun _ => False) s s' by
    have := baseFitness_evalKept fit s
    rw [h] at this
    exact this) rfl
  have hplain : at_.isPhenotype = false → Sound P at_ s' ∧ (x = .ok () → ∀ r ∈ s'.ga.population, WellFormed P at_ (s'.heap r)) := by
    intro hb
    obtain ⟨p1, p2⟩ := fitness_plain (by rw [hs.phen]; exact hb) h
    have hm : ∀ r ∈ s'.ga.population, Viable P at_ (s'.heap r) := by
      rw [a1]; exact fun r hr => (hs.members r hr).core (p1 r).1 (p1 r).2
    refine ⟨⟨⟨b, by rw [a1]; exact hat⟩, hm, by rw [a3]; exact hs.snaps, fun v hv => ?_⟩, fun _ r hr => (hm r hr).plain hb⟩
    rcases p2 v hv with hv | ⟨r, hr, hv⟩
    · exact hs.calls v hv
    · obtain ⟨g, g1, g2, _⟩ := (hs.members r hr).plain hb
      rw [hv] at g1
      injection g1 with g1
      exact .inr ⟨hb, g1 ▸ g2⟩
  cases hb : at_.isPhenotype with
  | false => exact hplain hb
  | true =>
    rcases hx with hx | rfl
    · rw [hb] at hx; simp at hx
    have hgood := fitness_wellFormed hat hr.distinct hs.members h
    obtain ⟨⟨gs, c1, c2⟩, _⟩ := C35_one_call_each h hr.distinct
    have hgood' : ∀ r ∈ s'.ga.population, WellFormed P at_ (s'.heap r) := by rw [a1]; exact hgood
    refine ⟨⟨⟨b, by rw [a1]; exact hat⟩, fun r hr => .inr (hgood' r hr), by rw [a3]; exact hs.snaps, fun v hv => ?_⟩, fun _ => hgood'⟩
    rw [c1] at hv
    rcases List.mem_append.mp hv with hv | hv
    · exact hs.calls v hv
    · obtain ⟨i, hi, rfl⟩ := List.mem_iff_getElem.mp hv
      have hl := c2.length_eq
      have hi' : i < (newMembers s.heap s.ga.population).length := by rw [hl]; exact hi
      have hc := (List.forall₂_iff_get.mp c2).2 i hi' hi
      have hm : (newMembers s.heap s.ga.population)[i] ∈ s.ga.population := (List.mem_filter.mp (List.getElem_mem hi')).1
      obtain ⟨g, _, g2, g3⟩ := hgood _ hm
      obtain ⟨p, p1, p2⟩ := g3 hb
      unfold argument at hc
      rw [hs.phen, hb] at hc
      simp only [if_true, List.get_eq_getElem] at hc
      rw [p1] at hc
      injection hc with hc
      exact .inl ⟨hb, g, g2, by rw [← hc]; exact p2⟩

/-- `update`. -/
theorem Sound.update {s s' : St ℚ} {k : Nat} {x : Except PyErr Unit} (hs : Sound P at_ s) (hr : Resumable s k)
    (hw : ∀ r ∈ s.ga.population, WellFormed P at_ (s.heap r)) (h : gaUpdate s = (x, s')) :
    Sound P at_ s' ∧ (x = .ok () → ∀ r ∈ s'.ga.population, WellFormed P at_ (s'.heap r)) := by
  obtain ⟨b, hat⟩ := hs.attrs
  cases x with
  | error e =>
    refine ⟨?_, fun e => by simp at e⟩
    rcases hr.update_error h with rfl | ⟨pop, hperm, _, rfl⟩
    · exact hs
    · exact ⟨⟨true, by simp only; rw [hat]⟩, fun r hr => hs.members r (hperm.subset hr), hs.snaps, hs.calls⟩
  | ok u =>
    obtain ⟨_, _, _, a4, a5, a6, _⟩ := gaUpdate_step hr.hist hr.alive hr.sorted hr.surv h
    have hw' : ∀ r ∈ s'.ga.population, WellFormed P at_ (s'.heap r) := by
      intro r hr'
      have hm := a4.subset hr'
      rw [a5 r (hr.alive r hm)]
      exact hw r hm
    have hc : s'.calls = s.calls := (gaUpdate_frame sameCalls_quiet).ok h
    refine ⟨⟨⟨true, by rw [a6, hat]⟩, fun r hr => .inr (hw' r hr), ?_, by rw [hc]; exact hs.calls⟩, fun _ => hw'⟩
    obtain ⟨pop, rb, rm, rw', bb, m, w, _, _, _, _, _, _, _, _, _, s1, hdec, rfl⟩ := gaUpdate_ok h
    have hsn : s1.snaps = s.snaps := by cases hdec <;> rfl
    intro l hl y hy
    simp only [hsn] at hl
    rcases List.mem_append.mp hl with hl | hl
    · exact hs.snaps l hl y hy
    · rw [List.mem_singleton] at hl
      subst hl
      obtain ⟨r, hr, rfl⟩ := List.mem_map.mp hy
      exact hw' r hr

/-- What selection, crossover and mutation keep, whether they return or raise. -/
structure PlacesKept (s s' : St ℚ) : Prop where
  members : SameMembers s.ga s'.ga
  snaps : s'.snaps = s.snaps
  calls : s'.calls = s.calls
  next : s.next ≤ s'.next
  places : ∀ r, r < s.next → (s'.heap r).genotype = (s.heap r).genotype ∧ (s'.heap r).phenotype = (s.heap r).phenotype

theorem placesKept_ranking : Ranking PlacesKept where
  step := ⟨fun _ => ⟨⟨rfl, rfl⟩, rfl, rfl, le_rfl, fun _ _ => ⟨rfl, rfl⟩⟩,
    fun h1 h2 => ⟨⟨h2.members.1.trans h1.members.1, h2.members.2.trans h1.members.2⟩, h2.snaps.trans h1.snaps, h2.calls.trans h1.calls,
      h1.next.trans h2.next, fun r hr => ⟨(h2.places r (hr.trans_le h1.next)).1.trans (h1.places r hr).1,
        (h2.places r (hr.trans_le h1.next)).2.trans (h1.places r hr).2⟩⟩⟩
  tape _ _ _ _ := ⟨⟨rfl, rfl⟩, rfl, rfl, le_rfl, fun _ _ => ⟨rfl, rfl⟩⟩
  seeded _ _ _ := ⟨⟨rfl, rfl⟩, rfl, rfl, le_rfl, fun _ _ => ⟨rfl, rfl⟩⟩
  fresh s v := ⟨⟨rfl, rfl⟩, rfl, rfl, Nat.le_succ _, fun r hr => by
    simp only [upd]; rw [if_neg (by omega)]; exact ⟨rfl, rfl⟩⟩
  ga _ _ _ h2 := ⟨h2, rfl, rfl, le_rfl, fun _ _ => ⟨rfl, rfl⟩⟩
  mutLvl _ _ := ⟨⟨rfl, rfl⟩, rfl, rfl, le_rfl, fun _ _ => ⟨rfl, rfl⟩⟩
  write r f hf := fun s => ⟨⟨rfl, rfl⟩, rfl, rfl, le_rfl, fun x _ => by
    simp only [modInd, upd]
    split
    · rename_i e; subst e; exact ⟨(hf _).genotype, (hf _).phenotype⟩
    · exact ⟨rfl, rfl⟩⟩

/-- What mutation keeps apart from the heap. -/
def RestKept (s s' : St ℚ) : Prop := SameMembers s.ga s'.ga ∧ s'.snaps = s.snaps ∧ s'.calls = s.calls

theorem restKept_gentle : Gentle RestKept where
  step := ⟨fun _ => ⟨⟨rfl, rfl⟩, rfl, rfl⟩, fun h1 h2 => ⟨⟨h2.1.1.trans h1.1.1, h2.1.2.trans h1.1.2⟩, h2.2.1.trans h1.2.1, h2.2.2.trans h1.2.2⟩⟩
  tape _ _ _ _ := ⟨⟨rfl, rfl⟩, rfl, rfl⟩
  seeded _ _ _ := ⟨⟨rfl, rfl⟩, rfl, rfl⟩
  fresh _ _ := ⟨⟨rfl, rfl⟩, rfl, rfl⟩
  ga _ _ _ h2 := ⟨h2, rfl, rfl⟩
  mutLvl _ _ := ⟨⟨rfl, rfl⟩, rfl, rfl⟩
  write _ _ _ := fun _ => ⟨⟨rfl, rfl⟩, rfl, rfl⟩

theorem Sound.bred {s s' : St ℚ} (hs : Sound P at_ s) (hal : ∀ r ∈ s.ga.population, r < s.next) (h : PlacesKept s s') : Sound P at_ s' := by
  obtain ⟨b, hat⟩ := hs.attrs
  refine ⟨⟨b, h.members.2.trans hat⟩, ?_, by rw [h.snaps]; exact hs.snaps, by rw [h.calls]; exact hs.calls⟩
  rw [h.members.1]
  exact fun r hr => (hs.members r hr).core (h.places r (hal r hr)).1 (h.places r (hal r hr)).2

theorem newGenExec_places {s s' : St ℚ} {e : PyErr} (hs : s.ga.attrs.isSorted = true) (h : newGenExec tr s = (.error e, s')) :
    PlacesKept s s' := by
  unfold newGenExec at h
  have h1 : ensureSorted s = (.ok (), s) := by
    unfold ensureSorted
    rw [bind_of_ok (getGa_run s), ite_run, if_pos hs]; rfl
  rw [bind_of_ok h1, bind_of_ok (getGa_run s), ite_run] at h
  split at h
  · rcases bind_err.mp h with h2 | ⟨l, s2, h2, h3⟩
    · have a := chooseElites_frame placesKept_ranking.toCalm tr (s.ga.attrs.numIndivid - s.ga.children.length) s
      rw [h2] at a
      exact a
    · unfold installPop at h3
      rw [modGa_run] at h3; simp at h3
  · cases hl : s.ga.population.getLast? with
    | none =>
      simp only [hl, throwE_run] at h
      obtain rfl := (Prod.mk.inj h).2
      exact placesKept_ranking.step.refl _
    | some r =>
      simp only [hl] at h
      unfold installPop at h
      rw [modGa_run] at h; simp at h

/-- The new population, before it is evaluated. -/
theorem newGen_sound {s s1 s2 : St ℚ} {k : Nat} {u : Unit} (hs : Sound P at_ s) (hr : RunInv s k)
    (hw : ∀ r ∈ s.ga.population, WellFormed P at_ (s.heap r)) (hcl : ClosedGeno op mop at_.spec P) (hB : Bore op mop s s1)
    (h4 : newGenExec tr s1 = (.ok u, s2)) : Sound P at_ s2 := by
  obtain ⟨b, hat⟩ := hs.attrs
  have hsorted : s1.ga.attrs.isSorted = true := by rw [hB.ga]; exact hr.settled.sorted
  have hpop : s1.ga.population = s.ga.population := by rw [hB.ga]
  obtain ⟨pop, es, t, _, e1, _, hel, e2, e3, e4⟩ := newGenExec_ok h4
  have e1 := e1 hsorted
  rw [e1, hpop] at hel
  refine ⟨⟨false, ?_⟩, ?_, by rw [e2]; simp only; rw [hB.snaps]; exact hs.snaps, by rw [e2]; simp only; rw [hB.calls]; exact hs.calls⟩
  · rw [e2]
    simp only
    rw [hB.ga]
    simp only
    rw [hat]
  · rw [e2]
    simp only
    intro r hr'
    rcases List.mem_append.mp hr' with hx | hx
    · left
      obtain ⟨r0, g0, hr0, hg0, hnew⟩ := hB.new
      obtain ⟨g, hcell, x, y, p1, p2, g1, hxm, hym, hp1, hp2', hcr, hmu⟩ := hnew r hx
      have hPof : ∀ z q, z ∈ s.ga.population → (s.heap z).genotype = some q → P q := by
        intro z q hz hq
        obtain ⟨q', d1, d2, _⟩ := hw z hz
        rw [hq] at d1
        injection d1 with d1
        rw [d1]; exact d2
      refine ⟨g, by rw [hcell], ?_, by rw [hcell]⟩
      have hspec : s.ga.attrs.spec = at_.spec := by rw [hat]
      rw [hspec] at hmu
      exact hcl _ g0 p1 p2 g1 g (hPof r0 g0 (List.mem_of_mem_head? hr0) hg0) (hPof x p1 hxm hp1) (hPof y p2 hym hp2')
        hcr hmu
    · right
      have hm := hel.mem r hx
      have hcore := hB.core r (hr.settled.alive r hm)
      obtain ⟨g, d1, d2, d3⟩ := hw r hm
      exact ⟨g, by rw [hcore.genotype]; exact d1, d2, by rw [hcore.phenotype]; exact d3⟩

theorem generation_sound {s s' : St ℚ} {k : Nat} {x : Except PyErr Unit} (hs : Sound P at_ s) (hr : RunInv s k)
    (hw : ∀ r ∈ s.ga.population, WellFormed P at_ (s.heap r)) (hcl : ClosedGeno op mop at_.spec P)
    (h : generation (singleOps fit sel op mop tr) s = (x, s')) (hx : at_.isPhenotype = false ∨ x = .ok ()) :
    Sound P at_ s' ∧ (x = .ok () → ∀ r ∈ s'.ga.population, WellFormed P at_ (s'.heap r)) := by
  have hG := placesKept_ranking
  have hal := hr.settled.alive
  unfold generation at h
  have k1 := selExec_ranking hG sel s
  rcases h1 : selExec sel s with ⟨y1, s1⟩
  rw [h1] at k1
  simp only at k1
  cases y1 with
  | error e =>
    rw [bind_of_err (show (singleOps fit sel op mop tr).selection s = _ from h1)] at h
    obtain ⟨rfl, rfl⟩ := Prod.mk.inj h
    exact ⟨hs.bred hal k1, fun e => by simp at e⟩
  | ok u1 =>
  rw [bind_of_ok (show (singleOps fit sel op mop tr).selection s = _ from h1)] at h
  have k2 := hG.step.trans k1 (crossExec_frame hG.toCalm op s1)
  rcases h2 : crossExec op s1 with ⟨y2, s2⟩
  rw [h2] at k2
  simp only at k2
  cases y2 with
  | error e =>
    rw [bind_of_err (show (singleOps fit sel op mop tr).crossover s1 = _ from h2)] at h
    obtain ⟨rfl, rfl⟩ := Prod.mk.inj h
    exact ⟨hs.bred hal k2, fun e => by simp at e⟩
  | ok u2 =>
  rw [bind_of_ok (show (singleOps fit sel op mop tr).crossover s1 = _ from h2)] at h
  have k3 : PlacesKept s (mutExec mop s2).2 := by
    have hm := mutExec_writes mop s2
    obtain ⟨q1, q2, q3⟩ := mutExec_gentle restKept_gentle mop s2
    have hS := (selExec_isSelection sel s s1 _ hal h1).1
    refine ⟨⟨q1.1.trans k2.members.1, q1.2.trans k2.members.2⟩, q2.trans k2.snaps, q3.trans k2.calls, k2.next.trans hm.1, fun r hlt => ?_⟩
    have : (mutExec mop s2).2.heap r = s2.heap r := hm.2 r (hlt.trans_le k2.next) fun hc => by
      have := cross_children (fun r hr => (hS.fresh r hr).2.1) h2 r hc
      have := hS.next
      omega
    rw [this]
    exact k2.places r hlt
  rcases h3 : mutExec mop s2 with ⟨y3, s3⟩
  rw [h3] at k3
  simp only at k3
  cases y3 with
  | error e =>
    rw [bind_of_err (show (singleOps fit sel op mop tr).mutation s2 = _ from h3)] at h
    obtain ⟨rfl, rfl⟩ := Prod.mk.inj h
    exact ⟨hs.bred hal k3, fun e => by simp at e⟩
  | ok u3 =>
  rw [bind_of_ok (show (singleOps fit sel op mop tr).mutation s2 = _ from h3)] at h
  have hbr : breed (selExec sel) op mop s = (.ok (), s3) := by
    unfold breed
    rw [bind_of_ok h1, bind_of_ok h2]
    exact h3
  obtain ⟨hB, _⟩ := breed_ok (selExec_isSelection sel) hal hbr
  have hsorted : s3.ga.attrs.isSorted = true := by rw [k3.members.2]; exact hr.settled.sorted
  rcases h4 : newGenExec tr s3 with ⟨y4, s4⟩
  cases y4 with
  | error e =>
    rw [bind_of_err (show (singleOps fit sel op mop tr).newGen s3 = _ from h4)] at h
    obtain ⟨rfl, rfl⟩ := Prod.mk.inj h
    exact ⟨hs.bred hal (hG.step.trans k3 (newGenExec_places hsorted h4)), fun e => by simp at e⟩
  | ok u4 =>
  rw [bind_of_ok (show (singleOps fit sel op mop tr).newGen s3 = _ from h4)] at h
  have hs4 := newGen_sound hs hr hw hcl hB h4
  obtain ⟨r4, _⟩ := newGen_resumable hr hB h4
  rcases h5 : baseFitnessExec fit s4 with ⟨y5, s5⟩
  obtain ⟨r5, _⟩ := fitness_any r4 h5
  cases y5 with
  | error e =>
    rw [bind_of_err (show (singleOps fit sel op mop tr).fitness s4 = _ from h5)] at h
    obtain ⟨rfl, rfl⟩ := Prod.mk.inj h
    exact hs4.eval r4 h5 hx
  | ok u5 =>
  rw [bind_of_ok (show (singleOps fit sel op mop tr).fitness s4 = _ from h5)] at h
  obtain ⟨hs5, hw5⟩ := hs4.eval r4 h5 (.inr rfl)
  exact hs5.update r5 (hw5 rfl) h

theorem mainLoop_sound (hcl : ClosedGeno op mop at_.spec P) : ∀ {n k : Nat} {s s' : St ℚ} {x : Except PyErr Unit},
    Sound P at_ s → RunInv s k → (∀ r ∈ s.ga.population, WellFormed P at_ (s.heap r)) →
    mainLoop (singleOps fit sel op mop tr) n s = (x, s') → at_.isPhenotype = false ∨ x = .ok () → Sound P at_ s' := by
  intro n
  induction n with
  | zero =>
    intro k s s' x hs _ _ h _
    rw [mainLoop, pure_run] at h
    obtain rfl := (Prod.mk.inj h).2
    exact hs
  | succ n ih =>
    intro k s s' x hs hr hw h hx
    rw [mainLoop] at h
    rcases hg : generation (singleOps fit sel op mop tr) s with ⟨y, s1⟩
    cases y with
    | error e =>
      rw [bind_of_err hg] at h
      obtain ⟨rfl, rfl⟩ := Prod.mk.inj h
      exact (generation_sound hs hr hw hcl hg hx).1
    | ok u =>
      obtain ⟨hs1, hw1⟩ := generation_sound hs hr hw hcl hg (.inr rfl)
      have hr1 := (generation_inv (singleOps_run fit sel op mop tr) hr hg).1
      rw [bind_of_ok hg, bind_of_ok (getGa_run s1)] at h
      cases he : s1.ga.earlyStop with
      | none =>
        simp only [he, throwE_run] at h
        obtain rfl := (Prod.mk.inj h).2
        exact hs1
      | some e =>
        simp only [he] at h
        rw [ite_run] at h
        split at h
        · rw [pure_run] at h
          obtain rfl := (Prod.mk.inj h).2
          exact hs1
        · exact ih hs1 hr1 (hw1 rfl) h hx

theorem optimize_sound (hcl : ClosedGeno op mop at_.spec P) {s s' : St ℚ} {k : Nat} {x : Except PyErr Unit} (hs : Sound P at_ s)
    (hr : Resumable s k) (h : collectorOptimize (singleOps fit sel op mop tr) s = (x, s'))
    (hx : at_.isPhenotype = false ∨ x = .ok ()) : Sound P at_ s' := by
  unfold collectorOptimize at h
  rcases he : evolve (singleOps fit sel op mop tr) s with ⟨y, s1⟩
  have hst : s' = s1 := by
    cases y with
    | error e => rw [bind_of_err he] at h; exact (Prod.mk.inj h).2.symm
    | ok u => rw [bind_of_ok he] at h; exact printBest_state h
  have hxy : x = .ok () → y = .ok () := by
    rintro rfl
    cases y with
    | error e => rw [bind_of_err he] at h; simp at h
    | ok u => rfl
  subst hst
  clear h
  unfold evolve at he
  rcases hf : baseFitnessExec fit s with ⟨z, a1⟩
  obtain ⟨r1, _⟩ := fitness_any hr hf
  cases z with
  | error e =>
    rw [bind_of_err (show (singleOps fit sel op mop tr).fitness s = _ from hf)] at he
    obtain ⟨rfl, rfl⟩ := Prod.mk.inj he
    exact (hs.eval hr hf (hx.imp id hxy)).1
  | ok u =>
    obtain ⟨hs1, hw1⟩ := hs.eval hr hf (.inr rfl)
    rw [bind_of_ok (show (singleOps fit sel op mop tr).fitness s = _ from hf)] at he
    rcases hu : gaUpdate a1 with ⟨w, a2⟩
    obtain ⟨hs2, hw2⟩ := hs1.update r1 (hw1 rfl) hu
    rcases r1.update hu with ⟨rfl, hi⟩ | ⟨e, rfl, _, _⟩
    · rw [bind_of_ok (show (singleOps fit sel op mop tr).update a1 = _ from hu), bind_of_ok (getGa_run a2)] at he
      exact mainLoop_sound hcl hs2 hi (hw2 rfl) he (hx.imp id hxy)
    · rw [bind_of_err (show (singleOps fit sel op mop tr).update a1 = _ from hu)] at he
      obtain ⟨rfl, rfl⟩ := Prod.mk.inj he
      exact hs2

end

theorem Sound.interlude {P : List Val → Prop} {at_ : Attrs} {s s1 : St ℚ} (hs : Sound P at_ s) (h : Interlude s s1) : Sound P at_ s1 := by
  obtain ⟨t, sd, lv, cs, N, cp, e, rfl⟩ := h
  exact ⟨hs.attrs, hs.members, hs.snaps, hs.calls⟩

theorem Attempts.sound {P : List Val → Prop} {ok : CrossOp → MutOp → Except PyErr Unit → Prop} {s0 s : St ℚ} {n : Nat} (h0 : Fresh s0)
    (hc0 : s0.calls = []) (hfirst : ∀ r ∈ s0.ga.population, WellFormed P s0.ga.attrs (s0.heap r))
    (hok : ∀ op mop x, ok op mop x → ClosedGeno op mop s0.ga.attrs.spec P ∧ (s0.ga.attrs.isPhenotype = false ∨ x = .ok ()))
    (h : Attempts ok s0 n s) : Sound P s0.ga.attrs s := by
  induction h with
  | none =>
    refine ⟨⟨s0.ga.attrs.isSorted, rfl⟩, fun r hr => .inr (hfirst r hr), ?_, by rw [hc0]; simp⟩
    have : s0.snaps = [] := List.length_eq_zero_iff.mp h0.hist.snaps
    rw [this]; simp
  | more fit sel op mop tr ho ha hi hc ih =>
    obtain ⟨k, hk⟩ := ha.resumable h0
    obtain ⟨c1, c2⟩ := hok _ _ _ ho
    exact optimize_sound c1 (ih.interlude hi) (hk.interlude hi) hc c2

/-! ## operators that stay in the search space -/

/-- The crossovers that take every gene from one of the parents at the same position. -/
def Positional (op : CrossOp) : Prop := op = .onePoint ∨ op = .twoPoint ∨ op = .uniform

/-- The mutations that rearrange genes. -/
def Rearranging (mop : MutOp) : Prop := mop = .inversion ∨ mop = .movement ∨ mop = .shift ∨ mop = .swap

theorem positional_child {σ : Type} {op : CrossOp} (hop : Positional op) {L : Nat} {p1 p2 g : List Val} (h1 : p1.length = L) (h2 : p2.length = L)
    (h : CrossResult σ op L p1 p2 g) : g.length = L ∧ ∀ i : Nat, i < L → g[i]? = p1[i]? ∨ g[i]? = p2[i]? := by
  obtain ⟨s, s', cs, hc, hcs⟩ := h
  rcases hop with rfl | rfl | rfl
  · obtain ⟨c, _, _, l1, l2, hpos⟩ := C14_one_point h1 h2 hc
    rcases hcs with rfl | rfl
    · refine ⟨l1, fun i _ => ?_⟩
      rw [(hpos i).1]; split
      · exact .inl rfl
      · exact .inr rfl
    · refine ⟨l2, fun i _ => ?_⟩
      rw [(hpos i).2]; split
      · exact .inr rfl
      · exact .inl rfl
  · obtain ⟨c, d, _, _, _, l1, l2, hpos⟩ := C15_two_point h1 h2 hc
    rcases hcs with rfl | rfl
    · refine ⟨l1, fun i _ => ?_⟩
      rw [(hpos i).1]; split
      · exact .inr rfl
      · exact .inl rfl
    · refine ⟨l2, fun i _ => ?_⟩
      rw [(hpos i).2]; split
      · exact .inl rfl
      · exact .inr rfl
  · obtain ⟨e, l1, hpos⟩ := C16_uniform hc
    have hg : g = cs.1 := by rcases hcs with rfl | rfl; rfl; exact e.symm
    rw [hg]
    exact ⟨l1, hpos⟩

/-- Bit strings: all positional crossovers, all mutations. -/
theorem bits_closed_for_all (σ : Type) {op : CrossOp} (hop : Positional op) (mop : MutOp) (gray : Bool) (gens : List BinGene) (L : Nat) :
    ClosedFor σ op mop (.binary gray gens) (fun g => IsBits g ∧ g.length = L) := by
  rintro lvl g0 p1 p2 g1 g ⟨_, l0⟩ ⟨b1, l1⟩ ⟨b2, l2⟩ hc hg
  obtain ⟨hl, hpos⟩ := positional_child hop (l1.trans l0.symm) (l2.trans l0.symm) hc
  have hP1 : IsBits g1 ∧ g1.length = L := by
    refine ⟨fun x hx => ?_, hl.trans l0⟩
    obtain ⟨i, hi⟩ := List.getElem?_of_mem hx
    rcases hpos i (by rw [← hl]; exact (List.getElem?_eq_some_iff.mp hi).1) with h | h
    · exact b1 x (List.mem_of_getElem? (h.symm.trans hi))
    · exact b2 x (List.mem_of_getElem? (h.symm.trans hi))
  have hperm : ∀ {g' : List Val}, g'.Perm g1 → IsBits g' ∧ g'.length = L := fun hp =>
    ⟨fun x hx => hP1.1 x (hp.subset hx), hp.length_eq.trans hP1.2⟩
  rcases hg with rfl | ⟨s1, s2, hm⟩
  · exact hP1
  · cases mop with
    | binString =>
      simp only at hm
      rcases mutateBits_level hm with rfl | ⟨q, rfl⟩
      · exact hP1
      · obtain ⟨ds, _, _, d3, d4, _⟩ := C20_bit_mutation hm
        exact ⟨d4 hP1.1, d3.trans hP1.2⟩
    | categorical => obtain ⟨pools, e, _⟩ := hm; simp at e
    | _ => exact hperm (C21_permutes hm)

theorem bits_closed_all {op : CrossOp} (hop : Positional op) (mop : MutOp) (gray : Bool) (gens : List BinGene) (L : Nat) :
    ClosedGeno op mop (.binary gray gens) (fun g => IsBits g ∧ g.length = L) := bits_closed_for_all ℚ hop mop gray gens L

/-- Tuples of pool values: all positional crossovers. -/
theorem tuple_closed_all {op : CrossOp} (hop : Positional op) (gens : List CatGene) :
    ClosedGeno op .categorical (.cat gens) (IsTuple gens) := by
  rintro lvl g0 p1 p2 g1 g h0 h1 h2 hc hg
  have hlen : g0.length = gens.length := h0.length_eq.symm
  obtain ⟨hl, hpos⟩ := positional_child hop (h1.length_eq.symm.trans hlen.symm) (h2.length_eq.symm.trans hlen.symm) hc
  have hP1 : IsTuple gens g1 := by
    unfold IsTuple
    rw [List.forall₂_iff_get]
    refine ⟨by rw [hl, hlen], ?_⟩
    intro i i1 i2
    have hi : g1[i]? = some g1[i] := List.getElem?_eq_getElem i2
    have := hpos i (by omega)
    simp only [List.get_eq_getElem]
    rcases this with h | h
    · rw [hi] at h
      have hh := (List.forall₂_iff_get.mp h1).2 i i1 (List.getElem?_eq_some_iff.mp h.symm).1
      simp only [List.get_eq_getElem, (List.getElem?_eq_some_iff.mp h.symm).2] at hh
      exact hh
    · rw [hi] at h
      have hh := (List.forall₂_iff_get.mp h2).2 i i1 (List.getElem?_eq_some_iff.mp h.symm).1
      simp only [List.get_eq_getElem, (List.getElem?_eq_some_iff.mp h.symm).2] at hh
      exact hh
  rcases hg with rfl | ⟨s1, s2, pools, hsp, hm⟩
  · exact hP1
  · injection hsp with hsp
    subst hsp
    rcases mutateCat_level hm with rfl | ⟨q, rfl⟩
    · exact hP1
    · exact C22_stays_in_pools hm hP1

/-- Repetition-free tracks: order crossover, all rearranging mutations. -/
theorem track_closed_all {mop : MutOp} (hmop : Rearranging mop) (spec : PopSpec) (a b k : Int) :
    ClosedGeno .order mop spec (IsTrack a b k) := by
  rintro lvl g0 p1 p2 g1 g h0 h1 h2 hc hg
  have hP1 : IsTrack a b k g1 := track_closed spec a b k lvl g0 p1 p2 g1 g1 h0 h1 h2 hc (.inl rfl)
  rcases hg with rfl | ⟨s1, s2, hm⟩
  · exact hP1
  · have hp : g.Perm g1 := by
      rcases hmop with rfl | rfl | rfl | rfl <;> exact C21_permutes hm
    exact ⟨by rw [hp.length_eq]; exact hP1.1, hp.nodup_iff.mpr hP1.2.1, fun x hx => hP1.2.2 x (hp.subset hx)⟩

/-- The first members satisfy what given and generated genotypes satisfy. -/
theorem valid_members {spec : PopSpec} {n : Nat} {input : Option (List (List Val))} {s s' : St ℚ} {P : List Val → Prop}
    (hs : ∀ gray gens, spec ≠ .binary gray gens) (hc : createPopulation spec n input s = (.ok (), s'))
    (hgen : ∀ (i r : Nat), (input.getD []).length ≤ i → s'.ga.population[i]? = some r → ∃ g, (s'.heap r).genotype = some g ∧ P g)
    (hin : ∀ x ∈ input.getD [], P x) : ∀ r ∈ s'.ga.population, ∃ g, (s'.heap r).genotype = some g ∧ P g := by
  intro r hr
  obtain ⟨i, hi⟩ := List.getElem?_of_mem hr
  by_cases hil : i < (input.getD []).length
  · cases hci : input with
    | none => rw [hci] at hil; simp at hil
    | some inp =>
      rw [hci] at hil hin
      simp only [Option.getD_some] at hil hin
      rw [hci] at hc
      obtain ⟨_, hall⟩ := C11_input_adopted hs hc
      obtain ⟨r', hr', hg⟩ := hall i inp[i] (List.getElem?_eq_getElem hil)
      rw [hi] at hr'
      injection hr' with hr'
      subst hr'
      exact ⟨_, hg, hin _ (List.getElem_mem hil)⟩
  · exact hgen i r (by omega) hi

/-! ## C82 -/

section
variable {N G n : Nat} {input : Option (List (List Val))} {cp : ℚ} {stop : Option Int} {ar : Arith} {s s0 s' : St ℚ}

theorem collectorSetPopulation_calls {spec : PopSpec} {u : Unit} (h : collectorSetPopulation spec N G input cp stop ar s = (.ok u, s0)) :
    s0.calls = s.calls := by
  have hR := sameCalls_quiet (σ := ℚ)
  have hmod : ∀ f : St ℚ → St ℚ, (∀ s, (f s).calls = s.calls) → Keeps (SameCalls (σ := ℚ)) (modifyS f) := fun f h s => h s
  have : Keeps (SameCalls (σ := ℚ)) (collectorSetPopulation spec N G input cp stop ar) :=
    hR.bind (hmod _ fun _ => rfl) fun _ => hR.bind (newPopulation_frame hR.still.calm) fun _ =>
      hR.bind (setParams_frame hR.still.moving _ _ _) fun _ => fill_frame hR.still _
  exact this.ok h

/-- C82, full claim for binary populations: the objective is only called at points of the box, whatever was raised before. -/
def OnlyPointsEvaluated : Prop := ∀ (gray : Bool) (gens : List BinGene) (N G n : Nat) (input : Option (List (List Val))) (cp : ℚ)
  (stop : Option Int) (s s0 s' : St ℚ), Proper gens → s.calls = [] →
  collectorSetPopulation (.binary gray gens) N G input cp stop .exact s = (.ok (), s0) →
  Attempts (fun op _ _ => Positional op) s0 n s' → ∀ v ∈ s'.calls, List.Forall₂ InGene gens v

/-- C82 for binary populations, if no call raised: the objective is only called at points of the box, over any number of
calls of `optimize()` with any selections, positional crossovers and mutations.  Missing for the full claim: calls after
an exception (see `C82_points_refuted`). -/
theorem C82_points_partial {gray : Bool} {gens : List BinGene} (hg : Proper gens) (hc0 : s.calls = [])
    (h : collectorSetPopulation (.binary gray gens) N G input cp stop .exact s = (.ok (), s0))
    (ha : Attempts (fun op _ x => Positional op ∧ x = .ok ()) s0 n s') : ∀ v ∈ s'.calls, List.Forall₂ InGene gens v := by
  have hst := collectorSetPopulation_ok h
  obtain ⟨s1, hc⟩ := hst.created
  obtain ⟨hprep, hpop⟩ := C10_fill_binary hc
  have hd := (createPopulation_ok hc).2.1
  have hph : s0.ga.attrs.isPhenotype = true := hd.phen.mpr ⟨gray, gens, rfl⟩
  have hS := ha.sound (P := fun g => IsBits g ∧ g.length = s0.ga.attrs.idxBits.getLastD 0) hst.fresh
    ((collectorSetPopulation_calls h).trans hc0)
    (fun r hr => by
      obtain ⟨g, p, e1, e2, e3, e4, e5⟩ := hpop r hr
      exact ⟨g, e1, ⟨e3, e4⟩, fun _ => ⟨p, e2, e5⟩⟩)
    (fun op mop x hx => ⟨by rw [hd.spec_eq]; exact bits_closed_all hx.1 mop gray gens _, .inr hx.2⟩)
  intro v hv
  rcases hS.calls v hv with ⟨_, g, ⟨g1, g2⟩, g3⟩ | ⟨hb, _⟩
  · obtain ⟨xs, x1, x2⟩ := C05_decode_in_range hprep hst.arith hg g1 g2
    rw [g3] at x1
    injection x1 with x1
    rw [x1]; exact x2
  · rw [hph] at hb; simp at hb

/-- C82 for permutations, with all exceptions: whatever calls of `optimize()` raised, every call of the objective, every
member of the population and every recorded individual is a repetition-free track. -/
theorem C82_tracks {a b k : Int} (hin : ∀ x ∈ input.getD [], IsTrack a b k x) (hc0 : s.calls = [])
    (h : collectorSetPopulation (.orderCat a b k) N G input cp stop ar s = (.ok (), s0))
    (ha : Attempts (fun op mop _ => op = .order ∧ Rearranging mop) s0 n s') :
    (∀ v ∈ s'.calls, IsTrack a b k v) ∧ (∀ r ∈ s'.ga.population, ∃ g, (s'.heap r).genotype = some g ∧ IsTrack a b k g) ∧
      ∀ l ∈ s'.snaps, ∀ x ∈ l, ∃ g, x.genotype = some g ∧ IsTrack a b k g := by
  have hst := collectorSetPopulation_ok h
  obtain ⟨s1, hc⟩ := hst.created
  have hd := (createPopulation_ok hc).2.1
  have hnp : s0.ga.attrs.isPhenotype = false := by
    cases hp : s0.ga.attrs.isPhenotype with
    | false => rfl
    | true => obtain ⟨_, _, e⟩ := hd.phen.mp hp; simp at e
  have hfirst := valid_members (by simp) hc (C13_generated_tracks hc) hin
  have hS := ha.sound (P := IsTrack a b k) hst.fresh ((collectorSetPopulation_calls h).trans hc0)
    (fun r hr => by
      obtain ⟨g, g1, g2⟩ := hfirst r hr
      exact ⟨g, g1, g2, fun e => by rw [hnp] at e; simp at e⟩)
    (fun op mop x hx => by
      obtain ⟨rfl, hm⟩ := hx
      exact ⟨track_closed_all hm _ a b k, .inl hnp⟩)
  exact hS.plain hnp

/-- C82 for tuples of categories, with all exceptions. -/
theorem C82_tuples {gens : List CatGene} (hin : ∀ x ∈ input.getD [], IsTuple gens x) (hc0 : s.calls = [])
    (h : collectorSetPopulation (.cat gens) N G input cp stop ar s = (.ok (), s0))
    (ha : Attempts (fun op mop _ => Positional op ∧ mop = .categorical) s0 n s') :
    (∀ v ∈ s'.calls, IsTuple gens v) ∧ (∀ r ∈ s'.ga.population, ∃ g, (s'.heap r).genotype = some g ∧ IsTuple gens g) ∧
      ∀ l ∈ s'.snaps, ∀ x ∈ l, ∃ g, x.genotype = some g ∧ IsTuple gens g := by
  have hst := collectorSetPopulation_ok h
  obtain ⟨s1, hc⟩ := hst.created
  have hd := (createPopulation_ok hc).2.1
  have hnp : s0.ga.attrs.isPhenotype = false := by
    cases hp : s0.ga.attrs.isPhenotype with
    | false => rfl
    | true => obtain ⟨_, _, e⟩ := hd.phen.mp hp; simp at e
  have hfirst := valid_members (by simp) hc (C12_generated_in_pools hc) hin
  have hS := ha.sound (P := IsTuple gens) hst.fresh ((collectorSetPopulation_calls h).trans hc0)
    (fun r hr => by
      obtain ⟨g, g1, g2⟩ := hfirst r hr
      exact ⟨g, g1, g2, fun e => by rw [hnp] at e; simp at e⟩)
    (fun op mop x hx => by
      obtain ⟨ho, rfl⟩ := hx
      exact ⟨by rw [hd.spec_eq]; exact tuple_closed_all ho gens, .inl hnp⟩)
  exact hS.plain hnp

end

/-! ### a binary run that is continued after the objective raised -/

def binSet : Except PyErr Unit × St ℚ :=
  collectorSetPopulation (.binary true [⟨0, 3, 1⟩, ⟨-1, 1, 1 / 2⟩]) 4 3 none (1 / 2) (some 10) .exact
    { tape := exTape, mutLvl := .float (1 / 100) }
def binFitRaising : Fit ℚ := ⟨hyperbolaTask (fun _ => .error (.user 1)) (fun _ => .error (.user 1)) false none none, false, [.optimize], []⟩
def binBroken : Except PyErr Unit × St ℚ := collectorOptimize (singleOps binFitRaising (.tournament 2) .onePoint .binString .best) binSet.2
/-- The next call, with an objective that accepts any list. -/
def binAgain : Except PyErr Unit × St ℚ := collectorOptimize (singleOps exFit (.tournament 2) .onePoint .binString .best) binBroken.2

set_option maxRecDepth 100000 in
theorem binSet_ok : binSet.1 = .ok () := by decide +kernel
set_option maxRecDepth 100000 in
theorem binBroken_error : binBroken.1 = .error (.user 1) := by decide +kernel
set_option maxRecDepth 100000 in
/-- The first call evaluated one point of the box; the second one the raw bit strings. -/
theorem binAgain_calls : (binAgain.2.calls.take 3).map List.length = [2, 5, 5] := by decide +kernel

/-- C82 is false for binary populations: after an exception of the objective the next `optimize()` hands the objective raw
bit strings. -/
theorem C82_points_refuted : ¬ OnlyPointsEvaluated := by
  intro h
  have ha : Attempts (fun op _ _ => Positional op) binSet.2 2 binAgain.2 :=
    .more (x := binAgain.1) exFit (.tournament 2) .onePoint .binString .best (.inl rfl)
      (.more binFitRaising (.tournament 2) .onePoint .binString .best (.inl rfl) .none (interlude_refl _) (of_error binBroken_error))
      (interlude_refl _) rfl
  have hall := h true [⟨0, 3, 1⟩, ⟨-1, 1, 1 / 2⟩] 4 3 2 none (1 / 2) (some 10) { tape := exTape, mutLvl := .float (1 / 100) } binSet.2 binAgain.2
    (by intro g hg; simp at hg; rcases hg with rfl | rfl <;> norm_num) rfl (of_ok binSet_ok) ha
  have hc := binAgain_calls
  cases hx : binAgain.2.calls with
  | nil => rw [hx] at hc; simp at hc
  | cons v1 l =>
    cases l with
    | nil => rw [hx] at hc; simp at hc
    | cons v2 l =>
      rw [hx] at hc
      have h2 := (hall v2 (by rw [hx]; simp)).length_eq
      simp at hc h2
      omega

/-- The hypotheses of `C82_tuples` are met by a run whose first call raised and whose second call returned. -/
example : Attempts (fun op mop _ => Positional op ∧ mop = .categorical) exSet.2 2 exRepaired.2 :=
  .more exFit (.tournament 2) .uniform .categorical .best ⟨.inr (.inr rfl), rfl⟩
    (.more exFitRaising (.tournament 2) .uniform .categorical .best ⟨.inr (.inr rfl), rfl⟩ .none (interlude_refl _) (of_error exBroken_error))
    (interlude_refl _) (show collectorOptimize exOps exBroken.2 = _ from of_ok exRepaired_ok)

/-- A binary run that returns. -/
def binRun : Except PyErr Unit × St ℚ := collectorOptimize (singleOps exFit (.tournament 2) .twoPoint .binString .best) binSet.2

set_option maxRecDepth 100000 in
theorem binRun_ok : binRun.1 = .ok () ∧ 4 < binRun.2.calls.length := by decide +kernel

/-- The hypotheses of `C82_points_partial` are met. -/
example : Attempts (fun op _ x => Positional op ∧ x = .ok ()) binSet.2 1 binRun.2 :=
  .more exFit (.tournament 2) .twoPoint .binString .best ⟨.inr (.inl rfl), rfl⟩ .none (interlude_refl _) (of_ok binRun_ok.1)

/-- A run on permutations whose objective raises on the second individual, and the next call. -/
def trackSet : Except PyErr Unit × St ℚ :=
  collectorSetPopulation (.orderCat 1 6 5) 4 3 none (1 / 2) (some 10) .exact { tape := exTape, mutLvl := .float (1 / 2) }
def trackObj (v : List Val) : Except PyErr Ret := if v.head? = some (.num 1) then exObj v else .error (.user 7)
def trackFit : Fit ℚ := ⟨hyperbolaTask trackObj trackObj false none none, false, [.optimize], []⟩
def trackBroken : Except PyErr Unit × St ℚ := collectorOptimize (singleOps trackFit (.tournament 2) .order .swap .best) trackSet.2
def trackAgain : Except PyErr Unit × St ℚ := collectorOptimize (singleOps exFit (.tournament 2) .order .inversion .best) trackBroken.2

set_option maxRecDepth 100000 in
theorem trackRuns : trackSet.1 = .ok () ∧ trackBroken.1 = .error (.user 7) ∧ trackAgain.1 = .ok () := by decide +kernel

/-- The hypotheses of `C82_tracks` are met. -/
example : Attempts (fun op mop _ => op = .order ∧ Rearranging mop) trackSet.2 2 trackAgain.2 :=
  .more exFit (.tournament 2) .order .inversion .best ⟨rfl, .inl rfl⟩
    (.more trackFit (.tournament 2) .order .swap .best ⟨rfl, .inr (.inr (.inr rfl))⟩ .none (interlude_refl _) (of_error trackRuns.2.1))
    (interlude_refl _) (of_ok trackRuns.2.2)

end BaumEva
