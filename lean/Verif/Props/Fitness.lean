import Verif.Proofs.Fitness
import Verif.Proofs.Keeps
import Verif.Proofs.Penalty
import Verif.Props.Penalty
import Verif.Props.Population
/-!
# C34 - C36, C61, C63: evaluation
-/
namespace BaumEva
open Spec
variable {σ : Type}

/-! ## Construction of the fitness object -/

theorem newFitness_ok {t : Task σ} {fit : Fit σ} {s s' : St σ} (h : newFitness t s = (.ok fit, s')) :
    fit.task = t ∧
    ((fit.isCond = false ∧ fit.conditions = s.conds.getD [.optimize] ∧ s' = s ∧
        (t.penalty = none ∨ (s.conds.getD [.optimize]).length ≤ 1)) ∨
     (fit.isCond = true ∧ (∃ p, t.penalty = some p) ∧ ∃ cs, s.conds = some cs ∧ 2 ≤ cs.length ∧
        ((t.multi = true ∧ fit.conditions = cs.filter (fun c => c ≠ .optimize) ∧ fit.idxOpt = (optIdx cs).reverse ∧ s' = s) ∨
         (t.multi = false ∧ .optimize ∈ cs ∧ fit.conditions = cs.erase .optimize ∧ fit.idxOpt = [cs.idxOf .optimize] ∧
           s' = { s with conds := some (cs.erase .optimize) })))) := by
  unfold newFitness at h
  rw [bind_of_ok (getS_run s)] at h
  cases hp : t.penalty with
  | none =>
    simp only [hp] at h
    obtain ⟨rfl, rfl⟩ := pure_ok.mp h
    exact ⟨rfl, .inl ⟨rfl, rfl, rfl, .inl rfl⟩⟩
  | some p =>
    simp only [hp] at h
    rw [ite_run] at h
    split at h
    · rename_i hl
      obtain ⟨rfl, rfl⟩ := pure_ok.mp h
      exact ⟨rfl, .inl ⟨rfl, rfl, rfl, .inr hl⟩⟩
    · rename_i hl
      cases hcs : s.conds with
      | none => rw [hcs] at hl; simp at hl
      | some cs =>
        rw [hcs] at h hl
        simp only [Option.getD_some] at h hl
        rw [ite_run] at h
        split at h
        · rename_i hm
          obtain ⟨rfl, rfl⟩ := pure_ok.mp h
          exact ⟨rfl, .inr ⟨rfl, ⟨p, rfl⟩, cs, rfl, by omega, .inl ⟨hm, rfl, rfl, rfl⟩⟩⟩
        · rename_i hm
          rw [ite_run] at h
          split at h
          · rename_i ho
            rw [bind_of_ok (modifyS_run _ _)] at h
            obtain ⟨rfl, rfl⟩ := pure_ok.mp h
            refine ⟨rfl, .inr ⟨rfl, ⟨p, rfl⟩, cs, rfl, by omega, .inr ⟨by simpa using hm, ho, rfl, rfl, ?_⟩⟩⟩
            rw [hcs]; rfl
          · rw [throwE_ok] at h; exact h.elim

/-- The conditional task of a fitness object in the user's terms. -/
theorem conditional_split {t : Task σ} {fit : Fit σ} {s0 s1 : St σ} (hnew : newFitness t s0 = (.ok fit, s1))
    (hc : fit.isCond = true) {cs : List Cond} (hcs : s0.conds = some cs) (hone : t.multi = false → cs.count .optimize = 1) :
    fit.conditions = cs.filter (fun c => c ≠ .optimize) ∧ fit.idxOpt = (optIdx cs).reverse := by
  obtain ⟨_, h⟩ := newFitness_ok hnew
  rcases h with ⟨h, _⟩ | ⟨_, _, cs', e, _, h⟩
  · rw [hc] at h; simp at h
  · rw [hcs] at e
    injection e with e
    subst e
    rcases h with ⟨_, h1, h2, _⟩ | ⟨hm, _, h1, h2, _⟩
    · exact ⟨h1, h2⟩
    · obtain ⟨e1, e2⟩ := single_opt (hone hm)
      rw [h1, h2, e1, e2]; exact ⟨rfl, rfl⟩

/-! ## C35 -/

/-- C35: one call for each member without score, in population order, with the phenotype (binary populations) or
genotype; members with score are not called for and keep their fields; genotypes and phenotypes stay in place.
The only hypothesis excludes *unscored* objects occurring twice. -/
theorem C35_one_call_each {fit : Fit σ} {s s' : St σ} {u : Unit} (h : baseFitnessExec fit s = (.ok u, s'))
    (hnd : (newMembers s.heap s.ga.population).Nodup) :
    (∃ gs, s'.calls = s.calls ++ gs ∧
      List.Forall₂ (fun r g => argument s.ga.attrs.isPhenotype (s'.heap r) = some g) (newMembers s.heap s.ga.population) gs) ∧
    (∀ r, r ∉ s.ga.population → s'.heap r = s.heap r) ∧
    (∀ r ∈ s.ga.population, (s.heap r).score.isSome →
      s'.heap r = { s.heap r with phenotype := (s'.heap r).phenotype }) ∧
    (∀ r ∈ s.ga.population, (s'.heap r).score.isSome) ∧
    (∀ r, (s'.heap r).genotype = (s.heap r).genotype) ∧
    (∀ r p, (s.heap r).phenotype = some p → (s'.heap r).phenotype = some p) ∧
    (s.ga.attrs.isPhenotype = false → ∀ r, (s'.heap r).phenotype = (s.heap r).phenotype) ∧
    (s.ga.attrs.isPhenotype = true → ∀ r ∈ s.ga.population, (s.heap r).phenotype = none →
      ∃ g p, (s.heap r).genotype = some g ∧ decodeIndivid s.ga.attrs g = .ok p ∧ (s'.heap r).phenotype = some p) ∧
    s'.ga = s.ga ∧ s'.tape = s.tape := by
  obtain ⟨a1, ⟨gs, a2, a3⟩, a4, a5, a6⟩ := baseFitness_ok h hnd
  have hmem : ∀ r, r ∈ unscored s.heap s.ga.population → r ∈ s.ga.population := fun r hr => (List.mem_filter.mp hr).1
  -- every member was decoded
  have hdec : ∀ r ∈ s.ga.population, ∃ m, Decoded s.ga (s.heap r) m ∧ (s'.heap r).genotype = m.genotype ∧
      (s'.heap r).phenotype = m.phenotype ∧ (s'.heap r).score.isSome := by
    intro r hr
    cases hs : (s.heap r).score with
    | some v =>
      have := a5 r hr (by rw [hs]; rfl)
      refine ⟨_, this, rfl, rfl, ?_⟩
      rw [this.keeps]; simp [hs]
    | none =>
      obtain ⟨m, ba, e1, _, e2⟩ := a6 r (List.mem_filter.mpr ⟨hr, by simp [hs]⟩)
      have := e2.keeps
      exact ⟨m, e1, this.2.1, this.2.2.1, this.1⟩
  refine ⟨⟨gs, a2, ?_⟩, a4, ?_, ?_, ?_, ?_, ?_, ?_, ?_, ?_⟩
  · rw [List.forall₂_iff_get] at a3 ⊢
    refine ⟨a3.1, fun i i1 i2 => ?_⟩
    have hm := List.get_mem (unscored s.heap s.ga.population) ⟨i, i1⟩
    obtain ⟨m, e1, e2⟩ := a3.2 i i1 i2
    obtain ⟨m', e1', e3, e4, _⟩ := hdec _ (hmem _ hm)
    have hmm : m = m' := by
      unfold Decoded at e1 e1'
      split at e1
      · rw [if_pos ‹_›] at e1'
        rcases e1 with ⟨x1, x2⟩ | ⟨x1, g, p, x2, x3, x4⟩ <;> rcases e1' with ⟨y1, y2⟩ | ⟨y1, g', p', y2, y3, y4⟩
        · rw [x2, y2]
        · rw [y1] at x1; simp at x1
        · rw [x1] at y1; simp at y1
        · rw [x2] at y2; injection y2 with y2; subst y2
          rw [x3] at y3; injection y3 with y3; subst y3
          rw [x4, y4]
      · rw [if_neg ‹_›] at e1'; rw [e1, e1']
    subst hmm
    unfold seen at e2
    unfold argument
    split at e2
    · rw [if_pos ‹_›, ← e2]; exact e4
    · rw [if_neg ‹_›, ← e2]; exact e3
  · intro r hr hs
    exact (a5 r hr hs).keeps
  · intro r hr; obtain ⟨_, _, _, _, h⟩ := hdec r hr; exact h
  · intro r
    by_cases hr : r ∈ s.ga.population
    · obtain ⟨m, e1, e2, _⟩ := hdec r hr
      rw [e2, e1.keeps]
    · rw [a4 r hr]
  · intro r p hp
    by_cases hr : r ∈ s.ga.population
    · obtain ⟨m, e1, _, e3, _⟩ := hdec r hr
      rw [e3]
      unfold Decoded at e1
      split at e1
      · rcases e1 with ⟨_, rfl⟩ | ⟨h, _⟩
        · exact hp
        · rw [hp] at h; simp at h
      · rw [e1]; exact hp
    · rw [a4 r hr]; exact hp
  · intro hb r
    by_cases hr : r ∈ s.ga.population
    · obtain ⟨m, e1, _, e3, _⟩ := hdec r hr
      rw [e3]
      unfold Decoded at e1
      rw [if_neg (by simp [hb])] at e1
      rw [e1]
    · rw [a4 r hr]
  · intro hb r hr hp
    obtain ⟨m, e1, _, e3, _⟩ := hdec r hr
    unfold Decoded at e1
    rw [if_pos hb] at e1
    rcases e1 with ⟨h, _⟩ | ⟨_, g, p, x1, x2, rfl⟩
    · rw [hp] at h; simp at h
    · exact ⟨g, p, x1, x2, e3⟩
  · rw [a1]
  · rw [a1]

/-! ## C34 -/

/-- What evaluation stores, in the user's terms: for a conditional task with the user's list of conditions `cs`,
the objective returned a tuple `vs` for the individual and `feasible` says whether `vs` satisfies `cs`. -/
theorem C34_feasible_iff {t : Task σ} {fit : Fit σ} {s0 s1 s s' : St σ} {u : Unit} {cs : List Cond}
    (hnew : newFitness t s0 = (.ok fit, s1)) (hc : fit.isCond = true) (hcs : s0.conds = some cs)
    (hone : t.multi = false → cs.count .optimize = 1) (h : baseFitnessExec fit s = (.ok u, s'))
    (hnd : (newMembers s.heap s.ga.population).Nodup) {r : Nat} (hr : r ∈ s.ga.population)
    (hs : (s.heap r).score = none) (hf : (s.heap r).feasible = true) :
    ∃ g vs, argument s.ga.attrs.isPhenotype (s'.heap r) = some g ∧
      (if t.inputTruthy then t.obj2 g else t.obj1 g) = .ok (.tup vs) ∧
      ((s'.heap r).feasible = true ↔ Satisfies cs vs) := by
  obtain ⟨hcond, hidx⟩ := conditional_split hnew hc hcs hone
  have ht := (newFitness_ok hnew).1
  obtain ⟨_, _, _, _, a6⟩ := baseFitness_ok h hnd
  obtain ⟨m, ba, e1, _, g, e2, e3⟩ := a6 r (List.mem_filter.mpr ⟨hr, by simp [hs]⟩)
  have hmf : m.feasible = true := by rw [e1.keeps]; exact hf
  have key : ∀ a b : Ind σ, EvalTo fit s.ga.idxGeneration ba g a b → a.feasible = true →
      ∃ vs, (if t.inputTruthy then t.obj2 g else t.obj1 g) = .ok (.tup vs) ∧ (b.feasible = true ↔ Satisfies cs vs) := by
    intro a b hev haf
    obtain ⟨ret, vals, os, feas, pen, sc, x1, x2, rfl, _, x3⟩ := hev
    rcases x3 with ⟨x3, _⟩ | ⟨_, vs, pr, p, rfl, x5, _, x6, x7, _⟩
    · rw [hc] at x3; simp at x3
    · have hret : ret = .tup vs := by
        unfold checkInput at x2
        rw [hc] at x2
        split at x2
        · split at x2
          · simp at x2
          · simpa using x2
        · simp only [if_true] at x2
          split at x2
          · simp at x2
          · split at x2
            · simp at x2
            · simpa using x2
      subst hret
      refine ⟨vs, ?_, ?_⟩
      · rw [ht] at x1
        split at x1
        · rw [if_pos ‹_›]; exact x1
        · rw [if_neg ‹_›]; exact x1
      · simp only [x7, haf, Bool.true_and]
        rw [hidx] at x5
        have h2 := (popAll_opt cs vs x5).2
        rw [hcond, zip_opt h2, all_zip_iff]
  have hk := Evaluated.keeps (show Evaluated fit s.ga ba m (s'.heap r) from ⟨g, e2, e3⟩)
  split at e3
  · rename_i hb
    obtain ⟨vs, y1, y2⟩ := key _ _ e3 hmf
    refine ⟨g, vs, ?_, y1, y2⟩
    unfold argument; unfold seen at e2
    rw [if_pos hb] at e2 ⊢
    rw [hk.2.2.1]; exact e2
  · rename_i hb
    obtain ⟨vs, y1, y2⟩ := key _ _ e3 hmf
    refine ⟨g, vs, ?_, y1, y2⟩
    unfold argument; unfold seen at e2
    rw [if_neg hb] at e2 ⊢
    rw [hk.2.1]; exact e2

/-! ## C36 -/

/-- Genotypes and phenotypes of all individuals are the same. -/
def SamePlaces (s s' : St σ) : Prop := ∀ r, (s'.heap r).genotype = (s.heap r).genotype ∧ (s'.heap r).phenotype = (s.heap r).phenotype

theorem samePlaces_step : Step (SamePlaces (σ := σ)) where
  refl _ _ := ⟨rfl, rfl⟩
  trans h1 h2 r := ⟨(h2 r).1.trans (h1 r).1, (h2 r).2.trans (h1 r).2⟩

theorem keeps_modInd {r : Nat} {f : Ind σ → Ind σ} (hg : ∀ a, (f a).genotype = a.genotype)
    (hp : ∀ a, (f a).phenotype = a.phenotype) : Keeps SamePlaces (modInd r f) := by
  intro s x
  rw [modInd_run]
  by_cases h : x = r
  · subst h; simp only [upd_same]; exact ⟨hg _, hp _⟩
  · simp [upd_ne h]

theorem keeps_feasLoop (r : Nat) : ∀ (cs : List Cond) (vs : List ℚ), Keeps (SamePlaces (σ := σ)) (feasLoop r cs vs)
  | [], [] => Keeps.pure samePlaces_step _
  | _ :: _, [] => Keeps.pure samePlaces_step _
  | [], _ :: _ => Keeps.throwE samePlaces_step _
  | c :: cs, v :: vs => by
    rw [feasLoop]
    refine Keeps.bind samePlaces_step ?_ (fun _ => keeps_feasLoop r cs vs)
    unfold markFeas
    exact Keeps.ite (Keeps.pure samePlaces_step _) (keeps_modInd (fun _ => rfl) (fun _ => rfl))

theorem keeps_evalInd (fit : Fit σ) (r : Nat) : Keeps SamePlaces (evalInd fit r) := by
  have hR := samePlaces_step (σ := σ)
  unfold evalInd
  refine Keeps.bind hR (Keeps.getInd hR r) (fun ind => ?_)
  cases ind.score with
  | some _ => exact Keeps.pure hR _
  | none =>
    refine Keeps.bind hR (Keeps.genoOf hR r) (fun g => Keeps.bind hR ?_ fun vals => Keeps.bind hR ?_ fun pen => ?_)
    · unfold calcObj callObj
      refine Keeps.bind hR (Keeps.bind hR ?_ fun _ => Keeps.liftE hR _) (fun _ => Keeps.liftE hR _)
      intro s x; exact ⟨rfl, rfl⟩
    · unfold evalValues
      refine Keeps.ite ?_ (Keeps.bind hR (keeps_modInd (fun _ => rfl) (fun _ => rfl)) fun _ => Keeps.pure hR _)
      rcases vals with _ | (v | vs)
      · exact Keeps.throwE hR _
      · exact Keeps.throwE hR _
      · unfold evalCond
        refine Keeps.bind hR (Keeps.liftE hR _) fun pr => Keeps.bind hR (keeps_modInd (fun _ => rfl) (fun _ => rfl)) fun _ =>
          Keeps.bind hR (keeps_feasLoop r _ _) fun _ => Keeps.bind hR (Keeps.getS hR) fun s => ?_
        cases fit.task.penalty with
        | none => exact Keeps.throwE hR _
        | some p => exact Keeps.liftE hR _
    · exact Keeps.bind hR (Keeps.getInd hR r) fun _ => Keeps.bind hR (Keeps.liftE hR _) fun _ =>
        keeps_modInd (fun _ => rfl) (fun _ => rfl)

/-- C36, full claim: whatever happens during evaluation, genotypes and phenotypes that existed stay in place. -/
def InPlaceAfterCrash (σ : Type) : Prop := ∀ (fit : Fit σ) (s s' : St σ) (e : PyErr),
  baseFitnessExec fit s = (.error e, s') → ∀ r, (s'.heap r).genotype = (s.heap r).genotype

/-- C36 for populations without phenotype. -/
theorem C36_in_place_partial {fit : Fit σ} {s s' : St σ} {res : Except PyErr Unit} (h : baseFitnessExec fit s = (res, s'))
    (hb : s.ga.attrs.isPhenotype = false) :
    ∀ r, (s'.heap r).genotype = (s.heap r).genotype ∧ (s'.heap r).phenotype = (s.heap r).phenotype := by
  unfold baseFitnessExec at h
  rw [bind_of_ok (getGa_run s), ite_run, if_neg (by simp [hb])] at h
  have := Keeps.forEach samePlaces_step (l := s.ga.population) (keeps_evalInd fit) s
  rw [h] at this
  exact this

/-- What happens to binary populations: when an evaluation raises, every individual (occurring once) is left with
genotype and phenotype exchanged. -/
theorem C36_left_swapped {fit : Fit σ} {s s' : St σ} {e : PyErr} (h : baseFitnessExec fit s = (.error e, s'))
    (hb : s.ga.attrs.isPhenotype = true) (hready : ∀ r ∈ s.ga.population, (s.heap r).phenotype ≠ none) :
    ∀ r ∈ s.ga.population, s.ga.population.count r = 1 →
      (s'.heap r).genotype = (s.heap r).phenotype ∧ (s'.heap r).phenotype = (s.heap r).genotype := by
  unfold baseFitnessExec at h
  rw [bind_of_ok (getGa_run s), ite_run, if_pos hb] at h
  have hph : ∀ (l : List Nat) (s : St σ), (∀ r ∈ l, (s.heap r).phenotype ≠ none) → forEach l (fun r => do
      let ind ← getInd r
      match ind.phenotype with
      | some _ => pure ()
      | none => do
        let g ← genoOf r
        let p ← liftE (decodeIndivid s.ga.attrs g)
        modInd r fun ind => { ind with phenotype := some p }) s = (.ok (), s) := by
    intro l s hl
    have : ∀ l : List Nat, (∀ r ∈ l, (s.heap r).phenotype ≠ none) → forEach l (fun r => do
      let ind ← getInd r
      match ind.phenotype with
      | some _ => pure ()
      | none => do
        let g ← genoOf r
        let p ← liftE (decodeIndivid s.ga.attrs g)
        modInd r fun ind => { ind with phenotype := some p }) s = (.ok (), s) := by
      intro l
      induction l with
      | nil => intro _; rfl
      | cons x xs ih =>
        intro hl
        rw [forEach]
        have hx := hl x List.mem_cons_self
        cases hp : (s.heap x).phenotype with
        | none => exact absurd hp hx
        | some p =>
          refine (bind_of_ok (a := ()) (s' := s) ?_).trans (ih fun r hr => hl r (List.mem_cons_of_mem _ hr))
          rw [bind_of_ok (getInd_run x s), hp]; rfl
    exact this l hl
  have hgp : getPhenotype s = (.ok (), s) := by
    unfold getPhenotype
    rw [bind_of_ok (getGa_run s)]
    exact hph s.ga.population s hready
  rw [bind_of_ok hgp] at h
  obtain ⟨s2, e2, f2, g2⟩ := swapPop_run s
  rw [bind_of_ok e2] at h
  rcases hx : forEach s.ga.population (evalInd fit) s2 with ⟨x, s3⟩
  cases x with
  | ok u =>
    rw [bind_of_ok hx] at h
    obtain ⟨s4, e4, _⟩ := swapPop_run s3
    rw [h] at e4; simp at e4
  | error e' =>
    rw [bind_of_err hx] at h
    have hs3 : s3 = s' := (Prod.mk.inj h).2
    subst hs3
    have hk := Keeps.forEach samePlaces_step (l := s.ga.population) (keeps_evalInd fit) s2
    rw [hx] at hk
    intro r hr h1
    have := hk r
    simp only at this
    rw [g2 r, h1] at this
    exact this

/-- C36 is false for binary populations. -/
theorem C36_in_place_refuted : ¬ InPlaceAfterCrash ℚ := by
  intro h
  have := h ⟨⟨fun _ => .error (.user 0), fun _ => .error .typeError, false, none, hyperbola .exact none, false, .exact⟩, false, [], []⟩
    { heap := fun _ => { genotype := some [bit0], phenotype := some [.num 0] }, next := 1,
      ga := { population := [0], attrs := { isPhenotype := true } } } _ (.user 0) rfl 0
  revert this
  decide +kernel

/-! ## C63 -/

/-- C63: what `check_input` accepts (single-objective): a conditional objective has to return one value per
condition, an unconditional one a scalar or - with the value lost - a sequence of at most one number. -/
theorem C63_shape {t : Task σ} {fit : Fit σ} {s0 s1 : St σ} (hnew : newFitness t s0 = (.ok fit, s1)) (hm : t.multi = false)
    (ret : Ret) :
    (fit.isCond = true → ∀ cs, s0.conds = some cs →
      ((∃ v, checkInput fit.task.multi fit.isCond fit.conditions ret = .ok v) ↔ ∃ l, ret = .tup l ∧ l.length = cs.length)) ∧
    (fit.isCond = false →
      (∀ q, ret = .sc q → checkInput fit.task.multi fit.isCond fit.conditions ret = .ok (some (.sc q))) ∧
      (∀ l, ret = .tup l → l.length ≤ 1 → checkInput fit.task.multi fit.isCond fit.conditions ret = .ok none) ∧
      (∀ l, ret = .tup l → 1 < l.length → checkInput fit.task.multi fit.isCond fit.conditions ret = .error .exception)) := by
  obtain ⟨ht, hcase⟩ := newFitness_ok hnew
  rw [ht, hm]
  constructor
  · intro hc cs hcs
    rw [hc]
    rcases hcase with ⟨h, _⟩ | ⟨_, _, cs', e, _, h⟩
    · rw [hc] at h; simp at h
    · rw [hcs] at e; injection e with e; subst e
      rcases h with ⟨h, _⟩ | ⟨_, ho, h1, _⟩
      · rw [hm] at h; simp at h
      · have hl : (cs.erase .optimize).length + 1 = cs.length := by
          rw [List.length_erase_of_mem ho]
          have := List.length_pos_of_mem ho
          omega
        unfold checkInput
        rw [h1, hl]
        cases ret with
        | sc q => simp
        | tup l =>
          simp only [Bool.false_eq_true, if_false, if_true]
          by_cases hll : l.length = cs.length <;> simp [hll]
  · intro hc
    rw [hc]
    refine ⟨?_, ?_, ?_⟩
    · rintro q rfl; rfl
    · rintro l rfl hl; simp [checkInput]; omega
    · rintro l rfl hl; simp [checkInput, hl]

/-- C63: a one-element tuple passes the check of an unconditional task, but the evaluation then raises
`TypeError`, for every population whose first new member it is returned for. -/
theorem C63_singleton_raises {t : Task ℚ} {ar : Arith} {objValue : Option ℚ} {fit : Fit ℚ} {s : St ℚ} {r : Nat} {g : List Val} {q : ℚ}
    (ht : fit.task = t) (hsc : t.score = hyperbola ar objValue) (hm : t.multi = false) (hc : fit.isCond = false)
    (hg : (s.heap r).genotype = some g) (hs : (s.heap r).score = none)
    (hobj : (if t.inputTruthy then t.obj2 else t.obj1) g = .ok (.tup [q])) :
    (evalInd fit r s).1 = .error .typeError := by
  have e0 : genoOf r s = (.ok g, s) := by unfold genoOf; rw [hg]
  have e1 : calcObj fit g s = (.ok none, { s with calls := s.calls ++ [g] }) := by
    unfold calcObj
    rw [bind_of_ok (callObj_ok.mpr ⟨by rw [ht]; exact hobj, rfl⟩), ht, hm, hc]; rfl
  unfold evalInd
  rw [bind_of_ok (getInd_run r s), hs]
  simp only
  rw [bind_of_ok e0, bind_of_ok e1]
  have e2 : evalValues fit r none { s with calls := s.calls ++ [g] } = (.ok 0, { s with
      calls := s.calls ++ [g], heap := upd s.heap r { s.heap r with objScore := none } }) := by
    unfold evalValues
    rw [ite_run, if_neg (by simp [hc]), bind_of_ok (modInd_run _ _ _)]; rfl
  rw [bind_of_ok e2, bind_of_ok (getInd_run _ _), ht, hsc]
  rw [bind_run]
  simp [hyperbola, liftE, upd_same]

/-- C63: falsy `input_data` is not passed to the objective, truthy one always is. -/
theorem C63_input_data {fit : Fit σ} {g : List Val} {s s' : St σ} {v : Option Ret} (h : calcObj fit g s = (.ok v, s')) :
    (fit.task.inputTruthy = false → ∃ ret, fit.task.obj1 g = .ok ret ∧
      checkInput fit.task.multi fit.isCond fit.conditions ret = .ok v) ∧
    (fit.task.inputTruthy = true → ∃ ret, fit.task.obj2 g = .ok ret ∧
      checkInput fit.task.multi fit.isCond fit.conditions ret = .ok v) := by
  unfold calcObj at h
  obtain ⟨ret, s1, h1, h2⟩ := bind_ok.mp h
  obtain ⟨e1, _⟩ := callObj_ok.mp h1
  obtain ⟨e2, _⟩ := liftE_ok.mp h2
  constructor <;> intro hi <;> rw [hi] at e1
  · exact ⟨ret, by simpa using e1, e2⟩
  · exact ⟨ret, by simpa using e1, e2⟩

/-! ## C61 -/

/-- C61, full claim: `obj_score` lists the objectives in the order in which the function returns them. -/
def ObjectivesInOrder (σ : Type) : Prop := ∀ (t : Task σ) (fit : Fit σ) (s0 s1 : St σ) (cs : List Cond) (vs : List ℚ)
  (pr : List ℚ × List ℚ), newFitness t s0 = (.ok fit, s1) → fit.isCond = true → t.multi = true → s0.conds = some cs →
  popAll fit.idxOpt vs = .ok pr → pr.1 = ((cs.zip vs).filter fun p => p.1 = .optimize).map Prod.snd

/-- C61: what happens for conditional tasks: the objectives are listed in reverse. -/
theorem C61_reversed {t : Task σ} {fit : Fit σ} {s0 s1 : St σ} {cs : List Cond} {vs : List ℚ} {pr : List ℚ × List ℚ}
    (hnew : newFitness t s0 = (.ok fit, s1)) (hc : fit.isCond = true) (hm : t.multi = true) (hcs : s0.conds = some cs)
    (hp : popAll fit.idxOpt vs = .ok pr) :
    pr.1.reverse = ((cs.zip vs).filter fun p => p.1 = .optimize).map Prod.snd := by
  obtain ⟨_, h⟩ := conditional_split hnew hc hcs (fun h => by rw [hm] at h; simp at h)
  rw [h] at hp
  rw [(popAll_opt cs vs hp).1, List.reverse_reverse]

/-- C61 holds for unconditional tasks: `obj_score` is the returned list. -/
theorem C61_in_order_partial {fit : Fit σ} {s s' : St σ} {u : Unit} (h : baseFitnessExec fit s = (.ok u, s'))
    (hnd : (newMembers s.heap s.ga.population).Nodup) (hc : fit.isCond = false) (hm : fit.task.multi = true)
    {r : Nat} (hr : r ∈ s.ga.population) (hs : (s.heap r).score = none) :
    ∃ g vs, argument s.ga.attrs.isPhenotype (s'.heap r) = some g ∧
      (if fit.task.inputTruthy then fit.task.obj2 g else fit.task.obj1 g) = .ok (.tup vs) ∧
      (s'.heap r).objScore = some (.tup vs) := by
  obtain ⟨_, _, _, _, a6⟩ := baseFitness_ok h hnd
  obtain ⟨m, ba, e1, _, g, e2, e3⟩ := a6 r (List.mem_filter.mpr ⟨hr, by simp [hs]⟩)
  have key : ∀ a b : Ind σ, EvalTo fit s.ga.idxGeneration ba g a b →
      ∃ vs, (if fit.task.inputTruthy then fit.task.obj2 g else fit.task.obj1 g) = .ok (.tup vs) ∧ b.objScore = some (.tup vs) := by
    intro a b hev
    obtain ⟨ret, vals, os, feas, pen, sc, x1, x2, rfl, _, x3⟩ := hev
    rcases x3 with ⟨_, x3, _⟩ | ⟨x3, _⟩
    · unfold checkInput at x2
      rw [hm] at x2
      simp only [if_true] at x2
      cases ret with
      | sc q => simp at x2
      | tup l =>
        simp at x2
        refine ⟨l, ?_, by simp only; rw [x3, ← x2]⟩
        split at x1
        · rw [if_pos ‹_›]; exact x1
        · rw [if_neg ‹_›]; exact x1
    · rw [hc] at x3; simp at x3
  have hk := Evaluated.keeps (show Evaluated fit s.ga ba m (s'.heap r) from ⟨g, e2, e3⟩)
  split at e3
  · rename_i hb
    obtain ⟨vs, y1, y2⟩ := key _ _ e3
    refine ⟨g, vs, ?_, y1, y2⟩
    unfold argument; unfold seen at e2
    rw [if_pos hb] at e2 ⊢
    rw [hk.2.2.1]; exact e2
  · rename_i hb
    obtain ⟨vs, y1, y2⟩ := key _ _ e3
    refine ⟨g, vs, ?_, y1, y2⟩
    unfold argument; unfold seen at e2
    rw [if_neg hb] at e2 ⊢
    rw [hk.2.1]; exact e2

/-- C61 is false for conditional tasks with two objectives. -/
theorem C61_in_order_refuted : ¬ ObjectivesInOrder ℚ := by
  intro h
  have := h (ffgaTask (fun _ => .ok (.tup [1, 2])) (fun _ => .error .typeError) false (some (newDynamic 1 1 1 1))) _
    { conds := some [.optimize, .optimize, .le] } _ [.optimize, .optimize, .le] [1, 2, 3] ([2, 1], [3]) rfl rfl rfl rfl rfl
  revert this
  decide +kernel

/-! ## C32, C33, C39 for evaluated populations -/

/-- The stored score is the score of the stored objective value and some penalty. -/
theorem Evaluated.hyperbola {fit : Fit ℚ} {ga : GaData ℚ} {best : BestArg} {a b : Ind ℚ} {ar : Arith} {objValue : Option ℚ}
    (h : Evaluated fit ga best a b)
    (hsc : fit.task.score = BaumEva.hyperbola ar objValue) (hm : fit.task.multi = false) :
    ∃ g ret vals pen sc, argument ga.attrs.isPhenotype b = some g ∧
      (if fit.task.inputTruthy then fit.task.obj2 g else fit.task.obj1 g) = .ok ret ∧
      checkInput false fit.isCond fit.conditions ret = .ok vals ∧
      b.score = some sc ∧ BaumEva.hyperbola ar objValue b pen = .ok sc ∧
      ((fit.isCond = false ∧ b.objScore = vals ∧ pen = 0 ∧ b.feasible = a.feasible) ∨
       (fit.isCond = true ∧ ∃ vs pr p, vals = some (.tup vs) ∧ popAll fit.idxOpt vs = .ok pr ∧ b.objScore = some (.sc (pr.1.headD 0)) ∧
         pr.2.length ≤ fit.conditions.length ∧
         b.feasible = (a.feasible && (fit.conditions.zip pr.2).all (fun p => condHolds p.1 p.2)) ∧
         fit.task.penalty = some p ∧ p.value fit.task.arith fit.conditions pr.2 ga.idxGeneration best = .ok pen)) := by
  have hk := h.keeps
  obtain ⟨g, e2, e3⟩ := h
  have hcong : ∀ (x y : Ind ℚ) pen, x.objScore = y.objScore → BaumEva.hyperbola ar objValue x pen = BaumEva.hyperbola ar objValue y pen := by
    intro x y pen e; unfold BaumEva.hyperbola; rw [e]
  have harg : argument ga.attrs.isPhenotype b = some g := by
    unfold argument; unfold seen at e2
    split at e2
    · rw [if_pos ‹_›, hk.2.2.1]; exact e2
    · rw [if_neg ‹_›, hk.2.1]; exact e2
  obtain ⟨x, y, hev, hxa, h1, h2, h3⟩ : ∃ x y : Ind ℚ, EvalTo fit ga.idxGeneration best g x y ∧
      x.feasible = a.feasible ∧ y.objScore = b.objScore ∧ y.score = b.score ∧ y.feasible = b.feasible := by
    split at e3
    · exact ⟨_, _, e3, rfl, rfl, rfl, rfl⟩
    · exact ⟨_, _, e3, rfl, rfl, rfl, rfl⟩
  obtain ⟨ret, vals, os, feas, pen, sc, x1, x2, rfl, x4, x3⟩ := hev
  rw [hm] at x2 x3
  simp only at h1 h2 h3
  refine ⟨g, ret, vals, pen, sc, harg, ?_, x2, h2.symm, ?_, ?_⟩
  · split at x1
    · rw [if_pos ‹_›]; exact x1
    · rw [if_neg ‹_›]; exact x1
  · rw [hsc] at x4
    rw [← x4]; exact hcong _ _ _ h1.symm
  · rcases x3 with ⟨y1, y2, y3, y4⟩ | ⟨y1, vs, pr, p, y2, y3, y4, y5, y6, y7, y8⟩
    · exact .inl ⟨y1, by rw [← h1, y2], y4, by rw [← h3, y3, hxa]⟩
    · exact .inr ⟨y1, vs, pr, p, y2, y3, by rw [← h1, y4]; rfl, y5, by rw [← h3, y6, hxa], y7, y8⟩

/-- The score of a new member of an unconstrained task, in any arithmetic. -/
theorem evaluated_score {fit : Fit ℚ} {ar : Arith} {objValue : Option ℚ} {s s' : St ℚ} {u : Unit} (h : baseFitnessExec fit s = (.ok u, s'))
    (hnd : (newMembers s.heap s.ga.population).Nodup) (hsc : fit.task.score = hyperbola ar objValue) (hm : fit.task.multi = false)
    (hc : fit.isCond = false) {r : Nat} (hr : r ∈ s.ga.population) (hs : (s.heap r).score = none) :
    ∃ g o sc, argument s.ga.attrs.isPhenotype (s'.heap r) = some g ∧
      (if fit.task.inputTruthy then fit.task.obj2 g else fit.task.obj1 g) = .ok (.sc o) ∧
      (s'.heap r).objScore = some (.sc o) ∧ (s'.heap r).score = some sc ∧ hyperbolaR ar.rnd objValue o 0 = .ok sc := by
  obtain ⟨_, _, _, _, a6⟩ := baseFitness_ok h hnd
  obtain ⟨m, _, _, _, hev⟩ := a6 r (List.mem_filter.mpr ⟨hr, by simp [hs]⟩)
  obtain ⟨g, ret, vals, pen, sc, h1, h2, h3, h4, h5, h6⟩ := hev.hyperbola hsc hm
  rcases h6 with ⟨_, h6, rfl, _⟩ | ⟨h6, _⟩
  · rw [hc] at h3
    cases ret with
    | tup l =>
      exfalso
      simp only [checkInput, Bool.false_eq_true, if_false] at h3
      split at h3
      · simp at h3
      · simp at h3
        rw [← h3] at h6
        unfold BaumEva.hyperbola at h5
        rw [h6] at h5; simp at h5
    | sc o =>
      simp only [checkInput, Bool.false_eq_true, if_false, Except.ok.injEq] at h3
      rw [← h3] at h6
      refine ⟨g, o, sc, h1, h2, h6, h4, ?_⟩
      unfold BaumEva.hyperbola at h5
      rw [h6] at h5
      exact h5
  · rw [hc] at h6; simp at h6

/-- C32 and C33 for a whole evaluation without constraints: every new member's objective value is what the function
returned for it and its score is `1/(1+|target - value|)` or minus the value. -/
theorem C33_evaluated {fit : Fit ℚ} {objValue : Option ℚ} {s s' : St ℚ} {u : Unit} (h : baseFitnessExec fit s = (.ok u, s'))
    (hnd : (newMembers s.heap s.ga.population).Nodup) (hsc : fit.task.score = hyperbola .exact objValue) (hm : fit.task.multi = false)
    (hc : fit.isCond = false) {r : Nat} (hr : r ∈ s.ga.population) (hs : (s.heap r).score = none) :
    ∃ g o, argument s.ga.attrs.isPhenotype (s'.heap r) = some g ∧
      (if fit.task.inputTruthy then fit.task.obj2 g else fit.task.obj1 g) = .ok (.sc o) ∧
      (s'.heap r).objScore = some (.sc o) ∧
      (s'.heap r).score = some (match objValue with | some t => 1 / (1 + |t - o|) | none => -o) := by
  obtain ⟨g, o, sc, h1, h2, h6, h4, h5⟩ := evaluated_score h hnd hsc hm hc hr hs
  refine ⟨g, o, h1, h2, h6, ?_⟩
  rw [h4]
  cases objValue with
  | none =>
    simp [hyperbolaR, Arith.exact] at h5
    simp [← h5]
  | some t =>
    have h7 := hyperbola_target (t := t) (ind := s'.heap r) h6 (le_refl (0 : ℚ))
    unfold BaumEva.hyperbola at h7
    rw [h6] at h7
    have h8 := h5.symm.trans h7
    simp at h8
    simp [h8]

/-- C39 for a whole evaluation from generation 1 on: of two new members with the same objective value, one
feasible and one not, the feasible one gets the higher score. -/
theorem C39_evaluated {t : Task ℚ} {objValue : Option ℚ} {fit : Fit ℚ} {s0 s1 s s' : St ℚ} {u : Unit} {p : Penalty} {cs : List Cond}
    (hnew : newFitness t s0 = (.ok fit, s1)) (hsc : t.score = hyperbola .exact objValue) (har : t.arith = .exact) (hm : t.multi = false)
    (hp : t.penalty = some p)
    (hpos : PositivePenalty p) (hcs : s0.conds = some cs) (hlen : 2 ≤ cs.length) (hone : cs.count .optimize = 1)
    (hknown : ∀ c ∈ cs, c = .optimize ∨ c = .le ∨ c = .ne)
    (h : baseFitnessExec fit s = (.ok u, s')) (hnd : (newMembers s.heap s.ga.population).Nodup)
    (hg : 1 ≤ s.ga.idxGeneration) {bi bg : Nat} (hbest : s.ga.best = some (.single bi bg)) (hap : bi ∉ s.ga.population)
    {x y : Nat} (hx : x ∈ s.ga.population) (hy : y ∈ s.ga.population) (hxs : (s.heap x).score = none)
    (hys : (s.heap y).score = none) (hyf : (s.heap y).feasible = true)
    (hfx : (s'.heap x).feasible = true) (hfy : (s'.heap y).feasible = false)
    (ho : (s'.heap x).objScore = (s'.heap y).objScore) :
    ∃ sx sy, (s'.heap x).score = some sx ∧ (s'.heap y).score = some sy ∧ sy < sx := by
  have ht := (newFitness_ok hnew).1
  have hc : fit.isCond = true := by
    rcases (newFitness_ok hnew).2 with ⟨_, _, _, h | h⟩ | ⟨h, _⟩
    · rw [hp] at h; simp at h
    · rw [hcs] at h; simp at h; omega
    · exact h
  obtain ⟨hcond, hidx⟩ := conditional_split hnew hc hcs (fun _ => hone)
  have hsigns : KnownSigns fit.conditions := by
    intro c hcm
    rw [hcond] at hcm
    obtain ⟨h1, h2⟩ := List.mem_filter.mp hcm
    rcases hknown c h1 with rfl | h | h
    · simp at h2
    · exact .inl h
    · exact .inr h
  obtain ⟨_, _, _, _, a6⟩ := baseFitness_ok h hnd
  have get : ∀ r ∈ s.ga.population, (s.heap r).score = none → ∃ o pen sc vals, (s'.heap r).objScore = some (.sc o) ∧
      (s'.heap r).score = some sc ∧ hyperbola .exact objValue (s'.heap r) pen = .ok sc ∧ fit.conditions.length = vals.length ∧
      ((s'.heap r).feasible = true → AllHold fit.conditions vals) ∧
      ((s.heap r).feasible = true → AllHold fit.conditions vals → (s'.heap r).feasible = true) ∧
      p.value fit.task.arith fit.conditions vals s.ga.idxGeneration (bestArg s) = .ok pen := by
    intro r hr hs
    obtain ⟨m, ba, hd, hba, hev⟩ := a6 r (List.mem_filter.mpr ⟨hr, by simp [hs]⟩)
    have hba : ba = bestArg s := hba fun r0 g0 hb => by
      rw [hbest] at hb
      simp only [Option.some.injEq, Best.single.injEq] at hb
      rw [← hb.1]; exact hap
    subst hba
    obtain ⟨g, ret, vals, pen, sc, h1, h2, h3, h4, h5, h6⟩ := hev.hyperbola (by rw [ht]; exact hsc) (by rw [ht]; exact hm)
    rcases h6 with ⟨h6, _⟩ | ⟨_, vs, pr, p', rfl, y1, y2, y3, y4, y5, y6⟩
    · rw [hc] at h6; simp at h6
    · rw [ht, hp] at y5
      injection y5 with y5
      subst y5
      have hmf : m.feasible = (s.heap r).feasible := by rw [hd.keeps]
      have hall : (fit.conditions.zip pr.2).all (fun p => condHolds p.1 p.2) = true ↔ AllHold fit.conditions pr.2 := by
        rw [List.all_eq_true]
        unfold AllHold
        constructor
        · intro h q hq; exact (condHolds_iff _ _).mp (h q hq)
        · intro h q hq; exact (condHolds_iff _ _).mpr (h q hq)
      have hlen2 : fit.conditions.length = pr.2.length := by
        by_contra hne
        rcases hpos with ⟨δ, c, α, β, _, _, _, _, rfl⟩ | ⟨δ, b1, b2, β, _, _, hpa⟩
        · rw [C37_dynamic_rejects _ _ (.inl hne)] at y6; simp at y6
        · obtain ⟨rfl, _, _⟩ := newAdaptive_ok hpa
          unfold Penalty.value at y6
          rw [if_neg (show ¬ "AdaptivePenalty" = "DynamicPenalty" by decide), if_pos rfl] at y6
          simp only [PenImpl.execute, ne_eq, hne, not_false_eq_true, if_true] at y6
          split at y6 <;> simp at y6
      refine ⟨_, pen, sc, pr.2, y2, h4, h5, hlen2, ?_, ?_, y6⟩
      · intro hf
        rw [y4, Bool.and_eq_true] at hf
        exact hall.mp hf.2
      · intro hf hA
        rw [y4, hmf, hf, hall.mpr hA]; rfl
  have hb : bestArg s = .ind (s.heap bi).feasible := by unfold bestArg; rw [hbest]
  obtain ⟨ox, px, sx, vx, x1, x2, x3, x4, x5, _, x7⟩ := get x hx hxs
  obtain ⟨oy, py, sy, vy, y1, y2, y3, y4, _, y6, y7⟩ := get y hy hys
  rw [hb, ht, har] at x7 y7
  rw [ho, y1] at x1
  injection x1 with x1
  injection x1 with x1
  subst x1
  refine ⟨sx, sy, x2, y2, ?_⟩
  have hcong : hyperbola .exact objValue (s'.heap x) px = hyperbola .exact objValue (s'.heap y) px := by unfold hyperbola; rw [ho]
  rw [hcong] at x3
  exact C39_infeasible_below_partial hpos hsigns x4 y4 (x5 hfx)
    (fun hA => by rw [y6 hyf hA] at hfy; simp at hfy) y1 x7 y7 x3 y3 hg

/-! ## The hypotheses are met by concrete cases -/

/-- A task with objective `x₀` and the constraint `x₀ - 3 ≤ 0`. -/
def demoTask : Task ℚ := hyperbolaTask
  (fun g => match g with | .num q :: _ => .ok (.tup [q, q - 3]) | _ => .error .typeError) (fun _ => .error .typeError) false
  (some (newDynamic 1 1 1 1)) none

/-- Two new individuals, one scored individual that occurs twice. -/
def demoState : St ℚ :=
  { conds := some [.optimize, .le], next := 3,
    heap := fun i => if i = 0 then { genotype := some [.num 2] } else if i = 1 then { genotype := some [.num 5] }
      else { genotype := some [.num 1], score := some (-1) },
    ga := { population := [0, 2, 1, 2], idxGeneration := 1, attrs := { numIndivid := 4 } } }

/-- The fitness object of `demoTask`. -/
def demoFit : Fit ℚ := ⟨demoTask, true, [.le], [0]⟩

example : (newFitness demoTask demoState).1.toOption.map (fun f => (f.isCond, f.conditions, f.idxOpt)) =
    some (demoFit.isCond, demoFit.conditions, demoFit.idxOpt) := by decide +kernel
example : succeeded (baseFitnessExec demoFit demoState) = true ∧
    (baseFitnessExec demoFit demoState).2.calls = [[.num 2], [.num 5]] ∧
    ((baseFitnessExec demoFit demoState).2.heap 0).feasible = true ∧
    ((baseFitnessExec demoFit demoState).2.heap 1).feasible = false ∧
    ((baseFitnessExec demoFit demoState).2.heap 0).score = some (-2) ∧
    ((baseFitnessExec demoFit demoState).2.heap 1).score = some (-7) := by decide +kernel
example : (newMembers demoState.heap demoState.ga.population).Nodup := by decide +kernel
example : Satisfies [.optimize, .le] [2, -1] ∧ ¬ Satisfies [.optimize, .le] [5, 2] := by
  constructor
  · intro j c v hc hne hv
    rcases j with _ | _ | j
    · simp at hc; exact absurd hc.symm hne
    · simp at hc hv; subst hc; subst hv; norm_num [Holds]
    · simp at hc
  · intro h
    have := h 1 .le 2 rfl (by decide) rfl
    norm_num [Holds] at this

end BaumEva
