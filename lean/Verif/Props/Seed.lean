import Verif.Props.Run
/-!
# C50, C51: seeded runs
-/
namespace BaumEva
variable {σ : Type}

/-! ## C50 -/

theorem reseed_bind {α : Type} {f : Unit → M σ α} {s : St σ} {t0 : List Nat} (hs : s.seed = some t0) :
    (reseed >>= f) s = f () { s with tape := t0 } := by
  rw [bind_run]
  simp [reseed, hs]

theorem reseed_same {α : Type} {t0 : List Nat} (f : Unit → M σ α) (s1 s2 : St σ) (hs : s1.seed = some t0)
    (h : s2 = { s1 with tape := s2.tape }) : (reseed >>= f) s1 = (reseed >>= f) s2 := by
  rw [reseed_bind hs, reseed_bind (s := s2) (by rw [h]; exact hs), h]

/-- C50: with a seed, `optimize()` of any facade does not depend on the state of the random module before the
call; the whole outcome (result or exception, and final state) is the same. -/
theorem C50_facade {c : Cfg} {spec : PopSpec} {task : Task σ} {fitExec : Fit σ → M σ Unit} {update selection : M σ Unit}
    {cross : CrossOp} {mutOp : MutOp} {newGen : Transfer → M σ Unit} {s : St σ} {t0 : List Nat} (hs : s.seed = some t0)
    (t : List Nat) :
    facade c spec task fitExec update selection cross mutOp newGen { s with tape := t } =
      facade c spec task fitExec update selection cross mutOp newGen s := by
  unfold facade newGaData newPopulation
  rw [bind_of_ok (modifyS_run _ _), bind_of_ok (modifyS_run _ _)]
  exact reseed_same _ _ _ hs rfl

/-- C50 for `BinaryGA`, `CombinatoryGA`, `CategoricalGA`. -/
theorem C50_single (f : SingleFacade) (c : Cfg) (ov : Option ℚ) {s : St ℚ} {t0 : List Nat} (hs : s.seed = some t0) (t : List Nat) :
    f.optimize c ov { s with tape := t } = f.optimize c ov s := by
  cases f
  · exact C50_facade hs t
  · exact C50_facade hs t
  · exact C50_facade hs t

/-- C50 for `FFGA`. -/
theorem C50_ffga (c : Cfg) (gray : Bool) (gens : List BinGene) {s : St ℚ} {t0 : List Nat} (hs : s.seed = some t0) (t : List Nat) :
    ffga c gray gens { s with tape := t } = ffga c gray gens s := C50_facade hs t

/-- Same result or exception; same final state if there was no exception. -/
def SameOutcome {α : Type} (r r' : Except PyErr α × St σ) : Prop :=
  (∃ e, r.1 = .error e ∧ r'.1 = .error e ∧ Drew r.2 r'.2) ∨ ∃ a s', r = (.ok a, s') ∧ r' = (.ok a, s')

theorem SameOutcome.refl {α : Type} (r : Except PyErr α × St σ) : SameOutcome r r := by
  rcases r with ⟨x, s⟩
  cases x with
  | error e => exact .inl ⟨e, rfl, rfl, Drew.refl _⟩
  | ok a => exact .inr ⟨a, s, rfl, rfl⟩

theorem SameOutcome.of_eq {α : Type} {r r' : Except PyErr α × St σ} (h : r = r') : SameOutcome r r' := h ▸ .refl _

theorem SameOutcome.bind {α β : Type} {m : M σ α} {f : α → M σ β} {s s' : St σ} (h : SameOutcome (m s) (m s')) :
    SameOutcome ((m >>= f) s) ((m >>= f) s') := by
  rcases h with ⟨e, h1, h2, h3⟩ | ⟨a, s'', h1, h2⟩
  · rcases hx : m s with ⟨x, sx⟩
    rcases hy : m s' with ⟨y, sy⟩
    rw [hx] at h1 h3
    rw [hy] at h2 h3
    simp only at h1 h2 h3
    subst h1
    subst h2
    rw [bind_of_err hx, bind_of_err hy]
    exact .inl ⟨e, rfl, rfl, h3⟩
  · rw [bind_of_ok h1, bind_of_ok h2]
    exact .refl _

/-- C50 for `VEGA`, which calls the objective once before it creates anything: the outcome is the same, and so is
the final state unless this first call raises (then the random state is simply untouched). -/
theorem C50_vega (c : Cfg) (gray : Bool) (gens : List BinGene) (ov : Option (List ℚ)) {s : St (List ℚ)} {t0 : List Nat}
    (hs : s.seed = some t0) (t : List Nat) :
    SameOutcome (vega c gray gens ov { s with tape := t }) (vega c gray gens ov s) := by
  have key : ∀ (m : Nat) (s1 : St (List ℚ)), vegaNumObjectives c gens.length s = (.ok m, s1) →
      vegaNumObjectives c gens.length { s with tape := t } = (.ok m, { s1 with tape := t }) ∧ s1.seed = s.seed := by
    intro m s1 h
    unfold vegaNumObjectives at h ⊢
    rw [bind_of_ok (getS_run _)] at h ⊢
    cases hc : s.conds with
    | none =>
      simp only [hc] at h ⊢
      unfold callObj at h ⊢
      rw [bind_run, bind_of_ok (modifyS_run _ _), liftE_run] at h
      rw [bind_run, bind_of_ok (modifyS_run _ _), liftE_run]
      cases ho : c.obj1 (List.replicate gens.length (Val.num 0)) with
      | error e => simp [ho] at h
      | ok v =>
        cases v with
        | sc q => simp [ho, throwE_run] at h
        | tup l =>
          simp only [ho, pure_run] at h ⊢
          obtain ⟨h1, rfl⟩ := Prod.mk.inj h
          exact ⟨by rw [h1]; simp [hc], rfl⟩
    | some l =>
      simp only [hc, pure_run] at h ⊢
      obtain ⟨h1, rfl⟩ := Prod.mk.inj h
      exact ⟨by rw [h1]; simp [hc], rfl⟩
  have keyE : ∀ (e : PyErr) (s1 : St (List ℚ)), vegaNumObjectives c gens.length s = (.error e, s1) →
      vegaNumObjectives c gens.length { s with tape := t } = (.error e, { s1 with tape := t }) := by
    intro m s1 h
    unfold vegaNumObjectives at h ⊢
    rw [bind_of_ok (getS_run _)] at h ⊢
    cases hc : s.conds with
    | none =>
      simp only [hc] at h ⊢
      unfold callObj at h ⊢
      rw [bind_run, bind_of_ok (modifyS_run _ _), liftE_run] at h
      rw [bind_run, bind_of_ok (modifyS_run _ _), liftE_run]
      cases ho : c.obj1 (List.replicate gens.length (Val.num 0)) with
      | error e =>
        simp only [ho] at h ⊢
        obtain ⟨h1, rfl⟩ := Prod.mk.inj h
        rw [← h1]; simp [hc]
      | ok v =>
        cases v with
        | sc q =>
          simp only [ho, throwE_run] at h ⊢
          obtain ⟨h1, rfl⟩ := Prod.mk.inj h
          rw [← h1]; simp [hc]
        | tup l => simp [ho, pure_run] at h
    | some l => simp [hc, pure_run] at h
  unfold vega
  rcases hx : vegaNumObjectives c gens.length s with ⟨x, s1⟩
  cases x with
  | error e =>
    rw [bind_of_err hx, bind_of_err (keyE e s1 hx)]
    exact .inl ⟨e, rfl, rfl, s1.tape, rfl⟩
  | ok m =>
    rw [bind_of_ok hx, bind_of_ok (key m s1 hx).1]
    exact .of_eq (C50_facade ((key m s1 hx).2.trans hs) t)

/-- C50 for `CollectorGA`: `set_population` forgets the random state. -/
theorem C50_collector {spec : PopSpec} {n N : Nat} {input : Option (List (List Val))} {cp : ℚ} {es : Option Int} {ar : Arith} {s : St σ}
    {t0 : List Nat} (hs : s.seed = some t0) (t : List Nat) :
    collectorSetPopulation spec n N input cp es ar { s with tape := t } = collectorSetPopulation spec n N input cp es ar s := by
  unfold collectorSetPopulation newGaData newPopulation
  rw [bind_of_ok (modifyS_run _ _), bind_of_ok (modifyS_run _ _), bind_run, bind_run]
  simp [reseed, hs]

/-! ## C51 -/

theorem resetIdxFrom_tape (t : List Nat) : ∀ (l : List Nat) (i : Nat) (s s' : St σ) (u : Unit),
    resetIdxFrom i l s = (.ok u, s') → resetIdxFrom i l { s with tape := t } = (.ok u, { s' with tape := t }) ∧ s'.seed = s.seed := by
  intro l
  induction l with
  | nil =>
    intro i s s' u h
    rw [resetIdxFrom] at h ⊢
    obtain ⟨rfl, rfl⟩ := pure_ok.mp h
    exact ⟨rfl, rfl⟩
  | cons r rs ih =>
    intro i s s' u h
    rw [resetIdxFrom] at h ⊢
    rw [bind_of_ok (modInd_run _ _ _)] at h ⊢
    exact ih _ _ _ _ h

theorem resetIdxFrom_total : ∀ (l : List Nat) (i : Nat) (s : St σ), ∃ s', resetIdxFrom i l s = (.ok (), s') := by
  intro l
  induction l with
  | nil => intro i s; exact ⟨s, rfl⟩
  | cons r rs ih =>
    intro i s
    rw [resetIdxFrom, bind_of_ok (modInd_run _ _ _)]
    exact ih _ _

/-- Every selection starts by creating a population object, which restarts the seeded stream. -/
theorem baseSelection_frozen {s : St σ} {t0 : List Nat} (hs : s.seed = some t0) (t : List Nat) :
    baseSelection { s with tape := t } = baseSelection s := by
  unfold baseSelection resetIdx
  obtain ⟨s1, h1⟩ := resetIdxFrom_total s.ga.population 0 s
  obtain ⟨h2, h3⟩ := resetIdxFrom_tape t _ _ _ _ _ h1
  have e1 : (do let ga ← getGa; resetIdxFrom 0 ga.population : M σ Unit) s = (.ok (), s1) := by
    rw [bind_of_ok (getGa_run _)]; exact h1
  have e2 : (do let ga ← getGa; resetIdxFrom 0 ga.population : M σ Unit) { s with tape := t } = (.ok (), { s1 with tape := t }) := by
    rw [bind_of_ok (getGa_run _)]; exact h2
  rw [bind_of_ok e1, bind_of_ok e2, bind_run, bind_run]
  simp [newPopulation, reseed, h3, hs]

theorem checkTournament_tape (size : Int) (t : List Nat) (s : St σ) :
    (checkTournament size { s with tape := t } : Except PyErr Unit × St σ) =
      ((checkTournament size s).1, { (checkTournament size s).2 with tape := t }) ∧ (checkTournament size s).2 = s := by
  unfold checkTournament
  rw [bind_of_ok (getGa_run _), bind_of_ok (getGa_run _)]
  simp only [ite_run]
  split <;> exact ⟨rfl, rfl⟩

theorem check_then_frozen {size : Int} {m : M σ Unit} {s : St σ} (t : List Nat)
    (h : SameOutcome (m { s with tape := t }) (m s)) :
    SameOutcome ((do checkTournament size; m) { s with tape := t }) ((do checkTournament size; m) s) := by
  obtain ⟨h1, h2⟩ := checkTournament_tape size t s
  rcases hx : checkTournament size s with ⟨x, s1⟩
  rw [hx] at h1 h2
  simp only at h1 h2
  subst h2
  cases x with
  | error e =>
    rw [bind_of_err hx, bind_of_err h1]
    exact .inl ⟨e, rfl, rfl, s1.tape, rfl⟩
  | ok u => rw [bind_of_ok hx, bind_of_ok h1]; exact h

/-- C51 (refutation, general): with a seed, no selection class uses the current random state. -/
theorem C51_selection_frozen (sel : SelOp) {s : St ℚ} {t0 : List Nat} (hs : s.seed = some t0) (t : List Nat) :
    SameOutcome (selExec sel { s with tape := t }) (selExec sel s) := by
  cases sel with
  | tournament size =>
    unfold selExec tournamentExec
    exact check_then_frozen t (.bind (.of_eq (baseSelection_frozen hs t)))
  | balanced => exact .bind (.of_eq (baseSelection_frozen hs t))
  | ranked => exact .bind (.of_eq (baseSelection_frozen hs t))

/-- C51 (refutation, general): nor does the tournament selection of `VEGA`. -/
theorem C51_vega_selection_frozen (m : Nat) (size : Int) {s : St (List ℚ)} {t0 : List Nat} (hs : s.seed = some t0) (t : List Nat) :
    SameOutcome (vegaTournamentExec m size { s with tape := t }) (vegaTournamentExec m size s) := by
  unfold vegaTournamentExec
  exact check_then_frozen t (.bind (.of_eq (baseSelection_frozen hs t)))

/-- C51 (refutation, general): nor does any crossover. -/
theorem C51_crossover_frozen (op : CrossOp) {s : St σ} {t0 : List Nat} (hs : s.seed = some t0) (t : List Nat) :
    SameOutcome (crossExec op { s with tape := t }) (crossExec op s) := by
  unfold crossExec
  rw [bind_of_ok (getGa_run _), bind_of_ok (getGa_run _)]
  cases hp : s.ga.population with
  | nil =>
    simp only [throwE_run]
    exact .inl ⟨_, rfl, rfl, s.tape, rfl⟩
  | cons r0 rs =>
    simp only
    cases hg : (s.heap r0).genotype with
    | none =>
      have e1 : genoOf r0 s = (.error .typeError, s) := by simp [genoOf, hg]
      have e2 : genoOf r0 { s with tape := t } = (.error .typeError, { s with tape := t }) := by simp [genoOf, hg]
      rw [bind_of_err e1, bind_of_err e2]
      exact .inl ⟨_, rfl, rfl, s.tape, rfl⟩
    | some g =>
      rw [bind_of_ok (genoOf_run hg), bind_of_ok (genoOf_run (s := { s with tape := t }) hg), bind_run, bind_run]
      simp only [newPopulation, reseed, hs]
      exact .refl _

/-- C51 is false of the code: in a seeded run the next generation is a function of the current state alone; the
draws left over from earlier generations are never used, so every generation sees the same draws. -/
theorem C51_frozen_refuted (fit : Fit ℚ) (sel : SelOp) (op : CrossOp) (mop : MutOp) (tr : Transfer) {s : St ℚ} {t0 : List Nat}
    (hs : s.seed = some t0) (t : List Nat) :
    SameOutcome (generation (singleOps fit sel op mop tr) { s with tape := t }) (generation (singleOps fit sel op mop tr) s) :=
  .bind (C51_selection_frozen sel hs t)

/-- The same for `VEGA` and `FFGA`. -/
theorem C51_frozen_vega_refuted (fit : Fit (List ℚ)) (m : Nat) (size : Int) (op : CrossOp) (mop : MutOp) (tr : Transfer)
    {s : St (List ℚ)} {t0 : List Nat} (hs : s.seed = some t0) (t : List Nat) :
    SameOutcome (generation (vegaOps fit m (.tournament size) op mop tr) { s with tape := t })
      (generation (vegaOps fit m (.tournament size) op mop tr) s) :=
  .bind (C51_vega_selection_frozen m size hs t)

theorem C51_frozen_ffga_refuted (fit : Fit ℚ) (sel : SelOp) (op : CrossOp) (mop : MutOp) (tr : Transfer)
    {s : St ℚ} {t0 : List Nat} (hs : s.seed = some t0) (t : List Nat) :
    SameOutcome (generation (ffgaOps fit sel op mop tr) { s with tape := t }) (generation (ffgaOps fit sel op mop tr) s) :=
  .bind (C51_selection_frozen sel hs t)

/-- Without a seed the draws are used up one after the other. -/
def Consumes (s s' : St σ) : Prop := s.seed = none → s'.seed = none ∧ s'.tape <:+ s.tape

theorem consumes_frame : Frame (Consumes (σ := σ)) where
  step := ⟨fun s h => ⟨h, List.suffix_rfl⟩, fun {a b c} h1 h2 h => by
    obtain ⟨p1, p2⟩ := h1 h
    obtain ⟨q1, q2⟩ := h2 p1
    exact ⟨q1, q2.trans p2⟩⟩
  tape := fun s x t e h => ⟨h, by rw [e]; exact List.suffix_cons _ _⟩
  seeded := fun s t e h => by rw [h] at e; cases e
  heap := fun s h n h' => ⟨h', List.suffix_rfl⟩
  ga := fun s g _ h' => ⟨h', List.suffix_rfl⟩
  mutLvl := fun s l h' => ⟨h', List.suffix_rfl⟩
  calls := fun s l h' => ⟨h', List.suffix_rfl⟩
  snaps := fun s l h' => ⟨h', List.suffix_rfl⟩

/-- C51, the part that holds: without a seed no draw is used twice, in any generation of any run (also in runs
that raise).  Full statement refuted above for seeded runs. -/
theorem C51_fresh_draws_partial (fit : Fit ℚ) (sel : SelOp) (op : CrossOp) (mop : MutOp) (tr : Transfer) {s : St ℚ}
    (hs : s.seed = none) :
    ((generation (singleOps fit sel op mop tr) s).2.tape <:+ s.tape) ∧
    ((evolve (singleOps fit sel op mop tr) s).2.tape <:+ s.tape) :=
  ⟨(generation_frame consumes_frame (singleOps_frame consumes_frame fit sel op mop tr) s hs).2,
   (evolve_frame consumes_frame (singleOps_frame consumes_frame fit sel op mop tr) s hs).2⟩

/-! ## Concrete cases -/

set_option maxRecDepth 100000 in
/-- A seeded run from two different random states returns, with the same scores. -/
example : (exFacade.optimize exCfg none { tape := [5], seed := some exTape }).1 = .ok () ∧
    (exFacade.optimize exCfg none { tape := [], seed := some exTape }).1 = .ok () := by decide +kernel

set_option maxRecDepth 100000 in
/-- Draws are used up in an unseeded run. -/
example : exRun.2.seed = none ∧ exRun.2.tape.length < exTape.length := by decide +kernel

end BaumEva
