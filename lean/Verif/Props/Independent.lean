import Verif.Proofs.HomRun
import Verif.Proofs.Live
import Verif.Props.Repeat
import Verif.Props.Seed
import Verif.Props.MultiRuns
/-!
# C66: the outcome of a call does not depend on what happened before

`observe` is what a user can see of one call of `optimize()`: its exception, the storage object with the contents
of all individuals it refers to, the objective calls made, and the list of conditions afterwards.  A `Session` is
any state of a process in which arbitrary runs were made before.
-/
namespace BaumEva

section
variable {σ : Type}

/-- The contents of `best_solution`. -/
inductive BestValue (σ : Type)
  | none
  | single (ind : Ind σ) (gen : Nat)
  | pareto (front : List (Ind σ)) (gen : Option Nat)

/-- What a user sees of one call. -/
structure Outcome (σ : Type) where
  result : Except PyErr Unit
  best : BestValue σ
  population : List (Ind σ)
  parents : List (Ind σ)
  children : List (Ind σ)
  histBest : List σ
  histMed : List σ
  histWorst : List σ
  histFronts : List (List (Ind σ))
  idxGeneration : Nat
  noImprove : Nat
  attrs : Attrs
  generations : List (List (Ind σ))
  calls : List (List Val)
  conds : Option (List Cond)

/-- The contents of `best_solution` in a state. -/
def bestValue (s : St σ) : BestValue σ :=
  match s.ga.best with
  | none => .none
  | some (.single r g) => .single (s.heap r) g
  | some (.pareto f g) => .pareto (f.map s.heap) g

/-- What a user sees of a call that started in `s` and ended in `r`. -/
def observe (s : St σ) (r : Except PyErr Unit × St σ) : Outcome σ where
  result := r.1
  best := bestValue r.2
  population := r.2.ga.population.map r.2.heap
  parents := r.2.ga.parents.map r.2.heap
  children := r.2.ga.children.map r.2.heap
  histBest := r.2.ga.histBest
  histMed := r.2.ga.histMed
  histWorst := r.2.ga.histWorst
  histFronts := r.2.ga.histFronts.map (List.map r.2.heap)
  idxGeneration := r.2.ga.idxGeneration
  noImprove := r.2.ga.noImprove
  attrs := r.2.ga.attrs
  generations := r.2.snaps
  calls := r.2.calls.drop s.calls.length
  conds := r.2.conds

/-- The state of a process that has just started, with the same random stream and conditions. -/
def blank (s : St σ) : St σ := { tape := s.tape, seed := s.seed, conds := s.conds }

/-- The state `s` around what a call started now creates. -/
def around (s : St σ) : Emb σ := { off := s.next, low := s.heap, pre := s.calls, more := [] }

theorem observe_emb (E : Emb σ) (s0 : St σ) (r : Except PyErr Unit × St σ) :
    observe (E.st s0) (r.1, E.st r.2) = observe s0 r := by
  have hb : bestValue (E.st r.2) = bestValue r.2 := by
    unfold bestValue
    simp only [Emb.st_ga, Emb.ga_best, Emb.st_heap]
    rcases r.2.ga.best with _ | ⟨x, g⟩ | ⟨f, g⟩
    · rfl
    · simp
    · simp [Function.comp_def]
  unfold observe
  rw [hb]
  simp only [Emb.st_ga, Emb.st_heap, Emb.st_calls, Emb.st_snaps, Emb.st_conds, Emb.ga_population, Emb.ga_parents,
    Emb.ga_children, Emb.ga_histFronts, List.map_map, List.length_append]
  congr 1
  · simp [Function.comp_def]
  · simp [Function.comp_def]
  · simp [Function.comp_def]
  · simp [Function.comp_def]
  · rw [← List.drop_drop, List.drop_left]

theorem around_blank {s : St σ} (h : Clean s) :
    (around s).st (blank s) = { s with ga := {}, mutLvl := .other, snaps := [] } := by
  have hh : (around s).heap (fun _ => {}) = s.heap := by
    funext r
    show (if r < s.next then s.heap r else {}) = s.heap r
    by_cases hr : r < s.next
    · rw [if_pos hr]
    · rw [if_neg hr]; exact (h r (by omega)).symm
  unfold Emb.st blank
  simp only [hh]
  cases s with
  | mk tape seed heap next ga lvl conds calls snaps =>
    simp only [around, List.append_nil, Option.map_id', Emb.ref, Nat.zero_add, Emb.ga, List.map_nil, Option.map_none]

/-! ## The parts before the run -/

/-- Nothing of the old storage object, of the old mutation object or of the trace is read before it is replaced. -/
def Blind {α : Type} (φ : St σ → St σ) (m : M σ α) : Prop := ∀ s, m (φ s) = ((m s).1, φ (m s).2)

theorem Blind.bind {α β : Type} {φ : St σ → St σ} {m : M σ α} {f : α → M σ β} (hm : Blind φ m) (hf : ∀ a, Blind φ (f a)) :
    Blind φ (m >>= f) := by
  intro s
  rw [bind_run, bind_run, hm s]
  rcases m s with ⟨_ | a, s1⟩
  · rfl
  · exact hf a s1

/-- The mutation level is overwritten. -/
def lvlTo (l : MutLvl) (s : St σ) : St σ := { s with mutLvl := l }

theorem Blind.ite {α : Type} {φ : St σ → St σ} {p : Prop} [Decidable p] {m m' : M σ α} (h : Blind φ m) (h' : Blind φ m') :
    Blind φ (if p then m else m') := by
  split
  · exact h
  · exact h'

theorem blind_newFitness (l : MutLvl) (t : Task σ) : Blind (lvlTo l) (newFitness t) := by
  have key : ∀ cs : List Cond, Blind (lvlTo (σ := σ) l) (match t.penalty with
      | none => pure ⟨t, false, cs, []⟩
      | some _ =>
        if cs.length ≤ 1 then pure ⟨t, false, cs, []⟩
        else if t.multi then
          pure ⟨t, true, cs.filter (fun c => c ≠ .optimize),
            ((List.range cs.length).filter fun i => cs[i]? = some .optimize).reverse⟩
        else if .optimize ∈ cs then do
          modifyS fun s => { s with conds := s.conds.map fun l => l.erase .optimize }
          pure ⟨t, true, cs.erase .optimize, [cs.idxOf .optimize]⟩
        else throwE .valueError : M σ (Fit σ)) := by
    intro cs
    cases t.penalty with
    | none => exact fun _ => rfl
    | some p =>
      exact Blind.ite (fun _ => rfl) (Blind.ite (fun _ => rfl) (Blind.ite (fun _ => rfl) fun _ => rfl))
  intro s
  exact key (s.conds.getD [.optimize]) s

theorem blind_setParams (l : MutLvl) (spec : PopSpec) (n : Nat) (input : Option (List (List Val))) :
    Blind (lvlTo (σ := σ) l) (setParams spec n input) := by
  intro s
  unfold setParams
  by_cases h : n < (input.getD []).length
  · simp only [h, if_true]; rfl
  · simp only [h, if_false]; rfl

theorem blind_reseed (l : MutLvl) : Blind (lvlTo (σ := σ) l) newPopulation := by
  rintro ⟨tape, seed, heap, next, ga, lvl, conds, calls, snaps⟩
  cases seed <;> rfl

section
variable {c : Cfg} {spec : PopSpec} {task : Task σ} {fitExec : Fit σ → M σ Unit} {update selection : M σ Unit}
  {cross : CrossOp} {mutOp : MutOp} {newGen : Transfer → M σ Unit}

theorem bind_assoc_at {α β γ : Type} (m : M σ α) (f : α → M σ β) (g : β → M σ γ) :
    (m >>= f) >>= g = m >>= fun a => f a >>= g := by
  funext s
  rw [bind_run, bind_run, bind_run]
  rcases m s with ⟨_ | a, s1⟩
  · rfl
  · rfl

/-- The components a facade passes to its main loop. -/
def facadeOps (fitExec : Fit σ → M σ Unit) (update selection : M σ Unit) (cross : CrossOp) (mutOp : MutOp)
    (newGen : Transfer → M σ Unit) (fit : Fit σ) (tr : Transfer) : Ops σ :=
  { fitness := fitExec fit, update := update, selection := selection, crossover := crossExec cross,
    mutation := mutExec mutOp, newGen := newGen tr }

/-- The old storage object and trace are not read. -/
theorem facade_ga (s : St σ) (g : GaData σ) (sn : List (List (Ind σ))) :
    facade c spec task fitExec update selection cross mutOp newGen { s with ga := g, snaps := sn } =
      facade c spec task fitExec update selection cross mutOp newGen s := by
  unfold facade newGaData
  rw [bind_of_ok (modifyS_run _ _), bind_of_ok (modifyS_run _ _)]

/-- The level of an old mutation object is not read. -/
theorem facade_lvl (s : St σ) (l : MutLvl) :
    ∃ l', facade c spec task fitExec update selection cross mutOp newGen { s with mutLvl := l } =
      ((facade c spec task fitExec update selection cross mutOp newGen s).1,
        { (facade c spec task fitExec update selection cross mutOp newGen s).2 with mutLvl := l' }) := by
  have key : ∀ (m : M σ (Fit σ)) (k : Fit σ → M σ Unit), Blind (lvlTo l) m →
      (∀ fit s1, ∃ l', k fit (lvlTo l s1) = ((k fit s1).1, lvlTo l' (k fit s1).2)) →
      ∀ s1, ∃ l', (m >>= k) (lvlTo l s1) = (((m >>= k) s1).1, lvlTo l' ((m >>= k) s1).2) := by
    intro m k hm hk s1
    rw [bind_run, bind_run, hm s1]
    rcases m s1 with ⟨_ | a, s2⟩
    · exact ⟨l, rfl⟩
    · exact hk a s2
  have hrest : ∀ fit s1, ∃ l', (newMutation mutOp c.mutationLvl >>= fun _ => liftE (checkTransfer c.transfer) >>= fun tr =>
      fill c.input >>= fun _ => evolve (facadeOps fitExec update selection cross mutOp newGen fit tr) >>= fun _ =>
        if c.isPrint then printBest else pure ()) (lvlTo l s1) =
      (((newMutation mutOp c.mutationLvl >>= fun _ => liftE (checkTransfer c.transfer) >>= fun tr =>
      fill c.input >>= fun _ => evolve (facadeOps fitExec update selection cross mutOp newGen fit tr) >>= fun _ =>
        if c.isPrint then printBest else pure ()) s1).1,
        lvlTo l' ((newMutation mutOp c.mutationLvl >>= fun _ => liftE (checkTransfer c.transfer) >>= fun tr =>
      fill c.input >>= fun _ => evolve (facadeOps fitExec update selection cross mutOp newGen fit tr) >>= fun _ =>
        if c.isPrint then printBest else pure ()) s1).2) := by
    intro fit s1
    have hnm : (newMutation mutOp c.mutationLvl (lvlTo l s1) = newMutation mutOp c.mutationLvl s1) ∨
        ∃ e, newMutation mutOp c.mutationLvl (lvlTo l s1) = (.error e, lvlTo l s1) ∧
          newMutation mutOp c.mutationLvl s1 = (.error e, s1) := by
      unfold newMutation
      cases hck : checkMutation mutOp c.mutationLvl with
      | error e => exact .inr ⟨e, rfl, rfl⟩
      | ok x => exact .inl rfl
    rcases hnm with hnm | ⟨e, h1, h2⟩
    · rw [bind_run, hnm, ← bind_run]
      exact ⟨_, rfl⟩
    · rw [bind_of_err h1, bind_of_err h2]
      exact ⟨l, rfl⟩
  unfold facade newGaData
  rw [bind_of_ok (modifyS_run _ _), bind_of_ok (modifyS_run _ _)]
  let s1 : St σ := { s with
    ga := { numGenerations := c.numGenerations, childrenPercent := c.childrenPercent, earlyStop := some c.stop, attrs := { arith := c.arith } }
    snaps := [] }
  have := key (newPopulation >>= fun _ => setParams spec c.numIndivid c.input >>= fun _ => newFitness task) _
    (Blind.bind (blind_reseed l) fun _ => Blind.bind (blind_setParams l _ _ _) fun _ => blind_newFitness l _) hrest s1
  obtain ⟨l', h⟩ := this
  refine ⟨l', ?_⟩
  simp only [bind_assoc_at] at h
  exact h

/-- Forget the old storage object, mutation object and trace. -/
def _root_.BaumEva.reset (s : St σ) : St σ := { s with ga := {}, mutLvl := .other, snaps := [] }

theorem facade_reset (s : St σ) :
    ∃ l', facade c spec task fitExec update selection cross mutOp newGen (reset s) =
      ((facade c spec task fitExec update selection cross mutOp newGen s).1,
        lvlTo l' (facade c spec task fitExec update selection cross mutOp newGen s).2) := by
  obtain ⟨l', h3⟩ := facade_lvl (c := c) (spec := spec) (task := task) (fitExec := fitExec) (update := update)
    (selection := selection) (cross := cross) (mutOp := mutOp) (newGen := newGen) s .other
  exact ⟨l', (facade_ga { s with mutLvl := .other } {} []).trans h3⟩

/-- A computation that does not see the old objects has the outcome it has in a process that has just started. -/
theorem _root_.BaumEva.observe_blank {m : M σ Unit} {s : St σ} (hc : Clean s) (hm : Hom (around s) id m m) {l' : MutLvl}
    (hr : m (reset s) = ((m s).1, lvlTo l' (m s).2)) : observe s (m s) = observe (blank s) (m (blank s)) := by
  have h4 : ∀ r : Except PyErr Unit × St σ, observe s (r.1, lvlTo l' r.2) = observe s r := fun _ => rfl
  have h5 : (around s).st (blank s) = reset s := around_blank hc
  have h6 : observe s = observe ((around s).st (blank s)) := by
    funext r
    unfold observe
    rw [h5]; rfl
  have h7 : ∀ x : Except PyErr Unit, x.map id = x := fun x => by cases x <;> rfl
  rw [← h4, ← hr, h6, ← h5, hm (blank s) (.inl rfl), h7]
  exact observe_emb _ _ _

/-- The outcome of a facade is the outcome in a process that has just started. -/
theorem facade_observe {s : St σ} (hc : Clean s)
    (hf : ∀ fit, Hom (around s) id (fitExec fit) (fitExec fit)) (hu : Hom (around s) id update update)
    (hs : Hom (around s) id selection selection) (hn : ∀ tr, Hom (around s) id (newGen tr) (newGen tr)) :
    observe s (facade c spec task fitExec update selection cross mutOp newGen s) =
      observe (blank s) (facade c spec task fitExec update selection cross mutOp newGen (blank s)) := by
  obtain ⟨l', h⟩ := facade_reset (c := c) (spec := spec) (task := task) (fitExec := fitExec) (update := update)
    (selection := selection) (cross := cross) (mutOp := mutOp) (newGen := newGen) s
  exact observe_blank hc (Hom.facade c spec task cross mutOp hf hu hs hn) h

end
end

/-! ## Sessions -/

/-- A state of a process in which any runs of facades with scalar scores were made: it starts with any random
stream, seed and conditions; between calls the user may use `random`, set another seed or other conditions. -/
inductive Session : St ℚ → Prop
  | start (tape : List Nat) (seed : Option (List Nat)) (conds : Option (List Cond)) :
      Session { tape := tape, seed := seed, conds := conds }
  | user {s : St ℚ} (tape : List Nat) (seed : Option (List Nat)) (conds : Option (List Cond)) :
      Session s → Session { s with tape := tape, seed := seed, conds := conds }
  | single {s : St ℚ} (f : SingleFacade) (c : Cfg) (ov : Option ℚ) : Session s → Session (f.optimize c ov s).2
  | ffga {s : St ℚ} (c : Cfg) (gray : Bool) (gens : List BinGene) : Session s → Session (BaumEva.ffga c gray gens s).2

/-- The same for `VEGA`. -/
inductive VegaSession : St (List ℚ) → Prop
  | start (tape : List Nat) (seed : Option (List Nat)) (conds : Option (List Cond)) :
      VegaSession { tape := tape, seed := seed, conds := conds }
  | user {s : St (List ℚ)} (tape : List Nat) (seed : Option (List Nat)) (conds : Option (List Cond)) :
      VegaSession s → VegaSession { s with tape := tape, seed := seed, conds := conds }
  | vega {s : St (List ℚ)} (c : Cfg) (gray : Bool) (gens : List BinGene) (ov : Option (List ℚ)) :
      VegaSession s → VegaSession (BaumEva.vega c gray gens ov s).2

theorem Session.clean {s : St ℚ} (h : Session s) : Clean s := by
  induction h with
  | start tape seed conds => exact fun _ _ => rfl
  | user tape seed conds _ ih => exact ih
  | single f c ov _ ih =>
    cases f <;> exact (facade_clean c _ _ _ _ (fun _ _ => Live.baseFitnessExec) (fun _ => Live.gaUpdate)
      (fun _ => Live.tournamentExec) (fun _ _ => Live.newGenExec) ih).clean
  | ffga c gray gens _ ih =>
    exact (facade_clean c _ _ _ _ (fun _ _ => Live.multiFitnessExec) (fun _ => Live.multiUpdate)
      (fun _ => Live.selExec .balanced) (fun _ _ => Live.multiNewGenExec) ih).clean

theorem vegaNumObjectives_state {c : Cfg} {n : Nat} (s : St (List ℚ)) :
    (vegaNumObjectives c n s).2 = s ∨
      (vegaNumObjectives c n s).2 = { s with calls := s.calls ++ [List.replicate n (.num 0)] } := by
  rcases s with ⟨tape, seed, heap, next, ga, lvl, conds, calls, snaps⟩
  cases conds with
  | some l => exact .inl rfl
  | none =>
    right
    unfold vegaNumObjectives callObj
    rw [bind_of_ok (getS_run _)]
    simp only []
    rw [bind_run, bind_of_ok (modifyS_run _ _)]
    cases c.obj1 (List.replicate n (.num 0)) with
    | error e => rfl
    | ok v => cases v <;> rfl

theorem VegaSession.clean {s : St (List ℚ)} (h : VegaSession s) : Clean s := by
  induction h with
  | start tape seed conds => exact fun _ _ => rfl
  | user tape seed conds _ ih => exact ih
  | @vega s c gray gens ov _ ih =>
    have h1 : Clean (vegaNumObjectives c gens.length s).2 := by
      rcases vegaNumObjectives_state (c := c) (n := gens.length) s with e | e <;> rw [e] <;> exact ih
    unfold BaumEva.vega
    rw [bind_run]
    rcases hv : vegaNumObjectives c gens.length s with ⟨_ | m, s1⟩
    · rw [hv] at h1; exact h1
    · rw [hv] at h1
      exact (facade_clean c _ _ _ _ (fun _ _ => Live.multiFitnessExec) (fun _ => Live.multiUpdate)
        (fun _ => Live.vegaTournamentExec) (fun _ _ => Live.newGenExec) h1).clean

/-- The two states agree in what a call may depend on: the seed, the conditions and, without a seed, the draws. -/
structure SameInput {σ : Type} (s s2 : St σ) : Prop where
  seed : s.seed = s2.seed
  conds : s.conds = s2.conds
  tape : s.seed = none → s.tape = s2.tape

theorem blank_same {σ : Type} {s s2 : St σ} (h : SameInput s s2) :
    blank s2 = { blank s with tape := s2.tape } ∧ (s.seed = none → blank s2 = blank s) := by
  unfold blank
  rw [h.seed, h.conds]
  exact ⟨rfl, fun e => by rw [h.tape (h.seed.trans e)]⟩

/-- C66 for `BinaryGA`, `CombinatoryGA`, `CategoricalGA`: whatever was done before, in either process. -/
theorem C66_single {s s2 : St ℚ} (hs : Session s) (hs2 : Session s2) (h : SameInput s s2) (f : SingleFacade) (c : Cfg)
    (ov : Option ℚ) : observe s (f.optimize c ov s) = observe s2 (f.optimize c ov s2) := by
  have key : ∀ s : St ℚ, Session s → observe s (f.optimize c ov s) = observe (blank s) (f.optimize c ov (blank s)) := by
    intro s hs
    cases f <;> exact facade_observe hs.clean (fun _ => Hom.baseFitnessExec _) Hom.gaUpdate (Hom.tournamentExec _)
      (fun _ => Hom.newGenExec _)
  rw [key s hs, key s2 hs2]
  cases hseed : s.seed with
  | none => rw [(blank_same h).2 hseed]
  | some t =>
    rw [(blank_same h).1, C50_single f c ov (s := blank s) (t0 := t) hseed s2.tape]
    rfl

/-- C66 for `FFGA`. -/
theorem C66_ffga {s s2 : St ℚ} (hs : Session s) (hs2 : Session s2) (h : SameInput s s2) (c : Cfg) (gray : Bool)
    (gens : List BinGene) : observe s (ffga c gray gens s) = observe s2 (ffga c gray gens s2) := by
  have key : ∀ s : St ℚ, Session s → observe s (ffga c gray gens s) = observe (blank s) (ffga c gray gens (blank s)) :=
    fun s hs => facade_observe hs.clean (fun _ => Hom.multiFitnessExec _) Hom.multiUpdate (Hom.selExec .balanced)
      (fun _ => Hom.multiNewGenExec _)
  rw [key s hs, key s2 hs2]
  cases hseed : s.seed with
  | none => rw [(blank_same h).2 hseed]
  | some t =>
    rw [(blank_same h).1, C50_ffga c gray gens (s := blank s) (t0 := t) hseed s2.tape]
    rfl

theorem Hom.vegaNumObjectives {E : Emb (List ℚ)} (c : Cfg) (n : Nat) :
    Hom E id (BaumEva.vegaNumObjectives c n) (BaumEva.vegaNumObjectives c n) := by
  refine bind getS fun s => ?_
  rw [Emb.st_conds]
  cases s.conds with
  | some l => exact pure rfl
  | none =>
    refine bind (callObj _ _) fun v => ?_
    cases v with
    | tup l => exact pure rfl
    | sc _ => exact throwE _

theorem Hom.vega {E : Emb (List ℚ)} (c : Cfg) (gray : Bool) (gens : List BinGene) (ov : Option (List ℚ)) :
    Hom E id (BaumEva.vega c gray gens ov) (BaumEva.vega c gray gens ov) :=
  bind (vegaNumObjectives c _) fun _ => facade c _ _ _ _ (fun _ => multiFitnessExec _) multiUpdate
    (vegaTournamentExec _ _) (fun _ => newGenExec _)

theorem vegaNumObjectives_reset {c : Cfg} {n : Nat} : Blind reset (vegaNumObjectives c n) := by
  rintro ⟨tape, seed, heap, next, ga, lvl, conds, calls, snaps⟩
  cases conds with
  | some l => rfl
  | none =>
    unfold vegaNumObjectives callObj
    rw [bind_of_ok (getS_run _), bind_of_ok (getS_run _)]
    simp only [reset]
    rw [bind_run, bind_of_ok (modifyS_run _ _), bind_run, bind_of_ok (modifyS_run _ _)]
    cases c.obj1 (List.replicate n (.num 0)) with
    | error e => rfl
    | ok v => cases v <;> rfl

/-- The number of objectives (or the exception of the trial call) depends on the conditions only. -/
theorem vegaNumObjectives_conds {c : Cfg} {n : Nat} {s s2 : St (List ℚ)} (h : s.conds = s2.conds) :
    (vegaNumObjectives c n s).1 = (vegaNumObjectives c n s2).1 := by
  unfold vegaNumObjectives callObj
  rw [bind_of_ok (getS_run _), bind_of_ok (getS_run _), h]
  cases s2.conds with
  | some l => rfl
  | none =>
    simp only []
    rw [bind_run, bind_of_ok (modifyS_run _ _), bind_run, bind_of_ok (modifyS_run _ _)]
    cases c.obj1 (List.replicate n (.num 0)) with
    | error e => rfl
    | ok v => cases v <;> rfl

/-- C66 for `VEGA`; if the trial call of the objective raises, there is no new storage object to look at. -/
theorem C66_vega {s s2 : St (List ℚ)} (hs : VegaSession s) (hs2 : VegaSession s2) (h : SameInput s s2) (c : Cfg)
    (gray : Bool) (gens : List BinGene) (ov : Option (List ℚ)) :
    (vega c gray gens ov s).1 = (vega c gray gens ov s2).1 ∧
      ((vega c gray gens ov s).1 = .ok () →
        observe s (vega c gray gens ov s) = observe s2 (vega c gray gens ov s2)) := by
  have hn := vegaNumObjectives_conds (c := c) (n := gens.length) h.conds
  cases hp : (vegaNumObjectives c gens.length s).1 with
  | error e =>
    have h1 : vegaNumObjectives c gens.length s = (.error e, (vegaNumObjectives c gens.length s).2) := by
      rw [← hp]
    have h2 : vegaNumObjectives c gens.length s2 = (.error e, (vegaNumObjectives c gens.length s2).2) := by
      rw [← hp, hn]
    unfold vega
    rw [bind_of_err h1, bind_of_err h2]
    exact ⟨rfl, fun hb => by cases hb⟩
  | ok m =>
    have key : ∀ s : St (List ℚ), VegaSession s → (vegaNumObjectives c gens.length s).1 = .ok m →
        observe s (vega c gray gens ov s) = observe (blank s) (vega c gray gens ov (blank s)) := by
      intro s hs hm
      have h1 : vegaNumObjectives c gens.length s = (.ok m, (vegaNumObjectives c gens.length s).2) := by rw [← hm]
      have h2 : vegaNumObjectives c gens.length (reset s) = (.ok m, reset (vegaNumObjectives c gens.length s).2) := by
        rw [vegaNumObjectives_reset s, hm]
      obtain ⟨l', h3⟩ := facade_reset (c := c) (spec := .binary gray gens)
        (task := vegaTask c.obj1 c.obj2 c.inputTruthy c.penalty ov c.arith) (fitExec := multiFitnessExec) (update := multiUpdate)
        (selection := vegaTournamentExec m 3) (cross := .onePoint) (mutOp := .binString) (newGen := newGenExec)
        (vegaNumObjectives c gens.length s).2
      refine observe_blank (l' := l') hs.clean (Hom.vega c gray gens ov) ?_
      unfold vega
      rw [bind_of_ok h1, bind_of_ok h2, h3]
    have hobs : observe s (vega c gray gens ov s) = observe s2 (vega c gray gens ov s2) := by
      rw [key s hs hp, key s2 hs2 (by rw [← hn, hp])]
      cases hseed : s.seed with
      | none => rw [(blank_same h).2 hseed]
      | some t =>
        have hb := C50_vega c gray gens ov (s := blank s) (t0 := t) hseed s2.tape
        rw [(blank_same h).1]
        rcases hb with ⟨e, e1, e2, hd⟩ | ⟨a, s', e1, e2⟩
        · obtain ⟨u, hu⟩ := hd
          have h1 : ∀ r : Except PyErr Unit × St (List ℚ), r.1 = .error e → r = (.error e, r.2) := by
            rintro ⟨r, s'⟩ rfl; rfl
          rw [h1 _ e1, h1 _ e2, hu]; rfl
        · rw [e1, e2]; rfl
    exact ⟨congrArg Outcome.result hobs, fun _ => hobs⟩

/-- C66, without a session: only the seed (or the draws) and the conditions matter, so every call has the outcome
it has in a process that has just started. -/
theorem C66_first {s : St ℚ} (hs : Session s) (f : SingleFacade) (c : Cfg) (ov : Option ℚ) :
    observe s (f.optimize c ov s) = observe (blank s) (f.optimize c ov (blank s)) :=
  C66_single hs (.start _ _ _) ⟨rfl, rfl, fun _ => rfl⟩ f c ov

/-! ## Calling the same object again (C41) -/

/-- C41, the part that holds (single objective, no constraints): a second `optimize()` with the draws of the first
has the outcome of the first. -/
theorem C41_again_partial {f : SingleFacade} {c : Cfg} {ov : Option ℚ} {s s' : St ℚ} (hs : Session s)
    (hc : c.penalty = none ∨ (s.conds.getD [.optimize]).length ≤ 1) (h : f.optimize c ov s = (.ok (), s')) :
    observe { s' with tape := s.tape, seed := s.seed } (f.optimize c ov { s' with tape := s.tape, seed := s.seed }) =
      observe s (f.optimize c ov s) := by
  have hs' : Session { s' with tape := s.tape, seed := s.seed } := by
    have := Session.user s.tape s.seed s'.conds (Session.single f c ov hs)
    rw [h] at this
    exact this
  exact C66_single hs' hs ⟨rfl, (C41_unconditional_partial hc h).1, fun _ => rfl⟩ f c ov

/-- C41, the part that holds (`FFGA`): likewise, with or without constraints. -/
theorem C41_again_ffga_partial {c : Cfg} {gray : Bool} {gens : List BinGene} {s s' : St ℚ} (hs : Session s)
    (h : ffga c gray gens s = (.ok (), s')) :
    observe { s' with tape := s.tape, seed := s.seed } (ffga c gray gens { s' with tape := s.tape, seed := s.seed }) =
      observe s (ffga c gray gens s) := by
  have hs' : Session { s' with tape := s.tape, seed := s.seed } := by
    have := Session.user s.tape s.seed s'.conds (Session.ffga c gray gens hs)
    rw [h] at this
    exact this
  exact C66_ffga hs' hs ⟨rfl, (C41_ffga_partial h).1, fun _ => rfl⟩ c gray gens

/-- C41, the part that holds (`VEGA`): likewise. -/
theorem C41_again_vega_partial {c : Cfg} {gray : Bool} {gens : List BinGene} {ov : Option (List ℚ)} {s s' : St (List ℚ)}
    (hs : VegaSession s) (h : vega c gray gens ov s = (.ok (), s')) :
    observe { s' with tape := s.tape, seed := s.seed } (vega c gray gens ov { s' with tape := s.tape, seed := s.seed }) =
      observe s (vega c gray gens ov s) := by
  have hs' : VegaSession { s' with tape := s.tape, seed := s.seed } := by
    have := VegaSession.user s.tape s.seed s'.conds (VegaSession.vega c gray gens ov hs)
    rw [h] at this
    exact this
  exact ((C66_vega hs hs' ⟨rfl, (C41_vega_partial h).1.symm, fun _ => rfl⟩ c gray gens ov).2 (by rw [h])).symm

/-! ## Concrete cases -/

/-- A process in which two other runs were made before, the first of which raised for lack of draws. -/
def exBusy : St ℚ :=
  { (exFacade.optimize exCfg none { (ffga exMulti false exGenes { tape := [] }).2 with tape := exTape }).2 with
    tape := exTape }

theorem exBusy_session : Session exBusy :=
  .user _ _ _ (.single exFacade exCfg none (.user _ _ _ (.ffga exMulti false exGenes (.start [] none none))))

set_option maxRecDepth 100000 in
/-- It is not the state of a fresh process: individuals, calls and storage object of the earlier runs are there. -/
example : exBusy.next = 17 ∧ exBusy.calls.length = 8 ∧ exBusy.ga.population.length = 5 ∧ exBusy.mutLvl ≠ .other := by
  decide +kernel

set_option maxRecDepth 100000 in
theorem exBusy_input : SameInput exBusy { tape := exTape } where
  seed := by decide +kernel
  conds := by decide +kernel
  tape := fun _ => rfl

/-- The third run has the outcome of a first run. -/
example : observe exBusy (exFacade.optimize exCfg none exBusy) = observe { tape := exTape } exRun :=
  C66_single exBusy_session (.start exTape none none) exBusy_input exFacade exCfg none

end BaumEva
