import Verif.Props.MultiRuns
/-!
# C62: which parameters of VEGA and FFGA take effect
-/
namespace BaumEva
open Spec
variable {σ : Type}

/-! ## tournament_size -/

/-- C62 for `tournament_size`: some value of it changes some run. -/
def TournamentSizeUsed : Prop :=
  (∃ (c : Cfg) (t : Int) (gray : Bool) (gens : List BinGene) (s : St ℚ),
    ffga { c with tournamentSize := t } gray gens s ≠ ffga c gray gens s) ∨
  (∃ (c : Cfg) (t : Int) (gray : Bool) (gens : List BinGene) (ov : Option (List ℚ)) (s : St (List ℚ)),
    vega { c with tournamentSize := t } gray gens ov s ≠ vega c gray gens ov s)

/-- C62 is false for `tournament_size`: no run of FFGA or VEGA depends on it. -/
theorem C62_tournament_size_refuted : ¬ TournamentSizeUsed := by
  rintro (⟨c, t, gray, gens, s, h⟩ | ⟨c, t, gray, gens, ov, s, h⟩) <;> exact h rfl

/-- It does change runs of the single-objective facades. -/
def exSize (t : Int) : Except PyErr Unit × St ℚ :=
  binaryGA { numGenerations := 2, numIndivid := 4, tournamentSize := t, childrenPercent := 6/10, mutationLvl := .float (1/10),
             obj1 := fun l => match l with | [.num q] => .ok (.sc q) | _ => .error .typeError } false exGenes none
    { tape := exDraws 100 (exSeed 1) }

set_option maxRecDepth 100000 in
example : (exSize 2).1 = .ok () ∧ (exSize 3).1 = .ok () ∧ (exSize 2).2.snaps ≠ (exSize 3).2.snaps := by decide +kernel

/-! ## input_data -/

/-- The objective called without `input_data` never returns a vector. -/
def NoVector (f : List Val → Except PyErr Ret) : Prop := ∀ p l, f p ≠ .ok (.tup l)

theorem NoVector.uniform {f : List Val → Except PyErr Ret} (h : NoVector f) : UniformVecs f :=
  fun _ _ _ _ h1 => absurd h1 (h _ _)

theorem noVector_no_run [DecidableEq σ] {ops : Ops σ} {fit : Fit σ} {op : CrossOp} {mop : MutOp} {s0 s1 : St σ}
    {spec : PopSpec} {n N : Nat} {input : Option (List (List Val))} {cp : ℚ} {es : Option Int}
    (hops : MultiRun ops fit op mop) (hst : Started spec n N input cp es ar s0) (hn : 2 ≤ n) (hno : NoVector fit.task.obj1) :
    ¬ After ops s0 1 s1 := by
  intro h
  have hlen : s0.ga.population.length = n := by
    obtain ⟨sc, hc⟩ := hst.created
    rw [(createPopulation_ok hc).2.2.1, List.length_range']
  have hinv := h.multi hops hst.fresh
  have hl : s1.ga.population.length = n := by
    cases h with
    | @first a _ h1 h2 =>
      rw [hops.fitness] at h1
      rw [hops.update] at h2
      rw [← hlen]
      exact (multi_first hops.uniform hst.fresh h1 h2).2.1.length_eq
    | next h1 _ => exact absurd h1.pos (by omega)
  obtain ⟨r, hr⟩ : ∃ r, r ∈ s1.ga.population := by
    cases hp : s1.ga.population with
    | nil => rw [hp] at hl; simp at hl; omega
    | cons r _ => exact ⟨r, by simp⟩
  obtain ⟨b, p, _, hb⟩ := hinv.vecs (by omega) r hr
  exact hno _ _ hb

/-- C62 for `input_data`: an objective of two arguments that returns a vector for every phenotype does not make a run
fail with the `TypeError` of a call with one argument. -/
def InputDataUsed : Prop := ∀ (c : Cfg) (gray : Bool) (gens : List BinGene), c.inputTruthy = true →
  (∀ p, c.obj1 p = .error .typeError) → (∀ p, ∃ x y, c.obj2 p = .ok (.tup [x, y])) →
  (∀ s : St ℚ, (ffga c gray gens s).1 ≠ .error .typeError) ∧
  ∀ (ov : Option (List ℚ)) (s : St (List ℚ)), (vega c gray gens ov s).1 ≠ .error .typeError

/-- With an objective that needs `input_data` (its call with one argument does not return a vector) FFGA never succeeds. -/
theorem C62_input_data_ffga {c : Cfg} {gray : Bool} {gens : List BinGene} {s s' : St ℚ} (hno : NoVector c.obj1)
    (hn : 2 ≤ c.numIndivid) : ffga c gray gens s ≠ (.ok (), s') := by
  intro h
  obtain ⟨fit, tr, s0, sa, sb, a1, a2, a3, a4, a5, a6, a7, a8, a9⟩ := facade_ok h
  obtain ⟨s1, k, b1, _⟩ := evolve_after a8
  have hno' : NoVector fit.task.obj1 := by rw [(newFitness_ok a1).1]; exact hno
  exact noVector_no_run (ffgaOps_run hno'.uniform .balanced .onePoint .binString tr) a7 hn hno' b1

/-- The same for VEGA. -/
theorem C62_input_data_vega {c : Cfg} {gray : Bool} {gens : List BinGene} {ov : Option (List ℚ)} {s s' : St (List ℚ)}
    (hno : NoVector c.obj1) (hn : 2 ≤ c.numIndivid) : vega c gray gens ov s ≠ (.ok (), s') := by
  intro h
  unfold vega at h
  obtain ⟨m, s2, _, h2⟩ := bind_ok.mp h
  obtain ⟨fit, tr, s0, sa, sb, a1, a2, a3, a4, a5, a6, a7, a8, a9⟩ := facade_ok h2
  obtain ⟨s1, k, b1, _⟩ := evolve_after a8
  have hno' : NoVector fit.task.obj1 := by rw [(newFitness_ok a1).1]; exact hno
  exact noVector_no_run (vegaTour_run hno'.uniform m 3 .onePoint .binString tr) a7 hn hno' b1

/-- An objective `f(data, x)` of two objectives. -/
def exData : Cfg :=
  { numGenerations := 1, numIndivid := 3, obj1 := fun _ => .error .typeError, childrenPercent := 6/10, inputTruthy := true
    obj2 := fun _ => .ok (.tup [0, 1]), mutationLvl := .float (1/10) }

set_option maxRecDepth 100000 in
/-- C62 is false for `input_data`. -/
theorem C62_input_data_refuted : ¬ InputDataUsed := by
  intro h
  refine (h exData false exGenes rfl (fun _ => rfl) fun _ => ⟨0, 1, rfl⟩).1 { tape := exDraws 100 0 } ?_
  decide +kernel

set_option maxRecDepth 100000 in
example : (vega exData false exGenes none { tape := exDraws 100 0 }).1 = .error .typeError := by decide +kernel

/-! ## penalty -/

/-- The penalties raise the same exceptions. -/
def SameErrors (p q : Penalty) : Prop := ∀ ar conds vs gen best,
  (p.value ar conds vs gen best).map (fun _ => ()) = (q.value ar conds vs gen best).map fun _ => ()

theorem liftE_discard {α β : Type} {x y : Except PyErr α} (h : x.map (fun _ => ()) = y.map fun _ => ()) (k : M σ β) :
    (liftE x >>= fun _ => k) = (liftE y >>= fun _ => k) := by
  funext s
  rw [bind_run, bind_run]
  cases x <;> cases y <;> simp_all [Except.map, liftE_run]

theorem bind_assoc_run {α β γ : Type} (m : M σ α) (f : α → M σ β) (g : β → M σ γ) (s : St σ) :
    ((m >>= f) >>= g) s = (m >>= fun a => f a >>= g) s := by
  rw [bind_run, bind_run, bind_run]
  cases m s with
  | mk r s1 => cases r <;> rfl

theorem bind_congr_run {α β : Type} {m : M σ α} {f g : α → M σ β} {s : St σ} (h : ∀ a s', f a s' = g a s') :
    (m >>= f) s = (m >>= g) s := by
  rw [bind_run, bind_run]
  cases m s with
  | mk r s1 => cases r with
    | ok a => exact h a s1
    | error e => rfl

theorem evalValues_discard {fit fit' : Fit σ} {p p' : Penalty} (hp : SameErrors p p')
    (hf : fit.task.penalty = some p) (hf' : fit'.task.penalty = some p') (hm : fit.task.multi = fit'.task.multi)
    (ha : fit.task.arith = fit'.task.arith) (hc : fit.isCond = fit'.isCond) (hcs : fit.conditions = fit'.conditions) (hi : fit.idxOpt = fit'.idxOpt)
    {β : Type} (r : Nat) (v : Option Ret) (k : M σ β) (s : St σ) :
    (evalValues fit r v >>= fun _ => k) s = (evalValues fit' r v >>= fun _ => k) s := by
  unfold evalValues
  rw [hc]
  cases fit'.isCond with
  | false => rfl
  | true =>
    simp only [if_true]
    rcases v with _ | (q | vs)
    · rfl
    · rfl
    · simp only
      unfold evalCond
      rw [hi, hm, hcs, hf, hf', ha]
      rw [bind_assoc_run, bind_assoc_run]
      refine bind_congr_run fun pr s1 => ?_
      rw [bind_assoc_run, bind_assoc_run]
      refine bind_congr_run fun _ s2 => ?_
      rw [bind_assoc_run, bind_assoc_run]
      refine bind_congr_run fun _ s3 => ?_
      rw [bind_assoc_run, bind_assoc_run]
      refine bind_congr_run fun st s4 => ?_
      rw [liftE_discard (hp _ _ _ _ _)]

/-- A fitness object of FFGA with another penalty. -/
def Fit.withPenalty (f : Fit σ) (p : Penalty) : Fit σ := { f with task := { f.task with penalty := some p } }

theorem evalInd_ffga {fit : Fit ℚ} {p p' : Penalty} {ar : Arith} (hp : SameErrors p p') (hsc : fit.task.score = ffgaScore ar) (r : Nat) :
    evalInd (fit.withPenalty p) r = evalInd (fit.withPenalty p') r := by
  funext s
  unfold evalInd
  refine bind_congr_run fun ind s1 => ?_
  cases ind.score with
  | some _ => rfl
  | none =>
    simp only
    refine bind_congr_run fun g s2 => ?_
    refine bind_congr_run fun v s3 => ?_
    have key : ∀ q : Penalty, (fun pen => (do
        let ind ← getInd r
        let sc ← liftE ((fit.withPenalty q).task.score ind pen)
        modInd r fun ind => { ind with score := some sc } : M ℚ Unit)) = fun _ => (do
        let ind ← getInd r
        let sc ← liftE (ffgaScore ar ind 0)
        modInd r fun ind => { ind with score := some sc } : M ℚ Unit) := by
      intro q
      funext pen
      have : ∀ ind, (fit.withPenalty q).task.score ind pen = ffgaScore ar ind 0 := by
        intro ind
        show fit.task.score ind pen = _
        rw [hsc]; rfl
      simp only [this]
    rw [key p, key p']
    exact evalValues_discard (fit := fit.withPenalty p) (fit' := fit.withPenalty p') hp rfl rfl rfl rfl rfl rfl rfl r v _ s3

theorem objVector_congr {t t' : Task σ} (h : t.obj1 = t'.obj1) : objVector t = objVector t' := by
  funext r
  unfold objVector
  rw [h]

theorem assignRanks_congr {t t' : Task σ} (h : t.obj1 = t'.obj1) : assignRanks t = assignRanks t' := by
  have h1 : rankPair t = rankPair t' := by
    funext x y
    unfold rankPair
    rw [objVector_congr h]
  have h2 : rankLoop t = rankLoop t' := by
    funext l
    induction l with
    | nil => rfl
    | cons x xs ih => unfold rankLoop; rw [h1, ih]
  unfold assignRanks
  rw [h2]

theorem multiFitness_ffga {fit : Fit ℚ} {p p' : Penalty} {ar : Arith} (hp : SameErrors p p') (hsc : fit.task.score = ffgaScore ar) :
    multiFitnessExec (fit.withPenalty p) = multiFitnessExec (fit.withPenalty p') := by
  unfold multiFitnessExec baseFitnessExec
  have : evalInd (fit.withPenalty p) = evalInd (fit.withPenalty p') := funext (evalInd_ffga hp hsc)
  rw [this, assignRanks_congr (t := (fit.withPenalty p).task) (t' := (fit.withPenalty p').task) rfl]

theorem newFitness_withPenalty {t : Task σ} {p : Penalty} (hm : t.multi = true) (s : St σ) (q : Penalty) :
    ∃ f : Fit σ, f.task.score = t.score ∧ newFitness { t with penalty := some p } s = (.ok (f.withPenalty p), s) ∧
      newFitness { t with penalty := some q } s = (.ok (f.withPenalty q), s) := by
  by_cases h : (s.conds.getD [.optimize]).length ≤ 1
  · refine ⟨⟨t, false, s.conds.getD [.optimize], []⟩, rfl, ?_, ?_⟩ <;>
    · unfold newFitness
      rw [bind_of_ok (getS_run s)]
      simp only
      rw [ite_run, if_pos h]
      rfl
  · refine ⟨⟨t, true, (s.conds.getD [.optimize]).filter (fun c => c ≠ .optimize),
      ((List.range (s.conds.getD [.optimize]).length).filter fun i => (s.conds.getD [.optimize])[i]? = some .optimize).reverse⟩,
      rfl, ?_, ?_⟩ <;>
    · unfold newFitness
      rw [bind_of_ok (getS_run s)]
      simp only
      rw [ite_run, if_neg h, ite_run, if_pos hm]
      rfl

/-- C62 for the penalty of FFGA is false: two penalties that raise the same exceptions give identical runs, whatever
values they have. -/
theorem C62_ffga_ignores_penalty {c : Cfg} {gray : Bool} {gens : List BinGene} {p p' : Penalty} (hp : SameErrors p p')
    (s : St ℚ) : ffga { c with penalty := some p } gray gens s = ffga { c with penalty := some p' } gray gens s := by
  unfold ffga facade
  simp only
  refine bind_congr_run fun _ s1 => ?_
  refine bind_congr_run fun _ s2 => ?_
  refine bind_congr_run fun _ s3 => ?_
  obtain ⟨f, hf, h1, h2⟩ := newFitness_withPenalty (t := ffgaTask c.obj1 c.obj2 c.inputTruthy none c.arith) (p := p) rfl s3 p'
  have e1 : newFitness (ffgaTask c.obj1 c.obj2 c.inputTruthy (some p) c.arith) s3 = (.ok (f.withPenalty p), s3) := h1
  have e2 : newFitness (ffgaTask c.obj1 c.obj2 c.inputTruthy (some p') c.arith) s3 = (.ok (f.withPenalty p'), s3) := h2
  rw [bind_of_ok e1, bind_of_ok e2, multiFitness_ffga hp hf]

/-- Dynamic penalties with the same exponent `betta` raise the same exceptions. -/
theorem sameErrors_dynamic (d d' c c' : ℚ) (a a' b : Exponent) : SameErrors (newDynamic d c a b) (newDynamic d' c' a' b) := by
  intro ar conds vs gen best
  simp only [newDynamic, Penalty.value, if_true, PenImpl.execute, ne_eq, not_true_eq_false, if_false]
  split
  · rfl
  · cases sumCond ar b conds vs 0 <;> rfl

/-- C62 for penalties of FFGA. -/
def FfgaPenaltyUsed : Prop := ∃ (c : Cfg) (d d' : ℚ) (cc : ℚ) (al be : Exponent) (gray : Bool) (gens : List BinGene) (s : St ℚ),
  ffga { c with penalty := some (newDynamic d cc al be) } gray gens s ≠
    ffga { c with penalty := some (newDynamic d' cc al be) } gray gens s

theorem C62_ffga_penalty_refuted : ¬ FfgaPenaltyUsed := by
  rintro ⟨c, d, d', cc, al, be, gray, gens, s, h⟩
  exact h (C62_ffga_ignores_penalty (sameErrors_dynamic _ _ _ _ _ _ _) s)

/-! ## AdaptivePenalty -/

/-- During evaluation in a multi-objective run the penalty is told about the dictionary of the Pareto set. -/
theorem multiFitness_pareto {fit : Fit σ} {s s' : St σ} {u : Unit} (h : multiFitnessExec fit s = (.ok u, s'))
    (hnd : (unscored s.heap s.ga.population).Nodup) (hv : UniformVecs fit.task.obj1) {fr : List Nat} {g : Option Nat}
    (hb : s.ga.best = some (.pareto fr g)) :
    ∀ r ∈ unscored s.heap s.ga.population, ∃ a b, Evaluated fit s.ga .pareto a b := by
  unfold multiFitnessExec at h
  obtain ⟨_, s1, h1, k1⟩ := bind_ok.mp h
  obtain ⟨_, s2, h2, h3⟩ := bind_ok.mp k1
  obtain ⟨e1, d1, o1⟩ := ensurePhenotype_ok h1
  have hga1 : s1.ga = s.ga := by rw [e1]
  obtain ⟨c2, r2, o2, v2⟩ := assignRanks_ok h2 (hv.fit _ _)
  rw [hga1] at r2 o2 v2
  have hga2 : s2.ga = s.ga := by rw [c2, hga1]
  have hsc : ∀ r, (s2.heap r).score = (s.heap r).score := by
    intro r
    by_cases hr : r ∈ s.ga.population
    · rw [r2 r hr]; simp only; rw [(d1 r hr).keeps]
    · rw [o2 r hr, o1 r hr]
  have hus : unscored s2.heap s2.ga.population = unscored s.heap s.ga.population := by
    rw [hga2]
    unfold unscored
    exact List.filter_congr fun r _ => by rw [hsc]
  obtain ⟨_, _, _, _, n3⟩ := baseFitness_ok h3 (by rw [hus]; exact hnd)
  rw [hus] at n3
  intro r hr
  obtain ⟨m, best, _, hbest, he⟩ := n3 r hr
  have : best = .pareto := by
    rw [hbest fun r g e => by rw [hga2, hb] at e; simp at e]
    unfold bestArg
    rw [hga2, hb]
  subst this
  rw [hga2] at he
  exact ⟨m, _, he⟩

theorem evaluated_adaptive {fit : Fit σ} {ga : GaData σ} {d b1 b2 : ℚ} {bt : Exponent} {a b : Ind σ} (hc : fit.isCond = true)
    (hp : fit.task.penalty = some ⟨"AdaptivePenalty", .adaptive d b1 b2 bt⟩) (hi : ga.idxGeneration ≠ 0)
    (h : Evaluated fit ga .pareto a b) : False := by
  obtain ⟨g, _, h⟩ := h
  have key : ∀ a b, ¬ EvalTo fit ga.idxGeneration .pareto g a b := by
    rintro a b ⟨_, _, _, _, _, _, _, _, _, _, ⟨hx, _⟩ | ⟨_, vs, pr, p, _, _, _, _, _, e1, e2⟩⟩
    · rw [hc] at hx; simp at hx
    · rw [hp] at e1
      injection e1 with e1
      subst e1
      simp only [Penalty.value, PenImpl.execute, Option.getD_some] at e2
      rw [if_neg (by decide), if_pos trivial, if_neg (by decide)] at e2
      split at e2
      · simp at e2
      · cases hs : sumCond fit.task.arith bt fit.conditions pr.2 0 with
        | error e => rw [hs] at e2; simp [bind, Except.bind] at e2
        | ok x => rw [hs] at e2; simp [bind, Except.bind] at e2
  split at h
  · exact key _ _ h
  · exact key _ _ h

/-- With `AdaptivePenalty` a conditional multi-objective run never evaluates an individual after the first generation. -/
theorem C62_adaptive_no_children [DecidableEq σ] {ops : Ops σ} {fit : Fit σ} {op : CrossOp} {mop : MutOp} {s0 s s' : St σ}
    {k : Nat} {d b1 b2 : ℚ} {bt : Exponent} (hops : MultiRun ops fit op mop) (h0 : Fresh s0) (hc : fit.isCond = true)
    (hp : fit.task.penalty = some ⟨"AdaptivePenalty", .adaptive d b1 b2 bt⟩) (h : After ops s0 k s)
    (h' : After ops s0 (k + 1) s') : ∀ r ∈ s'.ga.population, r ∈ s.ga.population := by
  have hg := After.step h h'
  have hs := h.multi hops h0
  obtain ⟨_, a0, s1, s2, s3, es, t, _, _, hb2, _, hB, _, _, hes, e2, hun, h5, hF, _, _, hperm, hheap, hat, _, hn, _, hcore⟩ :=
    multi_generation hops hs hg
  obtain ⟨n0, hn0, hrange, hn1⟩ := hB.range
  have hnd2 : (unscored s2.heap s2.ga.population).Nodup := by rw [hun, hrange]; exact List.nodup_range'
  obtain ⟨fr, g, hbest, _⟩ := hs.front
  have hb2 : s2.ga.best = some (.pareto fr g) := by rw [e2, hB.ga]; exact hbest
  have hi : s2.ga.idxGeneration = k := by
    rw [e2, hB.ga]; exact hs.idx
  intro r hr
  rcases List.mem_append.mp (hperm.subset hr) with hm | hm
  · exfalso
    rw [← hun] at hm
    obtain ⟨a, b, he⟩ := multiFitness_pareto h5 hnd2 hops.uniform hb2 r hm
    exact evaluated_adaptive hc hp (by rw [hi]; have := h.pos; omega) he
  · exact hes r hm

/-- So FFGA with `AdaptivePenalty` cannot complete a second generation when there are children to evaluate. -/
theorem C62_adaptive_ffga {fit : Fit ℚ} {sel : SelOp} {op : CrossOp} {mop : MutOp} {tr : Transfer} {s0 s' : St ℚ}
    {k : Nat} {d b1 b2 : ℚ} {bt : Exponent} (hv : UniformVecs fit.task.obj1) (h0 : Fresh s0) (hc : fit.isCond = true)
    (hp : fit.task.penalty = some ⟨"AdaptivePenalty", .adaptive d b1 b2 bt⟩)
    (hch : 1 ≤ s0.ga.attrs.arith.share s0.ga.childrenPercent s0.ga.attrs.numIndivid 1) (hk : 2 ≤ k) :
    ¬ After (ffgaOps fit sel op mop tr) s0 k s' := by
  intro h'
  obtain ⟨j, rfl⟩ : ∃ j, k = j + 1 := ⟨k - 1, by omega⟩
  cases h' with
  | first => omega
  | @next _ s _ h hg =>
    have hops := ffgaOps_run hv sel op mop tr
    have hs := h.multi hops h0
    obtain ⟨_, a0, s1, s2, s3, es, t, hsel, _, hb2, hb3, hB, _, _, hes, e2, hun, h5, hF, _, _, hperm, hheap, hat, _, hn, _⟩ :=
      multi_generation hops hs hg
    obtain ⟨n0, hn0, hrange, hn1⟩ := hB.range
    have hlen : 1 ≤ s1.ga.children.length := by
      have h1 := (selExec_isSelection sel s a0 _ hs.alive hsel).2
      have h2 := hB.size
      rw [hb3, h1] at h2
      obtain ⟨⟨p1, p2, p3⟩, _⟩ := h.keeps sameSetup_frame (ffgaOps_frame sameSetup_frame fit sel op mop tr)
      have hni := (h.multi_all hops h0 (P := fun _ => True) (fun _ _ _ _ => trivial) fun _ _ _ _ _ _ => trivial).1
      have : numPairs s.ga 1 = s0.ga.attrs.arith.share s0.ga.childrenPercent s0.ga.attrs.numIndivid 1 := by
        rw [numPairs_share, hni, p2]
      omega
    have hmem : n0 ∈ s1.ga.children := by rw [hrange, List.mem_range'_1]; omega
    have := C62_adaptive_no_children hops h0 hc hp h (.next h hg) n0 (hperm.symm.subset (List.mem_append_left _ hmem))
    have := hs.alive _ this
    omega

/-- C62 for `AdaptivePenalty`: it does not make a run fail with `KeyError`. -/
def AdaptiveUsable : Prop := ∀ (c : Cfg) (gray : Bool) (gens : List BinGene) (s : St ℚ) (d b1 b2 : ℚ) (bt : Exponent) (p : Penalty),
  newAdaptive d b1 b2 bt = .ok p → c.penalty = some p → s.conds = some [.optimize, .optimize, .le] → c.inputTruthy = false →
  (∀ x, ∃ a b, ∀ q, x = [.num q] → c.obj1 x = .ok (.tup [a, b, q - 5])) → (ffga c gray gens s).1 ≠ .error .keyError

/-- Two objectives and the constraint `x - 5 ≤ 0`. -/
def exAdaptive (n : Nat) : Cfg :=
  { numGenerations := n, numIndivid := 4, childrenPercent := 6/10, mutationLvl := .float (1/10)
    penalty := some ⟨"AdaptivePenalty", .adaptive 1 2 3 2⟩
    obj1 := fun l => match l with | [.num q] => .ok (.tup [q, 10 - q, q - 5]) | _ => .error .typeError }

def exAdaptiveRun (n : Nat) : Except PyErr Unit × St ℚ :=
  ffga (exAdaptive n) false exGenes { tape := exDraws 200 0, conds := some [.optimize, .optimize, .le] }

set_option maxRecDepth 100000 in
example : (exAdaptiveRun 1).1 = .ok () := by decide +kernel

set_option maxRecDepth 100000 in
/-- C62 is false for `AdaptivePenalty`: the run of one generation succeeds, of two raises `KeyError`. -/
theorem C62_adaptive_refuted : ¬ AdaptiveUsable := by
  intro h
  refine h (exAdaptive 2) false exGenes { tape := exDraws 200 0, conds := some [.optimize, .optimize, .le] } 1 2 3 2
    ⟨"AdaptivePenalty", .adaptive 1 2 3 2⟩ (by simp [newAdaptive]) rfl rfl rfl ?_ ?_
  · intro x
    rcases x with _ | ⟨_ | q, _ | _⟩
    all_goals first
      | (refine ⟨0, 0, fun q e => ?_⟩; simp at e; done)
      | (rename_i q; exact ⟨q, 10 - q, fun q' e => by simp at e; subst e; rfl⟩)
  · decide +kernel

/-! ## what does take effect -/

/-- C62, the part that holds: in every generation of every conditional VEGA run without target every individual was
evaluated with the objective chosen by `input_data`, and its score is minus (objective + penalty), with the value the
configured penalty object has for the constraint values of this individual. -/
theorem C62_vega_penalty_partial {fit : Fit (List ℚ)} {n : Nat} (hn : 1 ≤ n) {sel : VegaSelOp} {op : CrossOp} {mop : MutOp}
    {tr : Transfer} {s0 s : St (List ℚ)} {k : Nat} {p : Penalty} {ar : Arith} (hv : UniformVecs fit.task.obj1) (h0 : Fresh s0)
    (hph : s0.ga.attrs.isPhenotype = true) (hm : fit.task.multi = true) (hc : fit.isCond = true)
    (hp : fit.task.penalty = some p) (hsc : fit.task.score = vegaScore ar none) (h : After (vegaOps fit n sel op mop tr) s0 k s) :
    ∀ r ∈ s.ga.population, ∃ g vs os cs gen best pen, (s.heap r).phenotype = some g ∧
      (if fit.task.inputTruthy then fit.task.obj2 else fit.task.obj1) g = .ok (.tup vs) ∧
      popAll fit.idxOpt vs = .ok (os, cs) ∧ p.value fit.task.arith fit.conditions cs gen best = .ok pen ∧
      (s.heap r).objScore = some (.tup os) ∧ (s.heap r).score = some (os.map fun o => -ar.rnd (o + pen)) := by
  refine (h.multi_all (vegaOps_run hv hn sel op mop tr) h0
    (P := fun a => ∃ g vs os cs gen best pen, a.phenotype = some g ∧
      (if fit.task.inputTruthy then fit.task.obj2 else fit.task.obj1) g = .ok (.tup vs) ∧
      popAll fit.idxOpt vs = .ok (os, cs) ∧ p.value fit.task.arith fit.conditions cs gen best = .ok pen ∧
      a.objScore = some (.tup os) ∧ a.score = some (os.map fun o => -ar.rnd (o + pen))) ?_ ?_).2
  · rintro a b hab ⟨g, vs, os, cs, gen, best, pen, e1, e2, e3, e4, e5, e6⟩
    exact ⟨g, vs, os, cs, gen, best, pen, by rw [hab.phenotype]; exact e1, e2, e3, e4, by rw [hab.objScore]; exact e5,
      by rw [hab.score]; exact e6⟩
  · rintro ga best a b hga ⟨g, e1, e2⟩
    rw [hga, hph, if_pos rfl] at e2
    unfold seen at e1
    rw [hga, hph, if_pos rfl] at e1
    obtain ⟨ret, vals, os, feas, pen, sc, f1, f2, f3, f4, f5⟩ := e2
    rw [hm, hc] at f2
    unfold checkInput at f2
    rw [if_pos rfl] at f2
    cases ret with
    | sc q => simp at f2
    | tup l =>
      simp only [Except.ok.injEq] at f2
      rcases f5 with ⟨hx, _⟩ | ⟨_, vs, pr, q, g1, g2, g3, _, _, g6, g7⟩
      · rw [hc] at hx; simp at hx
      · rw [← f2] at g1
        simp only [Option.some.injEq, Ret.tup.injEq] at g1
        subst g1
        rw [hp] at g6
        injection g6 with g6
        subst g6
        rw [hm, if_pos rfl] at g3
        subst g3
        rw [hsc] at f4
        unfold vegaScore at f4
        simp only [Except.ok.injEq] at f4
        have hb : b = swapInd (swapInd b) := by unfold swapInd; rfl
        refine ⟨g, l, pr.1, pr.2, _, best, pen, ?_, f1, g2, g7, ?_, ?_⟩
        · rw [hb, f3]; exact e1
        · rw [hb, f3]; rfl
        · rw [hb, f3, ← f4]; rfl

/-- Two VEGA runs that differ in the penalty only. -/
def exVegaPenalty (d : ℚ) : Except PyErr Unit × St (List ℚ) :=
  vega { exAdaptive 2 with penalty := some (newDynamic d 1 1 1) } false exGenes none
    { tape := exDraws 300 3, conds := some [.optimize, .optimize, .le] }

set_option maxRecDepth 100000 in
example : (exVegaPenalty 1).1 = .ok () ∧ (exVegaPenalty 2).1 = .ok () ∧
    (exVegaPenalty 1).2.snaps ≠ (exVegaPenalty 2).2.snaps := by decide +kernel

end BaumEva
