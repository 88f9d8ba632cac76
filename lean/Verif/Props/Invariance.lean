import Verif.Proofs.ImageRun
import Verif.Props.Independent
/-!
# C76, C77: problems that differ only in how they are written down

C76: an order-preserving transformation of the objective changes nothing but the recorded values.
C77: renaming gene values, or measuring them in another unit, renames the results and changes nothing else.
-/
namespace BaumEva

section
variable {σ : Type}

/-- An individual with scores, objective values and gene values rewritten. -/
def Ind.rewrite (sc : σ → σ) (obj : Ret → Ret) (val : Val → Val) (x : Ind σ) : Ind σ :=
  { x with
    genotype := x.genotype.map (List.map val)
    phenotype := x.phenotype.map (List.map val)
    score := x.score.map sc
    objScore := x.objScore.map obj }

/-- `best_solution` with scores, objective values and gene values rewritten. -/
def BestValue.rewrite (sc : σ → σ) (obj : Ret → Ret) (val : Val → Val) : BestValue σ → BestValue σ
  | .none => .none
  | .single x g => .single (x.rewrite sc obj val) g
  | .pareto f g => .pareto (f.map (Ind.rewrite sc obj val)) g

/-- Two calls that did the same thing: the second outcome is the first one with scores, objective values and gene
values rewritten. -/
structure Corresponds (sc : σ → σ) (obj : Ret → Ret) (val : Val → Val) (o o' : Outcome σ) : Prop where
  result : o'.result = o.result
  best : o'.best = o.best.rewrite sc obj val
  population : o'.population = o.population.map (Ind.rewrite sc obj val)
  parents : o'.parents = o.parents.map (Ind.rewrite sc obj val)
  children : o'.children = o.children.map (Ind.rewrite sc obj val)
  histBest : o'.histBest = o.histBest.map sc
  histMed : o'.histMed = o.histMed.map sc
  histWorst : o'.histWorst = o.histWorst.map sc
  histFronts : o'.histFronts = o.histFronts.map (List.map (Ind.rewrite sc obj val))
  idxGeneration : o'.idxGeneration = o.idxGeneration
  noImprove : o'.noImprove = o.noImprove
  generations : o'.generations = o.generations.map (List.map (Ind.rewrite sc obj val))
  calls : o'.calls = o.calls.map (List.map val)
  conds : o'.conds = o.conds

theorem Ren.ind_eq {R : Ren σ} (hC : R.Coding) : R.ind = Ind.rewrite R.sc R.obj R.val := by
  funext x
  show Ind.mk _ (x.phenotype.map (R.seen x.score)) _ _ _ _ _ = _
  rw [hC.seen]; rfl

theorem corresponds_st {R : Ren σ} (hC : R.Coding) {s : St σ} (r : Except PyErr Unit × St σ) :
    Corresponds R.sc R.obj R.val (observe s r) (observe s (r.1, R.st r.2)) where
  result := rfl
  best := by
    show bestValue (R.st r.2) = (bestValue r.2).rewrite R.sc R.obj R.val
    unfold bestValue
    show (match r.2.ga.best with | none => _ | some (.single x g) => _ | some (.pareto f g) => _) = _
    rcases r.2.ga.best with _ | ⟨x, g⟩ | ⟨f, g⟩
    · rfl
    · show BestValue.single (R.ind (r.2.heap x)) g = _
      rw [Ren.ind_eq hC]; rfl
    · show BestValue.pareto (f.map (R.heap r.2.heap)) g = .pareto ((f.map r.2.heap).map (Ind.rewrite R.sc R.obj R.val)) g
      rw [← Ren.ind_eq hC, List.map_map]; rfl
  population := by show r.2.ga.population.map (R.heap r.2.heap) = _; rw [show R.heap r.2.heap = R.ind ∘ r.2.heap from rfl, ← List.map_map, Ren.ind_eq hC]; rfl
  parents := by show r.2.ga.parents.map (R.heap r.2.heap) = _; rw [show R.heap r.2.heap = R.ind ∘ r.2.heap from rfl, ← List.map_map, Ren.ind_eq hC]; rfl
  children := by show r.2.ga.children.map (R.heap r.2.heap) = _; rw [show R.heap r.2.heap = R.ind ∘ r.2.heap from rfl, ← List.map_map, Ren.ind_eq hC]; rfl
  histBest := rfl
  histMed := rfl
  histWorst := rfl
  histFronts := by
    show r.2.ga.histFronts.map (List.map (R.heap r.2.heap)) = (r.2.ga.histFronts.map (List.map r.2.heap)).map (List.map (Ind.rewrite R.sc R.obj R.val))
    rw [← Ren.ind_eq hC, List.map_map]
    refine List.map_congr_left fun l _ => ?_
    show _ = (l.map r.2.heap).map R.ind
    rw [List.map_map]; rfl
  idxGeneration := rfl
  noImprove := rfl
  generations := by
    show r.2.snaps.map (List.map R.ind) = _
    rw [Ren.ind_eq hC]; rfl
  calls := by
    show (r.2.calls.map R.geno).drop s.calls.length = _
    rw [← List.map_drop]; rfl
  conds := rfl

/-- Nothing of a state is changed by the transformation, except for the storage object. -/
def Ren.Plain (R : Ren σ) (s : St σ) : Prop := R.heap s.heap = s.heap ∧ s.calls.map R.geno = s.calls

theorem Ren.plain_blank (R : Ren σ) (s : St σ) : R.Plain (blank s) := ⟨rfl, rfl⟩

/-- The parameters of the transformed call. -/
structure Ren.Config (R : Ren σ) (c c' : Cfg) : Prop where
  gens : c'.numGenerations = c.numGenerations
  size : c'.numIndivid = c.numIndivid
  percent : c'.childrenPercent = c.childrenPercent
  stop : c'.earlyStop = c.earlyStop
  input : c'.input = R.input c.input
  lvl : c'.mutationLvl = c.mutationLvl
  transfer : c'.transfer = c.transfer
  print : c'.isPrint = c.isPrint
  arith : c'.arith = c.arith
  same : R.arith = c.arith

theorem Ren.Coding.hasPhenotype {R : Ren σ} (h : R.Coding) : R.target.hasPhenotype = R.source.hasPhenotype := by
  rcases h.kind with ⟨p, p', h1, h2, hg⟩ | ⟨x, y, k, x', y', t, h1, h2, _⟩ | ⟨gray, gens, gens', h1, h2, _⟩ <;>
    rw [h1, h2] <;> rfl

/-- The whole call. -/
theorem facade_img {R : Ren σ} (hC : R.Coding) (hst : R.stop = id) (hr : R.rounds = id) {c c' : Cfg} (hc : R.Config c c')
    {task task' : Task σ} (hp : task'.penalty = task.penalty) (hm : task'.multi = task.multi)
    {fitExec fitExec' : Fit σ → M σ Unit} {update selection selection' : M σ Unit} (cross : CrossOp) (mutOp : MutOp)
    {newGen : Transfer → M σ Unit} {s : St σ} (hs : R.Plain s)
    (hf : ∀ fit sa sb, sa.conds = s.conds → newFitness task sa = (.ok fit, sb) →
      Img R id (fitExec fit) (fitExec' { fit with task := task' }))
    (hu : Img R id update update) (hsel : Img R id selection selection') (hn : ∀ tr, Img R id (newGen tr) (newGen tr))
    {s0 : St σ} :
    Corresponds R.sc R.obj R.val (observe s0 (facade c R.source task fitExec update selection cross mutOp newGen s))
      (observe s0 (facade c' R.target task' fitExec' update selection' cross mutOp newGen s)) := by
  unfold facade newGaData
  rw [bind_of_ok (modifyS_run _ _), bind_of_ok (modifyS_run _ _)]
  have hstop : c'.stop = c.stop := by unfold Cfg.stop; rw [hc.stop, hc.gens]
  rw [hc.gens, hc.percent, hstop, hc.size, hc.input, hc.lvl, hc.transfer, hc.print, hc.arith]
  let g0 : GaData σ := { numGenerations := c.numGenerations, childrenPercent := c.childrenPercent, earlyStop := some c.stop, attrs := { arith := c.arith } }
  obtain ⟨t, ht⟩ : ∃ t, newPopulation { s with ga := g0, snaps := [] } = (.ok (), { s with ga := g0, snaps := [], tape := t }) := by
    unfold newPopulation reseed
    cases hsd : s.seed with
    | none => exact ⟨s.tape, rfl⟩
    | some t => exact ⟨t, rfl⟩
  rw [bind_of_ok ht, bind_of_ok ht]
  have hlen : ((R.input c.input).getD []).length = (c.input.getD []).length := by
    rw [Img.input_getD, List.length_map]
  by_cases hl : c.numIndivid < (c.input.getD []).length
  · have h1 : ∀ spec inp (x : St σ), ((Option.getD inp []).length = (c.input.getD []).length) →
        setParams spec c.numIndivid inp x = (.error .exception, x) := by
      intro spec inp x hx
      unfold setParams
      rw [ite_run, if_pos (by omega)]; rfl
    rw [bind_of_err (h1 _ _ _ rfl), bind_of_err (h1 _ _ _ hlen)]
    refine ⟨rfl, rfl, rfl, rfl, rfl, rfl, rfl, rfl, rfl, rfl, rfl, rfl, ?_, rfl⟩
    show s.calls.drop _ = (s.calls.drop _).map R.geno
    rw [List.map_drop, hs.2]
  · let s3 : St σ := { s with ga := { g0 with population := [], attrs := { numIndivid := c.numIndivid, spec := R.source, isPhenotype := R.source.hasPhenotype, arith := c.arith } }, snaps := [], tape := t }
    have h1 : setParams R.source c.numIndivid c.input { s with ga := g0, snaps := [], tape := t } = (.ok (), s3) := by
      unfold setParams
      rw [ite_run, if_neg hl]; rfl
    have h2 : setParams R.target c.numIndivid (R.input c.input) { s with ga := g0, snaps := [], tape := t } = (.ok (), R.st s3) := by
      unfold setParams
      rw [ite_run, if_neg (by omega)]
      refine Prod.ext rfl ?_
      show ({ s with ga := _, snaps := [], tape := t } : St σ) = R.st s3
      unfold Ren.st
      rw [show s3.heap = s.heap from rfl, hs.1, show s3.calls = s.calls from rfl, hs.2]
      show ({ s with ga := _, snaps := [], tape := t } : St σ) = { s with ga := R.ga s3.ga, snaps := [], tape := t }
      congr 1
      unfold Ren.ga Ren.attrs
      rw [hst, hr, hC.hasPhenotype]; rfl
    rw [bind_of_ok h1, bind_of_ok h2]
    have hsp : s3.ga.attrs.tag = (R.source, R.arith) := by rw [hc.same]; rfl
    have key : ∀ (m m' : M σ Unit), (m' (R.st s3) = ((m s3).1, R.st (m s3).2)) →
        Corresponds R.sc R.obj R.val (observe s0 (m s3)) (observe s0 (m' (R.st s3))) := by
      intro m m' h
      rw [h]; exact corresponds_st hC _
    refine key _ _ ?_
    rw [bind_run, bind_run]
    obtain ⟨e1, e2⟩ := Img.newFitness (R := R) hp hm s3 hsp
    rw [e1]
    rcases hnf : newFitness task s3 with ⟨_ | fit, s4⟩
    · rfl
    · rw [hnf] at e2
      have hrest : Img R id (newMutation mutOp c.mutationLvl >>= fun _ => liftE (checkTransfer c.transfer) >>= fun tr =>
          fill c.input >>= fun _ => evolve (facadeOps fitExec update selection cross mutOp newGen fit tr) >>= fun _ =>
            if c.isPrint then printBest else pure ())
          (newMutation mutOp c.mutationLvl >>= fun _ => liftE (checkTransfer c.transfer) >>= fun tr =>
          fill (R.input c.input) >>= fun _ => evolve (facadeOps fitExec' update selection' cross mutOp newGen { fit with task := task' } tr) >>= fun _ =>
            if c.isPrint then printBest else pure ()) :=
        Img.bind (Img.newMutation _ _) fun _ => Img.bind Img.liftE_id fun tr => Img.bind (Img.fill hC _) fun _ =>
          Img.bind (Img.evolve ⟨hf fit s3 s4 rfl hnf, hu, hsel, Img.crossExec hC _, Img.mutExec hC _, hn _⟩ hst hr) fun _ =>
            Img.ite Iff.rfl (fun _ => Img.printBest) fun _ => Img.unit
      have := (hrest s4 e2).1
      have hid : ∀ x : Except PyErr Unit, x.map id = x := fun x => by cases x <;> rfl
      rw [hid] at this
      exact this

/-! ## Renaming the values of categorical genes -/

/-- A categorical gene with its listed values renamed; ranges of numbers stay. -/
def CatGene.rename (val : Val → Val) : CatGene → CatGene
  | .values l => .values (l.map val)
  | .range lo hi step => .range lo hi step
  | .other => .other

/-- A renaming of the values of a gene: numbers of a range keep their names. -/
def CatGene.Allows (val : Val → Val) : CatGene → Prop
  | .range _ _ _ => ∀ q, val (.num q) = .num q
  | _ => True

theorem catGene_img {R : Ren σ} (hinj : Function.Injective R.val) (p : CatGene) (hp : p.Allows R.val) :
    Img R R.val (genCatGene p) (genCatGene (p.rename R.val)) ∧
      ∀ x, Img R R.val (mutateCatGene p x) (mutateCatGene (p.rename R.val) (R.val x)) := by
  have hfil : ∀ (l : List Val) x, (l.map R.val).filter (fun y => y ≠ R.val x) = (l.filter fun y => y ≠ x).map R.val := by
    intro l x
    rw [List.filter_map]
    congr 1
    refine List.filter_congr fun y _ => ?_
    simp [Function.comp, hinj.eq_iff]
  cases p with
  | values l =>
    refine ⟨Img.choice _ _, fun x => ?_⟩
    show Img R R.val _ (if 1 < (l.map R.val).length then choice ((l.map R.val).filter fun y => y ≠ R.val x) else pure (R.val x))
    rw [hfil, List.length_map]
    exact Img.ite Iff.rfl (fun _ => Img.choice _ _) fun _ => Img.pure rfl
  | range lo hi step =>
    have hp : ∀ q, R.val (.num q) = .num q := hp
    refine ⟨?_, fun x => ?_⟩
    · have hr : Img R id (randrange lo (hi + 1) step : M σ Int) (randrange lo (hi + 1) step) :=
        Img.ite Iff.rfl (fun _ => Img.throwE _) fun _ => Img.ite Iff.rfl (fun _ => Img.throwE _) fun _ =>
          Img.bind Img.draw fun _ => Img.pure rfl
      exact Img.bind hr fun v => Img.pure (hp v).symm
    · refine Img.ite Iff.rfl (fun _ => Img.throwE _) fun _ => ?_
      let l : List Val := (pyRange lo (hi + 1) step).map fun (i : Int) => .num i
      have hl : l.map R.val = l := by
        show ((pyRange lo (hi + 1) step).map fun (i : Int) => Val.num i).map R.val = _
        rw [List.map_map]
        exact List.map_congr_left fun i _ => hp i
      have := hfil l x
      rw [hl] at this
      refine Img.ite Iff.rfl (fun _ => ?_) fun _ => Img.pure rfl
      show Img R R.val (choice (l.filter fun y => y ≠ x)) (choice (l.filter fun y => y ≠ R.val x))
      rw [this]
      exact Img.choice _ _
  | other => exact ⟨Img.throwE _, fun _ => Img.throwE _⟩

/-- Transformations that do not touch the genes. -/
theorem Ren.genes_same {R : Ren σ} (hv : R.val = id) (hsc : R.scale = 1) (ht : R.target = R.source) : R.Genes where
  inj := by rw [hv]; exact Function.injective_id
  kind := by
    have hpar : R.par = id := by funext p; simp [Ren.par, hsc]
    have hg : R.geno = id := by funext g; unfold Ren.geno; rw [hv, List.map_id]; rfl
    have hid : ∀ {α : Type} (x : Except PyErr α), x = x.map id := fun x => by cases x <;> rfl
    cases hs : R.source with
    | cat pools =>
      refine .cat pools pools hs (ht.trans hs) (List.forall₂_same.mpr fun p _ => ?_)
      have hr : p.rename R.val = p := by cases p <;> simp [CatGene.rename, hv]
      have := catGene_img (R := R) (by rw [hv]; exact Function.injective_id) p (by cases p <;> simp [CatGene.Allows, hv])
      rwa [hr] at this
    | orderCat a b k =>
      exact .order a b k a b id hs (ht.trans hs) (by simp) (fun i => by rw [hv]; rfl)
    | binary gray gens =>
      refine .bin gray gens gens hs (ht.trans hs) (fun x => by rw [hv]; rfl) (fun q => ⟨q, by rw [hv]; rfl⟩) ?_ ?_ ?_
      · rw [hpar]
        cases gensParamsR R.arith.rnd gens 0 with
        | error e => rfl
        | ok r => simp [Except.map]
      · intro ps xs
        rw [hg, hpar, List.map_id, ← hid]; rfl
      · intro ps offs g
        rw [hg, hpar, List.map_id, ← hid]; rfl

theorem Ren.coding_same {R : Ren σ} (hv : R.val = id) (hsc : R.scale = 1) (ht : R.target = R.source)
    (hseen : ∀ sc, R.seen sc = R.geno := by intro _; rfl) : R.Coding := ⟨Ren.genes_same hv hsc ht, hseen⟩

/-! ## C76: transformations of the objective -/

/-- What an objective returns, with every value transformed. -/
def Ret.map (h : ℚ → ℚ) : Ret → Ret
  | .sc q => .sc (h q)
  | .tup l => .tup (l.map h)

/-- The same call, with the values the objective returns transformed. -/
def Cfg.through (c : Cfg) (k : Ret → Ret) : Cfg :=
  { c with obj1 := fun g => (c.obj1 g).map k, obj2 := fun g => (c.obj2 g).map k }

theorem checkInput_map (h : ℚ → ℚ) (multi isCond : Bool) (conds : List Cond) (v : Ret) :
    checkInput multi isCond conds (v.map h) = (checkInput multi isCond conds v).map (Option.map (Ret.map h)) := by
  unfold checkInput
  cases v with
  | sc q =>
    cases multi
    · cases isCond <;> rfl
    · rfl
  | tup l =>
    simp only [Ret.map, List.length_map]
    cases multi
    · cases isCond
      · by_cases hl : 1 < l.length <;> simp [hl, Except.map]
      · by_cases hl : l.length = conds.length + 1 <;> simp [hl, Except.map, Ret.map]
    · rfl

/-- A run without constraints: no penalty object, or no list of conditions with more than one entry. -/
def Unconstrained (c : Cfg) (s : St σ) : Prop := c.penalty = none ∨ (s.conds.getD [.optimize]).length ≤ 1

theorem Unconstrained.isCond {c : Cfg} {s sa sb : St σ} (h : Unconstrained c s) {t : Task σ} (ht : t.penalty = c.penalty)
    {fit : Fit σ} (hsa : sa.conds = s.conds) (hf : newFitness t sa = (.ok fit, sb)) : fit.isCond = false := by
  rcases (newFitness_ok hf).2 with ⟨h1, _⟩ | ⟨_, ⟨p, h2⟩, cs, h3, h4, _⟩
  · exact h1
  · exfalso
    rcases h with h | h
    · rw [ht, h] at h2; cases h2
    · rw [← hsa, h3] at h; simp at h; omega

end

/-- C76 for `BinaryGA`, `CombinatoryGA`, `CategoricalGA`: minimising a strictly increasing function of the objective is
the same run: the same draws lead to the same individuals, calls, histories up to the values. -/
theorem C76_monotone {s : St ℚ} (hs : Session s) (f : SingleFacade) (c : Cfg) (hx : c.arith = .exact) (hu : Unconstrained c s)
    {h : ℚ → ℚ} (hm : StrictMono h) :
    Corresponds (fun q => -h (-q)) (Ret.map h) id (observe s (f.optimize c none s))
      (observe s (f.optimize (c.through (Ret.map h)) none s)) := by
  rw [C66_first hs, C66_first hs]
  let R : Ren ℚ := { sc := fun q => -h (-q), obj := Ret.map h, source := f.spec, target := f.spec }
  have hC : R.Coding := Ren.coding_same rfl rfl rfl
  have hmono : StrictMono R.sc := fun a b hab => neg_lt_neg (hm (neg_lt_neg hab))
  have hinp : R.input c.input = c.input := by
    have hg : R.geno = id := by funext g; exact List.map_id _
    unfold Ren.input; rw [hg]
    cases c.input <;> simp
  have hc : R.Config c (c.through (Ret.map h)) := ⟨rfl, rfl, rfl, rfl, hinp.symm, rfl, rfl, rfl, rfl, hx.symm⟩
  have hfit : ∀ fit sa sb, sa.conds = (blank s).conds →
      newFitness (hyperbolaTask c.obj1 c.obj2 c.inputTruthy c.penalty none c.arith) sa = (.ok fit, sb) →
      R.Fits (Ret.map h) fit { fit with task := hyperbolaTask (c.through (Ret.map h)).obj1 (c.through (Ret.map h)).obj2 c.inputTruthy c.penalty none c.arith } := by
    intro fit sa sb hsa hf
    have ht := (newFitness_ok hf).1
    have hcond := Unconstrained.isCond hu (t := hyperbolaTask c.obj1 c.obj2 c.inputTruthy c.penalty none c.arith) rfl hsa hf
    refine ⟨rfl, rfl, rfl, by rw [ht]; rfl, by rw [ht]; rfl, by rw [ht]; rfl, ?_, ?_, fun _ => rfl, fun hc => by rw [hcond] at hc; simp at hc, ?_⟩
    · intro g
      have hg : R.geno g = g := List.map_id _
      rw [hg, ht]
      show (if c.inputTruthy then (fun g => (c.obj2 g).map (Ret.map h)) else fun g => (c.obj1 g).map (Ret.map h)) g = _
      cases c.inputTruthy <;> rfl
    · intro v; exact checkInput_map _ _ _ _ _
    · intro x pen hpen
      rw [ht, hpen hcond]
      show hyperbola c.arith none (R.ind x) 0 = (hyperbola c.arith none x 0).map R.sc
      rw [hx]
      unfold hyperbola
      show (match x.objScore.map (Ret.map h) with | some (.sc o) => _ | _ => _) = _
      rcases x.objScore with _ | (o | l)
      · rfl
      · simp [hyperbolaR, Arith.exact, Ret.map, Except.map, R]
      · rfl
  have := fun cross mutOp => facade_img hC rfl rfl hc (task := hyperbolaTask c.obj1 c.obj2 c.inputTruthy c.penalty none c.arith)
    (task' := hyperbolaTask (c.through (Ret.map h)).obj1 (c.through (Ret.map h)).obj2 c.inputTruthy c.penalty none c.arith)
    rfl rfl (fitExec := baseFitnessExec) (fitExec' := baseFitnessExec) (update := gaUpdate)
    (selection := tournamentExec c.tournamentSize) (selection' := tournamentExec c.tournamentSize) cross mutOp
    (newGen := newGenExec) (R.plain_blank s) (fun fit sa sb h1 h2 => Img.baseFitnessExec hC (hfit fit sa sb h1 h2))
    (Img.gaUpdate hmono) (Img.tournamentExec hmono _) (fun tr => Img.newGenExec hC hmono tr) (s0 := blank s)
  cases f <;> exact this _ _

/-! ### Adding a constant to the objective, with constraints or a target -/

/-- What an objective returns, with `d` added to the objective value: the number itself, or the entry number `i`. -/
def Ret.addAt (i : Nat) (d : ℚ) : Ret → Ret
  | .sc q => .sc (q + d)
  | .tup l => .tup (l.modify i (· + d))

/-- The place of `'optimize'` in the list of conditions. -/
def optPlace (s : St ℚ) : Nat := (s.conds.getD [.optimize]).idxOf .optimize

theorem checkInput_addAt (i : Nat) (d : ℚ) (multi isCond : Bool) (conds : List Cond) (v : Ret) :
    checkInput multi isCond conds (v.addAt i d) = (checkInput multi isCond conds v).map (Option.map (Ret.addAt i d)) := by
  unfold checkInput
  cases v with
  | sc q =>
    cases multi
    · cases isCond <;> rfl
    · rfl
  | tup l =>
    simp only [Ret.addAt, List.length_modify]
    cases multi
    · cases isCond
      · by_cases hl : 1 < l.length <;> simp [hl, Except.map]
      · by_cases hl : l.length = conds.length + 1 <;> simp [hl, Except.map, Ret.addAt]
    · rfl

theorem popAll_addAt (i : Nat) (d : ℚ) (vs : List ℚ) :
    popAll [i] (vs.modify i (· + d)) = (popAll [i] vs).map fun r => (r.1.map (· + d), r.2) := by
  unfold popAll popAll
  rw [List.getElem?_modify]
  cases h : vs[i]? with
  | none => rfl
  | some v =>
    have : (vs.modify i (· + d)).eraseIdx i = vs.eraseIdx i := by
      clear h
      induction vs generalizing i with
      | nil => simp
      | cons x xs ih => cases i with
        | zero => rfl
        | succ i => simpa using ih i
    rw [this]
    simp only [Option.map_eq_map, Option.map_some, if_true]
    rfl

theorem popAll_one {i : Nat} {vs : List ℚ} {r : List ℚ × List ℚ} (h : popAll [i] vs = .ok r) : ∃ v, r.1 = [v] := by
  unfold popAll popAll at h
  cases hv : vs[i]? with
  | none => rw [hv] at h; cases h
  | some v => rw [hv] at h; cases h; exact ⟨v, rfl⟩

/-- C76 for `BinaryGA`, `CombinatoryGA`, `CategoricalGA`, with or without constraints and whatever the penalty: adding
a constant to the objective (and to the target, if there is one) is the same run. -/
theorem C76_shift {s : St ℚ} (hs : Session s) (f : SingleFacade) (c : Cfg) (hx : c.arith = .exact) (ov : Option ℚ) (d : ℚ) :
    Corresponds (if ov = none then (· - d) else id) (Ret.addAt (optPlace s) d) id (observe s (f.optimize c ov s))
      (observe s (f.optimize (c.through (Ret.addAt (optPlace s) d)) (ov.map (· + d)) s)) := by
  rw [C66_first hs, C66_first hs]
  let k := Ret.addAt (optPlace s) d
  let R : Ren ℚ := { sc := if ov = none then (· - d) else id, obj := k, source := f.spec, target := f.spec }
  have hC : R.Coding := Ren.coding_same rfl rfl rfl
  have hmono : StrictMono R.sc := by
    show StrictMono (if ov = none then (· - d) else id : ℚ → ℚ)
    split
    · exact fun a b hab => sub_lt_sub_right hab d
    · exact strictMono_id
  have hinp : R.input c.input = c.input := by
    have hg : R.geno = id := by funext g; exact List.map_id _
    unfold Ren.input; rw [hg]
    cases c.input <;> simp
  have hc : R.Config c (c.through k) := ⟨rfl, rfl, rfl, rfl, hinp.symm, rfl, rfl, rfl, rfl, hx.symm⟩
  have hfit : ∀ fit sa sb, sa.conds = (blank s).conds →
      newFitness (hyperbolaTask c.obj1 c.obj2 c.inputTruthy c.penalty ov c.arith) sa = (.ok fit, sb) →
      R.Fits k fit { fit with task := hyperbolaTask (c.through k).obj1 (c.through k).obj2 c.inputTruthy c.penalty (ov.map (· + d)) c.arith } := by
    intro fit sa sb hsa hf
    obtain ⟨ht, hrest⟩ := newFitness_ok hf
    have hidx : fit.isCond = true → fit.idxOpt = [optPlace s] := by
      intro hcd
      rcases hrest with ⟨h1, _⟩ | ⟨_, _, cs, h3, _, h5⟩
      · rw [h1] at hcd; cases hcd
      · rcases h5 with ⟨h6, _⟩ | ⟨_, _, _, h6, _⟩
        · cases h6
        · have h3 : s.conds = some cs := hsa.symm.trans h3
          unfold optPlace; rw [h6, h3]; rfl
    refine ⟨rfl, rfl, rfl, by rw [ht]; rfl, by rw [ht]; rfl, by rw [ht]; rfl, ?_, ?_, fun _ => rfl, fun hcd => ⟨fun q => ⟨_, rfl⟩, fun vs => ⟨_, rfl, List.map (· + d), ?_, ?_⟩⟩, ?_⟩
    · intro g
      have hg : R.geno g = g := List.map_id _
      rw [hg, ht]
      show (if c.inputTruthy then (fun g => (c.obj2 g).map k) else fun g => (c.obj1 g).map k) g = _
      cases c.inputTruthy <;> rfl
    · intro v; exact checkInput_addAt _ _ _ _ _ _
    · rw [hidx hcd]; exact popAll_addAt _ _ _
    · intro r hr
      have hm : fit.task.multi = false := by rw [ht]; rfl
      rw [hm]
      rw [hidx hcd] at hr
      obtain ⟨v, hv⟩ := popAll_one hr
      rw [hv]; rfl
    · intro x pen _
      rw [ht]
      show hyperbola c.arith (ov.map (· + d)) (R.ind x) pen = (hyperbola c.arith ov x pen).map R.sc
      rw [hx]
      unfold hyperbola
      show (match x.objScore.map k with | some (.sc o) => _ | _ => _) = _
      rcases x.objScore with _ | (o | l)
      · rfl
      · cases ov with
        | none => simp [hyperbolaR, Arith.exact, k, Ret.addAt, Except.map, R]; ring
        | some t =>
          simp only [hyperbolaR, Option.map_some, k, Ret.addAt, add_sub_add_right_eq_sub]
          split <;> rfl
      · rfl
  have := fun cross mutOp => facade_img hC rfl rfl hc (task := hyperbolaTask c.obj1 c.obj2 c.inputTruthy c.penalty ov c.arith)
    (task' := hyperbolaTask (c.through k).obj1 (c.through k).obj2 c.inputTruthy c.penalty (ov.map (· + d)) c.arith)
    rfl rfl (fitExec := baseFitnessExec) (fitExec' := baseFitnessExec) (update := gaUpdate)
    (selection := tournamentExec c.tournamentSize) (selection' := tournamentExec c.tournamentSize) cross mutOp
    (newGen := newGenExec) (R.plain_blank s) (fun fit sa sb h1 h2 => Img.baseFitnessExec hC (hfit fit sa sb h1 h2))
    (Img.gaUpdate hmono) (Img.tournamentExec hmono _) (fun tr => Img.newGenExec hC hmono tr) (s0 := blank s)
  cases f <;> exact this _ _

/-! ### Several objectives -/

/-- The entries of a list transformed, each by its own function. -/
def mapAt (h : Nat → ℚ → ℚ) : List ℚ → List ℚ
  | [] => []
  | x :: xs => h 0 x :: mapAt (fun i => h (i + 1)) xs

/-- What an objective returns, each value transformed by its own function. -/
def Ret.mapAt (h : Nat → ℚ → ℚ) : Ret → Ret
  | .sc q => .sc (h 0 q)
  | .tup l => .tup (BaumEva.mapAt h l)

theorem mapAt_length (h : Nat → ℚ → ℚ) (l : List ℚ) : (mapAt h l).length = l.length := by
  induction l generalizing h with
  | nil => rfl
  | cons x xs ih => simp [mapAt, ih]

theorem mapAt_getElem? (h : Nat → ℚ → ℚ) (l : List ℚ) (i : Nat) : (mapAt h l)[i]? = l[i]?.map (h i) := by
  induction l generalizing h i with
  | nil => rfl
  | cons x xs ih =>
    cases i with
    | zero => rfl
    | succ i => simpa [mapAt] using ih (fun i => h (i + 1)) i

theorem mapAt_strictMono {h : Nat → ℚ → ℚ} (hm : ∀ i, StrictMono (h i)) : StrictMono (mapAt h) := by
  intro a
  induction a generalizing h with
  | nil => intro b hab; cases b with
    | nil => exact absurd hab (lt_irrefl _)
    | cons y ys => exact List.nil_lt_cons _ _
  | cons x xs ih =>
    intro b hab
    cases b with
    | nil => exact absurd hab (List.not_lt_nil _)
    | cons y ys =>
      rw [List.cons_lt_cons_iff] at hab
      show h 0 x :: _ < h 0 y :: _
      rw [List.cons_lt_cons_iff]
      rcases hab with hab | ⟨rfl, hab⟩
      · exact .inl (hm 0 hab)
      · exact .inr ⟨rfl, ih (fun i => hm (i + 1)) hab⟩

theorem mapAt_injective {h : Nat → ℚ → ℚ} (hm : ∀ i, StrictMono (h i)) : Function.Injective (mapAt h) :=
  (mapAt_strictMono hm).injective

theorem maxScores_mapAt {h : Nat → ℚ → ℚ} (hm : ∀ i, StrictMono (h i)) (xs ys : List ℚ) :
    maxScores (mapAt h xs) (mapAt h ys) = (maxScores xs ys).map (mapAt h) := by
  induction xs generalizing h ys with
  | nil => cases ys <;> rfl
  | cons x xs ih =>
    cases ys with
    | nil => rfl
    | cons y ys =>
      simp only [mapAt, maxScores]
      rw [ih (fun i => hm (i + 1))]
      cases maxScores xs ys with
      | error e => rfl
      | ok r =>
        simp only [Except.map, bind, Except.bind, pure, Except.pure, (hm 0).lt_iff_lt]
        split <;> rfl

theorem inferiorOf_mapAt {h : Nat → ℚ → ℚ} (hm : ∀ i, StrictMono (h i)) (xs ys : List ℚ) :
    inferiorOf (mapAt h xs) (mapAt h ys) = inferiorOf xs ys := by
  unfold inferiorOf
  rw [maxScores_mapAt hm]
  simp only [(mapAt_injective hm).eq_iff]
  split
  · rfl
  · cases maxScores xs ys with
    | error e => rfl
    | ok r => simp only [Except.map, bind, Except.bind, pure, Except.pure, (mapAt_injective hm).eq_iff]

theorem Ret.mapAt_injective {h : Nat → ℚ → ℚ} (hm : ∀ i, StrictMono (h i)) : Function.Injective (Ret.mapAt h) := by
  intro a b hab
  cases a <;> cases b <;> simp only [Ret.mapAt, Ret.sc.injEq, Ret.tup.injEq, reduceCtorEq] at hab ⊢
  · exact (hm 0).injective hab
  · exact BaumEva.mapAt_injective hm hab

/-- The fitness object of a multi-objective task without constraints. -/
theorem multiFits {σ : Type} {R : Ren σ} (hv : R.val = id) {h : Nat → ℚ → ℚ} (ho : R.obj = Ret.mapAt h) {c : Cfg}
    {score : Ind σ → ℚ → Except PyErr σ} (hscore : ∀ x, score (R.ind x) 0 = (score x 0).map R.sc)
    {fit : Fit σ} {sa sb : St σ} (hu : Unconstrained c sa)
    (hf : newFitness ⟨c.obj1, c.obj2, c.inputTruthy, c.penalty, score, true, c.arith⟩ sa = (.ok fit, sb)) :
    R.Fits (Ret.mapAt h) fit { fit with task := ⟨(c.through (Ret.mapAt h)).obj1, (c.through (Ret.mapAt h)).obj2, c.inputTruthy, c.penalty, score, true, c.arith⟩ } := by
  have ht := (newFitness_ok hf).1
  have hcond := Unconstrained.isCond hu (t := ⟨c.obj1, c.obj2, c.inputTruthy, c.penalty, score, true, c.arith⟩) rfl rfl hf
  refine ⟨rfl, rfl, rfl, by rw [ht], by rw [ht], by rw [ht], ?_, ?_, fun _ => ho.symm, fun hc => by rw [hcond] at hc; simp at hc, ?_⟩
  · intro g
    have hg : R.geno g = g := by unfold Ren.geno; rw [hv]; exact List.map_id _
    rw [hg, ht]
    show (if c.inputTruthy then (fun g => (c.obj2 g).map (Ret.mapAt h)) else fun g => (c.obj1 g).map (Ret.mapAt h)) g = _
    cases c.inputTruthy <;> rfl
  · intro v
    rw [ht]
    cases v <;> rfl
  · intro x pen hpen
    rw [ht, hpen hcond]; exact hscore x

theorem multiRanks {σ : Type} {R : Ren σ} (hv : R.val = id) {h : Nat → ℚ → ℚ} (hm : ∀ i, StrictMono (h i)) {c : Cfg}
    {score : Ind σ → ℚ → Except PyErr σ} :
    R.Ranks (Ret.mapAt h) ⟨c.obj1, c.obj2, c.inputTruthy, c.penalty, score, true, c.arith⟩
      ⟨(c.through (Ret.mapAt h)).obj1, (c.through (Ret.mapAt h)).obj2, c.inputTruthy, c.penalty, score, true, c.arith⟩ := by
  refine ⟨fun g => ?_, ⟨_, fun _ => rfl, fun _ _ xs ys _ _ => inferiorOf_mapAt hm xs ys⟩, fun q => ⟨_, rfl⟩⟩
  have hg : R.geno g = g := by unfold Ren.geno; rw [hv]; exact List.map_id _
  rw [hg]; rfl

/-- C76 for `FFGA`: every objective may be transformed by its own strictly increasing function; not even the scores
change. -/
theorem C76_ffga {s : St ℚ} (hs : Session s) (c : Cfg) (gray : Bool) (gens : List BinGene) (hu : Unconstrained c s)
    {h : Nat → ℚ → ℚ} (hm : ∀ i, StrictMono (h i)) :
    Corresponds id (Ret.mapAt h) id (observe s (ffga c gray gens s))
      (observe s (ffga (c.through (Ret.mapAt h)) gray gens s)) := by
  have hsame : SameInput s (blank s) := ⟨rfl, rfl, fun _ => rfl⟩
  rw [C66_ffga hs (.start _ _ _) hsame, C66_ffga hs (.start _ _ _) hsame]
  let R : Ren ℚ := { sc := id, obj := Ret.mapAt h, source := .binary gray gens, target := .binary gray gens, arith := c.arith }
  have hC : R.Coding := Ren.coding_same rfl rfl rfl
  have hinp : R.input c.input = c.input := by
    have hg : R.geno = id := by funext g; exact List.map_id _
    unfold Ren.input; rw [hg]
    cases c.input <;> simp
  have hc : R.Config c (c.through (Ret.mapAt h)) := ⟨rfl, rfl, rfl, rfl, hinp.symm, rfl, rfl, rfl, rfl, rfl⟩
  have hsc : ∀ x, ffgaScore c.arith (R.ind x) 0 = (ffgaScore c.arith x 0).map R.sc := by
    intro x
    unfold ffgaScore
    show (match x.rank with | some (.sc q) => _ | _ => _) = _
    rcases x.rank with _ | (q | l)
    · rfl
    · simp only []
      split <;> rfl
    · rfl
  refine facade_img hC rfl rfl hc (task := ffgaTask c.obj1 c.obj2 c.inputTruthy c.penalty c.arith)
    (task' := ffgaTask (c.through (Ret.mapAt h)).obj1 (c.through (Ret.mapAt h)).obj2 c.inputTruthy c.penalty c.arith)
    rfl rfl (fitExec := multiFitnessExec) (fitExec' := multiFitnessExec) (update := multiUpdate)
    (selection := balancedExec) (selection' := balancedExec) _ _ (newGen := multiNewGenExec) (R.plain_blank s)
    (fun fit sa sb h1 h2 => ?_) (Img.multiUpdate hC Function.injective_id (Ret.mapAt_injective hm)) ?_
    (fun tr => Img.multiNewGenExec hC tr) (s0 := blank s)
  · have hF := multiFits (R := R) rfl rfl hsc (c := c) (by unfold Unconstrained; rw [h1]; exact hu) h2
    refine Img.multiFitnessExec hC hF ?_
    rw [(newFitness_ok h2).1]
    exact multiRanks (R := R) (score := ffgaScore c.arith) rfl hm
  · refine Img.balancedWith Img.unit (v := id) (fun x => ?_) (fun ws => by rw [List.map_id]) 1
    exact Img.scoreKey (R := R) x

/-- C76 for `VEGA`: every objective may be transformed by its own strictly increasing function. -/
theorem C76_vega {s : St (List ℚ)} (hs : VegaSession s) (c : Cfg) (hx : c.arith = .exact) (gray : Bool) (gens : List BinGene)
    (hu : Unconstrained c s)
    {h : Nat → ℚ → ℚ} (hm : ∀ i, StrictMono (h i)) :
    (vega (c.through (Ret.mapAt h)) gray gens none s).1 = (vega c gray gens none s).1 ∧
      ((vega c gray gens none s).1 = .ok () →
        Corresponds (mapAt fun i q => -h i (-q)) (Ret.mapAt h) id (observe s (vega c gray gens none s))
          (observe s (vega (c.through (Ret.mapAt h)) gray gens none s))) := by
  have hsame : SameInput s (blank s) := ⟨rfl, rfl, fun _ => rfl⟩
  let c' := c.through (Ret.mapAt h)
  let w : Nat → ℚ → ℚ := fun i q => -h i (-q)
  have hw : ∀ i, StrictMono (w i) := fun i a b hab => neg_lt_neg (hm i (neg_lt_neg hab))
  let R : Ren (List ℚ) := { sc := mapAt w, obj := Ret.mapAt h, source := .binary gray gens, target := .binary gray gens }
  have hC : R.Coding := Ren.coding_same rfl rfl rfl
  have hinp : R.input c.input = c.input := by
    have hg : R.geno = id := by funext g; exact List.map_id _
    unfold Ren.input; rw [hg]
    cases c.input <;> simp
  have hc : R.Config c c' := ⟨rfl, rfl, rfl, rfl, hinp.symm, rfl, rfl, rfl, rfl, hx.symm⟩
  have hneg : ∀ (h : Nat → ℚ → ℚ) (l : List ℚ), (mapAt h l).map (fun o => -(o + 0)) = mapAt (fun i q => -h i (-q)) (l.map fun o => -(o + 0)) := by
    intro h l
    induction l generalizing h with
    | nil => rfl
    | cons x xs ih =>
      have := ih (fun i => h (i + 1))
      simp only [add_zero] at this
      simp [mapAt, this]
  have hsc : ∀ x, vegaScore c.arith none (R.ind x) 0 = (vegaScore c.arith none x 0).map R.sc := by
    intro x
    rw [hx]
    unfold vegaScore
    show (match x.objScore.map (Ret.mapAt h) with | some (.tup o) => _ | _ => _) = _
    rcases x.objScore with _ | (q | l)
    · rfl
    · rfl
    · exact congrArg Except.ok (hneg h l)
  have hkey : ∀ i x, scoreAt i (R.ind x) = (scoreAt i x).map (w i) := by
    intro i x
    unfold scoreAt
    show (match x.score.map (mapAt w) with | none => _ | some l => _) = _
    cases x.score with
    | none => rfl
    | some l =>
      simp only [Option.map_some, mapAt_getElem?]
      cases l[i]? <;> rfl
  have hnum : vegaNumObjectives c' gens.length (blank s) = vegaNumObjectives c gens.length (blank s) := by
    unfold vegaNumObjectives
    rw [bind_of_ok (getS_run _), bind_of_ok (getS_run _)]
    cases (blank s).conds with
    | some l => rfl
    | none =>
      unfold callObj
      simp only []
      rw [bind_run, bind_of_ok (modifyS_run _ _), bind_run, bind_of_ok (modifyS_run _ _)]
      show _ = _
      simp only [c', Cfg.through]
      cases c.obj1 (List.replicate gens.length (.num 0)) with
      | error e => rfl
      | ok v => cases v with
        | sc q => rfl
        | tup l => simp [Except.map, Ret.mapAt, liftE, mapAt_length]
  have hrun : (vega c' gray gens none (blank s)).1 = (vega c gray gens none (blank s)).1 ∧
      ((vega c gray gens none (blank s)).1 = .ok () → Corresponds (mapAt w) (Ret.mapAt h) id
        (observe (blank s) (vega c gray gens none (blank s))) (observe (blank s) (vega c' gray gens none (blank s)))) := by
    unfold vega
    rw [bind_run, bind_run, hnum]
    have hst := vegaNumObjectives_state (c := c) (n := gens.length) (blank s)
    rcases hvn : vegaNumObjectives c gens.length (blank s) with ⟨_ | m, s1⟩
    · exact ⟨rfl, fun h => by cases h⟩
    · have hp : R.Plain s1 ∧ s1.conds = s.conds := by
        rw [hvn] at hst
        rcases hst with e | e
        · subst e; exact ⟨R.plain_blank s, rfl⟩
        · subst e
          refine ⟨⟨rfl, ?_⟩, rfl⟩
          have hg : R.geno = id := by funext g; exact List.map_id _
          rw [hg, List.map_id]
      have := facade_img hC rfl rfl hc (task := vegaTask c.obj1 c.obj2 c.inputTruthy c.penalty none c.arith)
        (task' := vegaTask c'.obj1 c'.obj2 c.inputTruthy c.penalty none c.arith)
        rfl rfl (fitExec := multiFitnessExec) (fitExec' := multiFitnessExec) (update := multiUpdate)
        (selection := vegaTournamentExec m 3) (selection' := vegaTournamentExec m 3) .onePoint .binString (newGen := newGenExec) hp.1
        (fun fit sa sb h1 h2 => by
          have hF := multiFits (R := R) rfl rfl hsc (c := c) (by unfold Unconstrained; rw [h1, hp.2]; exact hu) h2
          refine Img.multiFitnessExec hC hF ?_
          rw [(newFitness_ok h2).1]
          exact multiRanks (R := R) (score := vegaScore c.arith none) rfl hm)
        (Img.multiUpdate hC (mapAt_injective hw) (Ret.mapAt_injective hm)) (Img.vegaTournamentExec m 3 hw hkey)
        (fun tr => Img.newGenExec hC (mapAt_strictMono hw) tr) (s0 := blank s)
      exact ⟨this.result, fun _ => this⟩
  have hb : VegaSession (blank s) := .start _ _ _
  obtain ⟨e1, e2⟩ := C66_vega hs hb hsame c gray gens none
  obtain ⟨e3, e4⟩ := C66_vega hs hb hsame c' gray gens none
  refine ⟨(e3.trans hrun.1).trans e1.symm, fun hok => ?_⟩
  rw [e2 hok, e4 (by rw [e3, hrun.1, ← e1, hok])]
  exact hrun.2 (by rw [← e1, hok])

/-! ## C77: other names and units for the gene values -/

/-- The same call, with the gene values renamed: the objective of the second call understands the new names, and the
individuals passed in are renamed. -/
structure Cfg.Renamed (val : Val → Val) (c c' : Cfg) : Prop where
  obj1 : ∀ g, c'.obj1 (g.map val) = c.obj1 g
  obj2 : ∀ g, c'.obj2 (g.map val) = c.obj2 g
  input : c'.input = c.input.map (List.map (List.map val))
  gens : c'.numGenerations = c.numGenerations
  size : c'.numIndivid = c.numIndivid
  truthy : c'.inputTruthy = c.inputTruthy
  penalty : c'.penalty = c.penalty
  percent : c'.childrenPercent = c.childrenPercent
  stop : c'.earlyStop = c.earlyStop
  lvl : c'.mutationLvl = c.mutationLvl
  tour : c'.tournamentSize = c.tournamentSize
  transfer : c'.transfer = c.transfer
  print : c'.isPrint = c.isPrint
  arith : c'.arith = c.arith

section
variable {σ : Type} {R : Ren σ}

theorem Cfg.Renamed.config {c c' : Cfg} (h : Cfg.Renamed R.val c c') (hR : R.arith = c.arith) : R.Config c c' where
  gens := h.gens
  size := h.size
  percent := h.percent
  stop := h.stop
  input := h.input
  lvl := h.lvl
  transfer := h.transfer
  print := h.print
  arith := h.arith
  same := hR

theorem renamedFits {c c' : Cfg} (h : Cfg.Renamed R.val c c') (hsc : R.sc = id) (ho : R.obj = id) {multi : Bool}
    {score : Ind σ → ℚ → Except PyErr σ} (hscore : ∀ x pen, score (R.ind x) pen = score x pen) {fit : Fit σ}
    (ht : fit.task = ⟨c.obj1, c.obj2, c.inputTruthy, c.penalty, score, multi, c.arith⟩) :
    R.Fits id fit { fit with task := ⟨c'.obj1, c'.obj2, c.inputTruthy, c.penalty, score, multi, c.arith⟩ } := by
  have hid : ∀ {α : Type} (x : Except PyErr α), x = x.map id := fun x => by cases x <;> rfl
  refine ⟨rfl, rfl, rfl, by rw [ht], by rw [ht], by rw [ht], ?_, ?_, fun _ => ho.symm, fun _ => ⟨fun q => ⟨q, rfl⟩, fun vs => ⟨vs, rfl, id, hid _, fun r _ => by rw [ho]; rfl⟩⟩, ?_⟩
  · intro g
    rw [ht, ← hid]
    show (if c.inputTruthy then c'.obj2 else c'.obj1) (g.map R.val) = (if c.inputTruthy then c.obj2 else c.obj1) g
    cases c.inputTruthy
    · exact h.obj1 g
    · exact h.obj2 g
  · intro v
    rw [Option.map_id, ← hid]; rfl
  · intro x pen _
    rw [ht, hsc, ← hid]; exact hscore x pen

end

/-- Renaming for the single-objective facades. -/
theorem renamed_single {s : St ℚ} (hs : Session s) {f f' : SingleFacade} {val : Val → Val} {scale : ℚ} {c c' : Cfg}
    (hC : Ren.Coding (σ := ℚ) { val := val, source := f.spec, target := f'.spec, scale := scale, arith := c.arith })
    (hx : f'.cross = f.cross) (hmu : f'.mutOp = f.mutOp) (h : Cfg.Renamed val c c') (ov : Option ℚ) :
    Corresponds id id val (observe s (f.optimize c ov s)) (observe s (f'.optimize c' ov s)) := by
  rw [C66_first hs, C66_first hs]
  let R : Ren ℚ := { val := val, source := f.spec, target := f'.spec, scale := scale, arith := c.arith }
  have hscore : ∀ x pen, hyperbola c.arith ov (R.ind x) pen = hyperbola c.arith ov x pen := by
    intro x pen
    unfold hyperbola
    show (match x.objScore.map id with | some (.sc o) => _ | _ => _) = _
    rw [Option.map_id]; rfl
  have := facade_img (R := R) hC rfl rfl (h.config rfl) (task := hyperbolaTask c.obj1 c.obj2 c.inputTruthy c.penalty ov c.arith)
    (task' := hyperbolaTask c'.obj1 c'.obj2 c.inputTruthy c.penalty ov c.arith)
    rfl rfl (fitExec := baseFitnessExec) (fitExec' := baseFitnessExec) (update := gaUpdate)
    (selection := tournamentExec c.tournamentSize) (selection' := tournamentExec c.tournamentSize) f.cross f.mutOp
    (newGen := newGenExec) (R.plain_blank s)
    (fun fit sa sb h1 h2 => Img.baseFitnessExec hC (renamedFits (R := R) h rfl rfl hscore (newFitness_ok h2).1))
    (Img.gaUpdate strictMono_id) (Img.tournamentExec strictMono_id _) (fun tr => Img.newGenExec hC strictMono_id tr) (s0 := blank s)
  have e1 : f.optimize c ov (blank s) = facade c f.spec (hyperbolaTask c.obj1 c.obj2 c.inputTruthy c.penalty ov c.arith)
      baseFitnessExec gaUpdate (tournamentExec c.tournamentSize) f.cross f.mutOp newGenExec (blank s) := by cases f <;> rfl
  have e2 : f'.optimize c' ov (blank s) = facade c' f'.spec (hyperbolaTask c'.obj1 c'.obj2 c.inputTruthy c.penalty ov c.arith)
      baseFitnessExec gaUpdate (tournamentExec c.tournamentSize) f.cross f.mutOp newGenExec (blank s) := by
    rw [← hx, ← hmu, ← h.truthy, ← h.penalty, ← h.tour, ← h.arith]
    cases f' <;> rfl
  rw [e1, e2]; exact this

/-- C77 for `CategoricalGA`: renaming the values in the pools, one-to-one, renames the results. -/
theorem C77_categorical {s : St ℚ} (hs : Session s) {val : Val → Val} (hv : Function.Injective val) (pools : List CatGene)
    (hp : ∀ p ∈ pools, p.Allows val) {c c' : Cfg} (h : Cfg.Renamed val c c') (ov : Option ℚ) :
    Corresponds id id val (observe s (categoricalGA c pools ov s))
      (observe s (categoricalGA c' (pools.map (CatGene.rename val)) ov s)) := by
  refine renamed_single hs (f := .categorical pools) (f' := .categorical (pools.map (CatGene.rename val))) (scale := 1)
    ⟨⟨hv, .cat pools (pools.map (CatGene.rename val)) rfl rfl ?_⟩, fun _ => rfl⟩ rfl rfl h ov
  rw [List.forall₂_map_right_iff, List.forall₂_same]
  exact fun p hp' => catGene_img hv p (hp p hp')

/-- Numbers moved by `d`. -/
def Val.shift (d : Int) : Val → Val
  | .num q => .num (q + d)
  | .str x => .str x

theorem Val.shift_injective (d : Int) : Function.Injective (Val.shift d) := by
  intro a b hab
  cases a <;> cases b <;> simp_all [Val.shift]

/-- C77 for `CombinatoryGA`: moving the range of numbers moves the results. -/
theorem C77_combinatory {s : St ℚ} (hs : Session s) (a b k d : Int) {c c' : Cfg} (h : Cfg.Renamed (Val.shift d) c c')
    (ov : Option ℚ) :
    Corresponds id id (Val.shift d) (observe s (combinatoryGA c a b k ov s))
      (observe s (combinatoryGA c' (a + d) (b + d) k ov s)) := by
  refine renamed_single hs (f := .combinatory a b k) (f' := .combinatory (a + d) (b + d) k) (scale := 1)
    ⟨⟨Val.shift_injective d, .order a b k (a + d) (b + d) (· + d) rfl rfl ?_ ?_⟩, fun _ => rfl⟩ rfl rfl h ov
  · unfold pyRange
    have : rangeLen (a + d) (b + d + 1) 1 = rangeLen a (b + 1) 1 := by
      unfold rangeLen
      rw [if_pos (by omega), if_pos (by omega)]
      congr 1; omega
    rw [this, List.map_map]
    refine List.map_congr_left fun i _ => ?_
    show a + d + 1 * (i : Int) = a + 1 * (i : Int) + d
    omega
  · intro i
    show Val.num ((i : ℚ) + (d : ℚ)) = .num ((i + d : Int) : ℚ)
    push_cast; rfl

/-- Numbers in another unit: `q` becomes `a * q + d`. -/
def Val.affine (a d : ℚ) : Val → Val
  | .num q => .num (a * q + d)
  | .str x => .str x

/-- A gene in another unit. -/
def BinGene.affine (a d : ℚ) (g : BinGene) : BinGene := ⟨a * g.lo + d, a * g.hi + d, a * g.step⟩

theorem Val.affine_injective {a : ℚ} (ha : 0 < a) (d : ℚ) : Function.Injective (Val.affine a d) := by
  intro x y hxy
  cases x <;> cases y <;> simp only [Val.affine, Val.num.injEq, Val.str.injEq, reduceCtorEq] at hxy ⊢
  · exact mul_left_cancel₀ ha.ne' (add_right_cancel hxy)
  · exact hxy

theorem geneParams_affine {a : ℚ} (ha : 0 < a) (d : ℚ) (g : BinGene) :
    geneParams (g.affine a d) = (geneParams g).map fun p => { p with realStep := a * p.realStep } := by
  have h1 : |(a * g.hi + d) - (a * g.lo + d)| = a * |g.hi - g.lo| := by
    rw [show (a * g.hi + d) - (a * g.lo + d) = a * (g.hi - g.lo) by ring, abs_mul, abs_of_pos ha]
  unfold geneParams BinGene.affine
  simp only [h1, mul_eq_zero, ha.ne', false_or, mul_div_mul_left _ _ ha.ne']
  split
  · rfl
  · split
    · rfl
    · simp only [Except.map, mul_div_assoc]

theorem gensParams_affine {a : ℚ} (ha : 0 < a) (d : ℚ) (gens : List BinGene) (off : Nat) :
    gensParams (gens.map (BinGene.affine a d)) off =
      (gensParams gens off).map fun r => (r.1.map fun p => { p with realStep := a * p.realStep }, r.2) := by
  induction gens generalizing off with
  | nil => rfl
  | cons g gs ih =>
    simp only [List.map_cons, gensParams, geneParams_affine ha]
    cases geneParams g with
    | error e => rfl
    | ok p =>
      simp only [Except.map, bind, Except.bind]
      rw [ih]
      cases gensParams gs (off + p.numBits) <;> rfl

theorem binToNat_affine (a d : ℚ) (l : List Val) : binToNat (l.map (Val.affine a d)) = binToNat l := by
  have hb : ∀ (x : Val) (t : String), Val.affine a d x = .str t ↔ x = .str t := by
    intro x t; cases x <;> simp [Val.affine]
  have : ∀ (l : List Val) (acc : Nat), binToNatAux (l.map (Val.affine a d)) acc = binToNatAux l acc := by
    intro l
    induction l with
    | nil => intro acc; rfl
    | cons x xs ih =>
      intro acc
      simp only [List.map_cons, binToNatAux, ih]
      unfold bit0 bit1
      simp only [hb]
  unfold binToNat
  rw [this, List.isEmpty_map]

theorem decodeGenes_affine (a d : ℚ) (gray : Bool) (geno : List Val) : ∀ (gens : List BinGene) (ps : List GeneParams) (offs : List Nat),
    decodeGenes gray (geno.map (Val.affine a d)) (gens.map (BinGene.affine a d)) (ps.map fun p => { p with realStep := a * p.realStep }) offs =
      (decodeGenes gray geno gens ps offs).map (List.map (Val.affine a d))
  | [], _, _ => by simp [decodeGenes, Except.map]
  | _ :: _, [], _ => rfl
  | _ :: _, _ :: _, [] => rfl
  | _ :: _, _ :: _, [_] => rfl
  | g :: gs, p :: ps, x :: y :: offs => by
    have hd : decodeIndex gray (slice (geno.map (Val.affine a d)) x y) = decodeIndex gray (slice geno x y) := by
      unfold decodeIndex slice
      rw [← List.map_drop, ← List.map_take, binToNat_affine]
    simp only [List.map_cons, decodeGenes]
    rw [hd, decodeGenes_affine a d gray geno gs ps (y :: offs)]
    cases decodeIndex gray (slice geno x y) with
    | error e => rfl
    | ok i =>
      cases decodeGenes gray geno gs ps (y :: offs) with
      | error e => rfl
      | ok r =>
        simp only [Except.map, bind, Except.bind, pure, Except.pure, List.map_cons, Val.affine, BinGene.affine]
        congr 3
        ring

theorem encodeGenes_affine {a : ℚ} (ha : 0 < a) (d : ℚ) (gray : Bool) : ∀ (gens : List BinGene) (ps : List GeneParams) (xs : List Val),
    encodeGenes gray (gens.map (BinGene.affine a d)) (ps.map fun p => { p with realStep := a * p.realStep }) (xs.map (Val.affine a d)) =
      encodeGenes gray gens ps xs
  | [], _, _ => by simp [encodeGenes]
  | _ :: _, [], _ => by simp [encodeGenes]
  | _ :: _, _ :: _, [] => by simp [encodeGenes]
  | g :: gs, p :: ps, x :: xs => by
    simp only [List.map_cons, encodeGenes]
    cases x with
    | str t => rfl
    | num q =>
      simp only [Val.affine, BinGene.affine]
      rw [encodeGenes_affine ha d gray gs ps xs]
      have h1 : a * q + d < a * g.lo + d ↔ q < g.lo := by rw [add_lt_add_iff_right, mul_lt_mul_iff_right₀ ha]
      have h2 : a * g.hi + d < a * q + d ↔ g.hi < q := by rw [add_lt_add_iff_right, mul_lt_mul_iff_right₀ ha]
      have h3 : (a * q + d - (a * g.lo + d)) / (a * p.realStep) = (q - g.lo) / p.realStep := by
        rw [show a * q + d - (a * g.lo + d) = a * (q - g.lo) by ring, mul_div_mul_left _ _ ha.ne']
      rw [h3]
      simp only [h1, h2]

/-- The codes are words over `'0'` and `'1'`, which have no unit. -/
theorem encodeGenes_bits {a d : ℚ} (gray : Bool) : ∀ (gens : List BinGene) (ps : List GeneParams) (xs : List Val),
    (encodeGenes gray gens ps xs).map (List.map (Val.affine a d)) = encodeGenes gray gens ps xs
  | [], _, _ => by simp [encodeGenes, Except.map]
  | _ :: _, [], _ => by simp [encodeGenes, Except.map]
  | _ :: _, _ :: _, [] => by simp [encodeGenes, Except.map]
  | g :: gs, p :: ps, x :: xs => by
    simp only [encodeGenes]
    cases x with
    | str t => rfl
    | num q =>
      simp only []
      split
      · rfl
      · cases he : encodeIndex gray (pyRound ((q - g.lo) / p.realStep)).toNat p.numBits with
        | error e => rfl
        | ok b =>
          have ih := encodeGenes_bits (a := a) (d := d) gray gs ps xs
          have hb : b.map (Val.affine a d) = b := by
            conv_rhs => rw [← List.map_id b]
            refine List.map_congr_left fun y hy => ?_
            obtain ⟨t, rfl⟩ := Img.encodeIndex_str he y hy
            rfl
          simp only [bind, Except.bind]
          cases hr : encodeGenes gray gs ps xs with
          | error e => rfl
          | ok r =>
            rw [hr] at ih
            have ih : r.map (Val.affine a d) = r := by injection ih
            simp [Except.map, pure, Except.pure, hb, ih]

theorem Ren.coding_affine {σ : Type} {a : ℚ} (ha : 0 < a) (d : ℚ) (gray : Bool) (gens : List BinGene) :
    Ren.Coding (σ := σ) { val := Val.affine a d, source := .binary gray gens, target := .binary gray (gens.map (BinGene.affine a d)), scale := a } :=
  ⟨⟨Val.affine_injective ha d, .bin gray gens (gens.map (BinGene.affine a d)) rfl rfl (fun _ => rfl) (fun q => ⟨a * q + d, rfl⟩)
    (by
      show gensParamsR Arith.exact.rnd _ 0 = (gensParamsR Arith.exact.rnd gens 0).map _
      rw [Arith.exact_rnd, gensParamsR_id, gensParamsR_id]
      exact gensParams_affine ha d gens 0)
    (fun ps xs => by
      show encodeIndividR Arith.exact.rnd gray _ _ _ = (encodeIndividR Arith.exact.rnd gray gens ps xs).map _
      rw [Arith.exact_rnd, encodeIndividR_id, encodeIndividR_id]
      show encodeIndivid gray (gens.map (BinGene.affine a d)) (ps.map fun p => { p with realStep := a * p.realStep })
        (xs.map (Val.affine a d)) = (encodeIndivid gray gens ps xs).map (List.map (Val.affine a d))
      unfold encodeIndivid
      show (if (xs.map (Val.affine a d)).length ≠ (gens.map (BinGene.affine a d)).length then _ else _) = _
      rw [List.length_map, List.length_map]
      split
      · rfl
      · exact (encodeGenes_affine ha d gray gens ps xs).trans (encodeGenes_bits gray gens ps xs).symm)
    (fun ps offs g => by
      show decodeGenesR Arith.exact.rnd gray _ _ _ offs = (decodeGenesR Arith.exact.rnd gray g gens ps offs).map _
      rw [Arith.exact_rnd, decodeGenesR_id, decodeGenesR_id]
      exact decodeGenes_affine a d gray g gens ps offs)⟩, fun _ => rfl⟩

/-- C77 for `BinaryGA`: measuring the variables in another unit (`a * q + d` in place of `q`, `0 < a`) gives the same
results in that unit. -/
theorem C77_binary {s : St ℚ} (hs : Session s) (gray : Bool) (gens : List BinGene) {a : ℚ} (ha : 0 < a) (d : ℚ) {c c' : Cfg}
    (hx : c.arith = .exact) (h : Cfg.Renamed (Val.affine a d) c c') (ov : Option ℚ) :
    Corresponds id id (Val.affine a d) (observe s (binaryGA c gray gens ov s))
      (observe s (binaryGA c' gray (gens.map (BinGene.affine a d)) ov s)) :=
  renamed_single hs (f := .binary gray gens) (f' := .binary gray (gens.map (BinGene.affine a d)))
    (by rw [hx]; exact Ren.coding_affine ha d gray gens) rfl rfl h ov

theorem renamedRanks {σ : Type} {R : Ren σ} {c c' : Cfg} (h : Cfg.Renamed R.val c c')
    {score : Ind σ → ℚ → Except PyErr σ} :
    R.Ranks id ⟨c.obj1, c.obj2, c.inputTruthy, c.penalty, score, true, c.arith⟩ ⟨c'.obj1, c'.obj2, c.inputTruthy, c.penalty, score, true, c.arith⟩ := by
  refine ⟨fun g => ?_, ⟨id, fun _ => rfl, fun _ _ _ _ _ _ => rfl⟩, fun q => ⟨q, rfl⟩⟩
  show c'.obj1 (g.map R.val) = (c.obj1 g).map id
  rw [h.obj1]
  cases c.obj1 g <;> rfl

/-- C77 for `FFGA`. -/
theorem C77_ffga {s : St ℚ} (hs : Session s) (gray : Bool) (gens : List BinGene) {a : ℚ} (ha : 0 < a) (d : ℚ) {c c' : Cfg}
    (hx : c.arith = .exact) (h : Cfg.Renamed (Val.affine a d) c c') :
    Corresponds id id (Val.affine a d) (observe s (ffga c gray gens s))
      (observe s (ffga c' gray (gens.map (BinGene.affine a d)) s)) := by
  have hsame : SameInput s (blank s) := ⟨rfl, rfl, fun _ => rfl⟩
  rw [C66_ffga hs (.start _ _ _) hsame, C66_ffga hs (.start _ _ _) hsame]
  let R : Ren ℚ := { val := Val.affine a d, source := .binary gray gens, target := .binary gray (gens.map (BinGene.affine a d)), scale := a }
  have hC : R.Coding := Ren.coding_affine ha d gray gens
  have hsc : ∀ x pen, ffgaScore c.arith (R.ind x) pen = ffgaScore c.arith x pen := fun _ _ => rfl
  unfold ffga
  rw [h.truthy, h.penalty, h.arith]
  refine facade_img (R := R) hC rfl rfl (h.config hx.symm) (task := ffgaTask c.obj1 c.obj2 c.inputTruthy c.penalty c.arith)
    (task' := ffgaTask c'.obj1 c'.obj2 c.inputTruthy c.penalty c.arith)
    rfl rfl (fitExec := multiFitnessExec) (fitExec' := multiFitnessExec) (update := multiUpdate)
    (selection := balancedExec) (selection' := balancedExec) _ _ (newGen := multiNewGenExec) (R.plain_blank s)
    (fun fit sa sb h1 h2 => ?_) (Img.multiUpdate hC Function.injective_id Function.injective_id) ?_
    (fun tr => Img.multiNewGenExec hC tr) (s0 := blank s)
  · refine Img.multiFitnessExec hC (renamedFits (R := R) h rfl rfl hsc (newFitness_ok h2).1) ?_
    rw [(newFitness_ok h2).1]
    exact renamedRanks (R := R) h (score := ffgaScore c.arith)
  · exact Img.balancedWith Img.unit (v := id) (fun x => Img.scoreKey (R := R) x) (fun ws => by rw [List.map_id]) 1

/-- C77 for `VEGA`, the part that holds: with a list of conditions.  Without one the objective is called at the origin
to count the objectives, and the origin is not the same point in another unit. -/
theorem C77_vega_partial {s : St (List ℚ)} (hs : VegaSession s) {cs : List Cond} (hcs : s.conds = some cs) (gray : Bool)
    (gens : List BinGene) {a : ℚ} (ha : 0 < a) (d : ℚ) {c c' : Cfg}
    (hx : c.arith = .exact) (h : Cfg.Renamed (Val.affine a d) c c') (ov : Option (List ℚ)) :
    (vega c' gray (gens.map (BinGene.affine a d)) ov s).1 = (vega c gray gens ov s).1 ∧
      ((vega c gray gens ov s).1 = .ok () →
        Corresponds id id (Val.affine a d) (observe s (vega c gray gens ov s))
          (observe s (vega c' gray (gens.map (BinGene.affine a d)) ov s))) := by
  have hsame : SameInput s (blank s) := ⟨rfl, rfl, fun _ => rfl⟩
  let R : Ren (List ℚ) := { val := Val.affine a d, source := .binary gray gens, target := .binary gray (gens.map (BinGene.affine a d)), scale := a }
  have hC : R.Coding := Ren.coding_affine ha d gray gens
  obtain ⟨m, hnum⟩ : ∃ m, ∀ (c : Cfg) n, vegaNumObjectives c n (blank s) = (.ok m, blank s) := by
    refine ⟨cs.count .optimize, fun c n => ?_⟩
    unfold vegaNumObjectives
    rw [bind_of_ok (getS_run _), show (blank s).conds = some cs from hcs]; rfl
  have hsc : ∀ x pen, vegaScore c.arith ov (R.ind x) pen = vegaScore c.arith ov x pen := by
    intro x pen
    unfold vegaScore
    show (match x.objScore.map id with | some (.tup o) => _ | _ => _) = _
    rw [Option.map_id]; rfl
  have hkey : ∀ i x, scoreAt i (R.ind x) = (scoreAt i x).map id := by
    intro i x
    unfold scoreAt
    show (match x.score.map id with | none => _ | some l => _) = _
    cases x.score with
    | none => rfl
    | some l => simp only [Option.map_some, id]; cases l[i]? <;> rfl
  have hfit : ∀ fit sa sb, sa.conds = (blank s).conds →
      newFitness (vegaTask c.obj1 c.obj2 c.inputTruthy c.penalty ov c.arith) sa = (.ok fit, sb) →
      Img R id (multiFitnessExec fit) (multiFitnessExec { fit with task := vegaTask c'.obj1 c'.obj2 c.inputTruthy c.penalty ov c.arith }) := by
    intro fit sa sb h1 h2
    refine Img.multiFitnessExec hC (renamedFits (R := R) h rfl rfl hsc (newFitness_ok h2).1) ?_
    rw [(newFitness_ok h2).1]
    exact renamedRanks (R := R) h (score := vegaScore c.arith ov)
  have hrun : Corresponds id id (Val.affine a d) (observe (blank s) (vega c gray gens ov (blank s)))
      (observe (blank s) (vega c' gray (gens.map (BinGene.affine a d)) ov (blank s))) := by
    unfold vega
    rw [h.truthy, h.penalty, h.arith, bind_of_ok (hnum c _), bind_of_ok (hnum c' _)]
    have := facade_img (R := R) hC rfl rfl (h.config hx.symm) (task := vegaTask c.obj1 c.obj2 c.inputTruthy c.penalty ov c.arith)
      (task' := vegaTask c'.obj1 c'.obj2 c.inputTruthy c.penalty ov c.arith)
      rfl rfl (fitExec := multiFitnessExec) (fitExec' := multiFitnessExec) (update := multiUpdate)
      (selection := vegaTournamentExec m 3) (selection' := vegaTournamentExec m 3) .onePoint .binString (newGen := newGenExec)
      (R.plain_blank s) hfit
      (Img.multiUpdate hC Function.injective_id Function.injective_id)
      (Img.vegaTournamentExec _ 3 (w := fun _ => id) (fun _ => strictMono_id) hkey)
      (fun tr => Img.newGenExec hC strictMono_id tr) (s0 := blank s)
    exact this
  have hb : VegaSession (blank s) := .start _ _ _
  obtain ⟨e1, e2⟩ := C66_vega hs hb hsame c gray gens ov
  obtain ⟨e3, e4⟩ := C66_vega hs hb hsame c' gray (gens.map (BinGene.affine a d)) ov
  have hres := hrun.result
  have hres : (vega c' gray (gens.map (BinGene.affine a d)) ov (blank s)).1 = (vega c gray gens ov (blank s)).1 := hres
  refine ⟨(e3.trans hres).trans e1.symm, fun hok => ?_⟩
  rw [e2 hok, e4 (by rw [e3, hres, ← e1, hok])]
  exact hrun

/-- C77 for all binary facades, as a user would expect it of `VEGA`. -/
def VegaUnits : Prop := ∀ (s : St (List ℚ)) (gray : Bool) (gens : List BinGene) (a d : ℚ) (c c' : Cfg) (ov : Option (List ℚ)),
  VegaSession s → 0 < a → c.arith = .exact → Cfg.Renamed (Val.affine a d) c c' →
    (vega c' gray (gens.map (BinGene.affine a d)) ov s).1 = (vega c gray gens ov s).1

/-- Two objectives that are not defined at the origin, which is not in the search space. -/
def exHole (x : List Val) : Except PyErr Ret := if x = [.num 0] then .error .zeroDivision else exTwo x

def exHoleCfg : Cfg := { exMulti with obj1 := exHole }

/-- The same in another unit. -/
def exHoleCfg' : Cfg := { exMulti with obj1 := fun x => exHole (x.map (Val.affine 1 1)) }

theorem exHole_renamed : Cfg.Renamed (Val.affine 1 (-1)) exHoleCfg exHoleCfg' := by
  refine ⟨fun g => ?_, fun _ => rfl, rfl, rfl, rfl, rfl, rfl, rfl, rfl, rfl, rfl, rfl, rfl, rfl⟩
  show exHole ((g.map (Val.affine 1 (-1))).map (Val.affine 1 1)) = exHole g
  rw [List.map_map]
  congr 1
  conv_rhs => rw [← List.map_id g]
  refine List.map_congr_left fun x _ => ?_
  cases x with
  | num q => simp [Val.affine]
  | str y => rfl

set_option maxRecDepth 100000 in
theorem exHole_facts :
    (vega exHoleCfg false [⟨1, 8, 1⟩] none { tape := exDraws 500 (exSeed 2) }).1 = .error .zeroDivision ∧
    (vega exHoleCfg' false ([⟨1, 8, 1⟩].map (BinGene.affine 1 (-1))) none { tape := exDraws 500 (exSeed 2) }).1 = .ok () := by
  decide +kernel

/-- C77 is false of `VEGA`: without a list of conditions the objective is called at the origin, even if that point is
not in the search space and the objective is not defined there. -/
theorem C77_vega_refuted : ¬ VegaUnits := by
  intro h
  have := h { tape := exDraws 500 (exSeed 2) } false [⟨1, 8, 1⟩] 1 (-1) exHoleCfg exHoleCfg' none (.start _ _ _) one_pos rfl exHole_renamed
  rw [exHole_facts.1, exHole_facts.2] at this
  cases this

/-! ## Concrete cases -/

theorem cube_strictMono : StrictMono fun q : ℚ => q ^ 3 := (by decide : Odd 3).strictMono_pow

/-- A complete run (`exRun_ok`), with the cube of the objective instead. -/
example : Corresponds (fun q => -(-q) ^ 3) (Ret.map fun q => q ^ 3) id (observe { tape := exTape } exRun)
    (observe { tape := exTape } (exFacade.optimize (exCfg.through (Ret.map fun q => q ^ 3)) none { tape := exTape })) :=
  C76_monotone (.start _ _ _) exFacade exCfg rfl (.inl rfl) cube_strictMono

set_option maxRecDepth 100000 in
example : (exFacade.optimize (exCfg.through (Ret.map fun q => q ^ 3)) none { tape := exTape }).1 = .ok () ∧
    (exFacade.optimize (exCfg.through (Ret.map fun q => q ^ 3)) none { tape := exTape }).2.ga.histBest = [-343, -343, -343] := by
  decide +kernel

/-- A complete run with a constraint and a penalty (`exTrap_facts` in `Props/Ledger.lean`), with 5 added to the objective. -/
def exBoundCfg : Cfg :=
  let o : List Val → Except PyErr Ret := fun x => match exObj x with | .ok (.sc q) => .ok (.tup [8 - q, q]) | r => r
  { exCfg with obj1 := o, penalty := some (newDynamic 1 1 1 2) }

def exBound (c : Cfg) : Except PyErr Unit × St ℚ := exFacade.optimize c none { tape := exTape, conds := some [.le, .optimize] }

set_option maxRecDepth 100000 in
example : (exBound exBoundCfg).1 = .ok () ∧
    (exBound (exBoundCfg.through (Ret.addAt 1 5))).2.ga.histBest = (exBound exBoundCfg).2.ga.histBest.map (· - 5) := by decide +kernel

example : Corresponds (· - 5) (Ret.addAt 1 5) id (observe { tape := exTape, conds := some [.le, .optimize] } (exBound exBoundCfg))
    (observe { tape := exTape, conds := some [.le, .optimize] } (exBound (exBoundCfg.through (Ret.addAt 1 5)))) :=
  C76_shift (.start exTape none (some [.le, .optimize])) exFacade exBoundCfg rfl none 5

example : Corresponds id (Ret.mapAt fun i q => if i = 0 then q ^ 3 else q + 1) id (observe { tape := exDraws 300 (exSeed 20) } (exFfga 20))
    (observe { tape := exDraws 300 (exSeed 20) } (ffga (exMulti.through (Ret.mapAt fun i q => if i = 0 then q ^ 3 else q + 1)) false
      exGenes { tape := exDraws 300 (exSeed 20) })) :=
  C76_ffga (.start _ _ _) exMulti false exGenes (.inl rfl) fun i => by
    by_cases h : i = 0
    · simp only [h, if_true]; exact cube_strictMono
    · simp only [h, if_false]; exact fun a b h => add_lt_add_left h 1

/-- The digits of `exRun` given as words. -/
def exWords : List CatGene := [.values [.str "a", .str "b", .str "c"], .values [.str "a", .str "b"], .values [.num 1, .str "b"]]

/-- `a` becomes `b` and the other way round. -/
def exSwap : Val → Val
  | .str x => if x = "a" then .str "b" else if x = "b" then .str "a" else .str x
  | .num q => .num q

def exWordObj (x : List Val) : Except PyErr Ret := .ok (.sc (x.count (.str "a") + 2 * x.count (.str "c")))

def exWordCfg : Cfg := { exCfg with obj1 := exWordObj }

def exWordCfg' : Cfg := { exCfg with obj1 := fun x => exWordObj (x.map exSwap) }

theorem exSwap_twice (x : Val) : exSwap (exSwap x) = x := by
  cases x with
  | num q => rfl
  | str y =>
    unfold exSwap
    by_cases h1 : y = "a"
    · subst h1; decide
    · by_cases h2 : y = "b"
      · subst h2; decide
      · simp [h1, h2]

theorem exWord_renamed : Cfg.Renamed exSwap exWordCfg exWordCfg' := by
  refine ⟨fun g => ?_, fun _ => rfl, rfl, rfl, rfl, rfl, rfl, rfl, rfl, rfl, rfl, rfl, rfl, rfl⟩
  show exWordObj ((g.map exSwap).map exSwap) = exWordObj g
  rw [List.map_map, show exSwap ∘ exSwap = id from funext exSwap_twice, List.map_id]

set_option maxRecDepth 100000 in
example : (categoricalGA exWordCfg exWords none { tape := exTape }).1 = .ok () ∧
    (categoricalGA exWordCfg exWords none { tape := exTape }).2.ga.histBest = [-2, -2, -2] := by decide +kernel

example : Corresponds id id exSwap (observe { tape := exTape } (categoricalGA exWordCfg exWords none { tape := exTape }))
    (observe { tape := exTape } (categoricalGA exWordCfg' (exWords.map (CatGene.rename exSwap)) none { tape := exTape })) :=
  C77_categorical (.start _ _ _) (Function.LeftInverse.injective exSwap_twice) exWords
    (fun p hp => by simp only [exWords, List.mem_cons, List.not_mem_nil, or_false] at hp; rcases hp with rfl | rfl | rfl <;> trivial)
    exWord_renamed none

end BaumEva
