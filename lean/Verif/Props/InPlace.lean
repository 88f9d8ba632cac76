import Verif.Proofs.InPlace
import Verif.Props.Invariance
import Verif.Props.Genotypes
import Verif.Props.Ledger
/-!
# C120: objectives that change the list they are given

`BinaryGA`: the search is not disturbed, but the phenotypes that are reported are the changed lists.
-/
namespace BaumEva
section
variable {σ : Type} (left : List Val → List Val)

/-! ## The run as a transformed run -/

/-- The change of the phenotypes as a transformation of the state. -/
def spoilRen (spec : PopSpec) (ar : Arith) : Ren σ :=
  { seen := fun sc g => if sc.isSome then left g else g, source := spec, target := spec, arith := ar }

theorem spoilRen_genes (spec : PopSpec) (ar : Arith) : (spoilRen left spec ar : Ren σ).Genes := Ren.genes_same rfl rfl rfl

theorem spoilRen_ind (spec : PopSpec) (ar : Arith) : (spoilRen left spec ar : Ren σ).ind = Ind.spoil left := by
  have hg : (spoilRen left spec ar : Ren σ).geno = id := by funext g; exact List.map_id _
  funext x
  unfold Ren.ind Ind.spoil
  rw [hg]
  cases x with
  | mk g p sc o fe i k =>
    cases sc with
    | none => cases p <;> simp [spoilRen]
    | some v => cases p <;> simp [spoilRen]

theorem spoilRen_st {spec : PopSpec} {ar : Arith} {s : St σ} (hs : s.ga.attrs.tag = (spec, ar)) :
    (spoilRen left spec ar).st s = s.spoil left := by
  have hg : (spoilRen left spec ar : Ren σ).geno = id := by funext g; exact List.map_id _
  have hspec : s.ga.attrs.spec = spec := congrArg Prod.fst hs
  have hpar : (spoilRen left spec ar : Ren σ).par = id := by funext p; simp [Ren.par, spoilRen]
  have hat : (spoilRen left spec ar : Ren σ).attrs s.ga.attrs = s.ga.attrs := by
    unfold Ren.attrs
    rw [hpar, List.map_id, show (spoilRen left spec ar : Ren σ).target = s.ga.attrs.spec from hspec.symm]
  have hga : (spoilRen left spec ar).ga s.ga = s.ga := by
    unfold Ren.ga
    rw [hat, show (spoilRen left spec ar : Ren σ).sc = id from rfl, List.map_id, List.map_id, List.map_id]; rfl
  unfold Ren.st Ren.heap
  rw [hga, hg, List.map_id, spoilRen_ind]; rfl

theorem alike_of_img {spec : PopSpec} {ar : Arith} {α : Type} {m : M σ α} (h : Img (spoilRen left spec ar) id m m) {s : St σ}
    (hs : s.ga.attrs.tag = (spec, ar)) : Alike (St.spoil left) (St.spoil left) m m s := by
  obtain ⟨h1, h2⟩ := h s hs
  have h2 : (m s).2.ga.attrs.tag = (spec, ar) := h2
  rw [spoilRen_st left hs, spoilRen_st left h2] at h1
  have hid : (m s).1.map id = (m s).1 := by cases (m s).1 <;> rfl
  rw [hid] at h1
  refine ⟨by rw [h1], fun a s' e => ?_⟩
  rw [h1, e]

theorem tag_of_img {spec : PopSpec} {ar : Arith} {α : Type} {m : M σ α} (h : Img (spoilRen left spec ar) id m m) {s s' : St σ} {a : α}
    (hs : s.ga.attrs.tag = (spec, ar)) (hm : m s = (.ok a, s')) : s'.ga.attrs.tag = (spec, ar) := by
  have := (h s hs).2
  rw [hm] at this; exact this
end

section
variable (left : List Val → List Val) {fit : Fit ℚ} {size : Int} {op : CrossOp} {mop : MutOp} {tr : Transfer} {s0 : St ℚ}

/-- The components of a run with an objective that changes its argument. -/
def opsInPlace (fit : Fit ℚ) (size : Int) (op : CrossOp) (mop : MutOp) (tr : Transfer) : Ops ℚ :=
  { singleOps fit (.tournament size) op mop tr with fitness := baseFitnessInPlace left fit }

/-- What is known about the members between two generations. -/
structure Valued (s : St ℚ) : Prop where
  alive : ∀ r ∈ s.ga.population, r < s.next
  asc : ∀ r ∈ s.ga.population, (s.heap r).score.isSome
  sorted : s.ga.attrs.isSorted = true
  phen : s.ga.attrs.isPhenotype = true
  decoded : ∀ r ∈ s.ga.population, (s.heap r).phenotype.isSome

theorem generation_alike {s : St ℚ} (hs : Valued s) :
    Alike (St.spoil left) (St.spoil left) (generation (singleOps fit (.tournament size) op mop tr))
      (generation (opsInPlace left fit size op mop tr)) s := by
  let R : Ren ℚ := spoilRen left s.ga.attrs.spec s.ga.attrs.arith
  have hC : R.Genes := spoilRen_genes left _ _
  have hm : StrictMono R.sc := strictMono_id
  have i1 : Img R id (tournamentExec size) (tournamentExec size) := Img.tournamentExec hm _
  have i2 : Img R id (crossExec op) (crossExec op) := Img.crossExec hC _
  have i3 : Img R id (mutExec mop) (mutExec mop) := Img.mutExec hC _
  have i4 : Img R id (newGenExec tr) (newGenExec tr) := Img.newGenExec hC hm tr
  have i6 : Img R id gaUpdate gaUpdate := Img.gaUpdate hm
  have t0 : s.ga.attrs.tag = (s.ga.attrs.spec, s.ga.attrs.arith) := rfl
  unfold generation
  refine Alike.bind (alike_of_img left i1 t0) fun _ a1 h1 => ?_
  have t1 := tag_of_img left i1 t0 h1
  refine Alike.bind (alike_of_img left i2 t1) fun _ a2 h2 => ?_
  have t2 := tag_of_img left i2 t1 h2
  refine Alike.bind (alike_of_img left i3 t2) fun _ a3 h3 => ?_
  have t3 := tag_of_img left i3 t2 h3
  refine Alike.bind (alike_of_img left i4 t3) fun _ a4 h4 => ?_
  have t4 := tag_of_img left i4 t3 h4
  have hbr : breed (tournamentExec size) op mop s = (.ok (), a3) := by
    unfold breed
    change tournamentExec size s = _ at h1
    change crossExec op a1 = _ at h2
    rw [bind_of_ok h1, bind_of_ok h2]
    exact h3
  have hops := singleOps_run fit (.tournament size) op mop tr
  obtain ⟨hB, _⟩ := breed_ok hops.selection hs.alive hbr
  have hsorted : a3.ga.attrs.isSorted = true := by rw [hB.ga]; exact hs.sorted
  have hpop : a3.ga.population = s.ga.population := by rw [hB.ga]
  obtain ⟨pop, es, t, _, e1, _, hel, e2, _⟩ := newGenExec_ok h4
  have e1 := e1 hsorted
  rw [e1, hpop] at hel
  have hh : a4.heap = a3.heap := by rw [e2]
  have hp : a4.ga.population = a3.ga.children ++ es := by rw [e2]
  obtain ⟨n0, hn0, hrange, _⟩ := hB.range
  obtain ⟨_, _, _, _, hnew⟩ := hB.new
  have hes : ∀ r ∈ es, (a3.heap r).score.isSome ∧ (a3.heap r).phenotype.isSome := by
    intro r hr
    have hmem := hel.mem r hr
    have hcore := hB.core r (hs.alive r hmem)
    rw [hcore.score, hcore.phenotype]
    exact ⟨hs.asc r hmem, hs.decoded r hmem⟩
  have hfit : Alike (St.spoil left) (St.spoil left) (baseFitnessExec fit) (baseFitnessInPlace left fit) a4 := by
    refine baseFitness_alike left fit ?_ ?_ ?_
    · rw [e2]; show a3.ga.attrs.isPhenotype = true; rw [hB.ga]; exact hs.phen
    · intro r hr hsc
      rw [hp] at hr ⊢
      rw [hh] at hsc
      have hne : r ∉ es := fun hx => by
        have := (hes r hx).1
        rw [hsc] at this; cases this
      have hc : r ∈ a3.ga.children := by
        rcases List.mem_append.mp hr with hx | hx
        · exact hx
        · exact absurd hx hne
      rw [List.count_append, List.count_eq_zero_of_not_mem hne, Nat.add_zero]
      refine List.count_eq_one_of_mem ?_ hc
      rw [hrange]; exact List.nodup_range'
    · intro r hr hsc
      rw [hp] at hr
      rw [hh] at hsc ⊢
      rcases List.mem_append.mp hr with hx | hx
      · obtain ⟨g, hg, _⟩ := hnew r hx
        rw [hg] at hsc; cases hsc
      · exact (hes r hx).2
  refine Alike.bind hfit fun _ a5 h5 => ?_
  refine alike_of_img left i6 ?_
  have hkeep : a5.ga = a4.ga := by
    have hF := (baseFitness_isFitness fit) a4 a5 () ?_ h5
    · exact hF.ga
    · rw [hh, hp]
      unfold unscored
      rw [List.filter_append]
      have c2 : (es.filter fun r => (a3.heap r).score.isNone) = [] := by
        rw [List.filter_eq_nil_iff]
        intro r hr
        have := (hes r hr).1
        cases hx : (a3.heap r).score with
        | none => rw [hx] at this; cases this
        | some v => simp
      rw [c2, List.append_nil]
      refine List.Nodup.sublist List.filter_sublist ?_
      rw [hrange]; exact List.nodup_range'
  rw [hkeep]; exact t4

theorem Valued.of_after {gray : Bool} {gens : List BinGene} {c : Cfg}
    (hst : Started (.binary gray gens) c.numIndivid c.numGenerations c.input c.childrenPercent (some c.stop) c.arith s0) {k : Nat} {s : St ℚ}
    (h : After (singleOps fit (.tournament size) op mop tr) s0 k s) : Valued s := by
  have hops := singleOps_run fit (.tournament size) op mop tr
  have hinv := h.inv hops hst.fresh
  obtain ⟨s1, hc⟩ := hst.created
  obtain ⟨hprep, hpop⟩ := C10_fill_binary hc
  have hph : s0.ga.attrs.isPhenotype = true := by
    obtain ⟨_, hd, _⟩ := createPopulation_ok hc
    exact hd.phen.mpr ⟨gray, gens, rfl⟩
  obtain ⟨hat, hw⟩ := genotypes_invariant (P := fun _ => True) hst.fresh (fun _ _ _ _ _ _ _ _ _ _ _ => trivial)
    (fun r hr => by
      obtain ⟨g, p, e1, e2, e3, e4, e5⟩ := hpop r hr
      exact ⟨g, e1, trivial, fun _ => ⟨p, e2, e5⟩⟩) h
  refine ⟨hinv.settled.alive, hinv.settled.asc.1, hinv.settled.sorted, by rw [hat]; exact hph, fun r hr => ?_⟩
  obtain ⟨g, _, _, hp⟩ := hw r hr
  obtain ⟨p, hp, _⟩ := hp hph
  rw [hp]; rfl

theorem mainLoop_alike (hD : ∀ k s, After (singleOps fit (.tournament size) op mop tr) s0 k s → Valued s) : ∀ (n k : Nat) (s : St ℚ),
    After (singleOps fit (.tournament size) op mop tr) s0 k s →
    Alike (St.spoil left) (St.spoil left) (mainLoop (singleOps fit (.tournament size) op mop tr) n)
      (mainLoop (opsInPlace left fit size op mop tr) n) s
  | 0, _, s, _ => Alike.pure () s
  | n + 1, k, s, h => by
    unfold mainLoop
    refine (generation_alike left (hD k s h)).bind fun _ s1 h1 => Alike.getGa rfl ?_
    cases s1.ga.earlyStop with
    | none => exact Alike.throwE _ _
    | some e =>
      simp only
      split
      · exact Alike.pure () s1
      · exact mainLoop_alike hD n (k + 1) s1 (h.next h1)

theorem evolve_alike {gray : Bool} {gens : List BinGene} {c : Cfg}
    (hst : Started (.binary gray gens) c.numIndivid c.numGenerations c.input c.childrenPercent (some c.stop) c.arith s0) :
    Alike (St.spoil left) (St.spoil left) (evolve (singleOps fit (.tournament size) op mop tr))
      (evolve (opsInPlace left fit size op mop tr)) s0 := by
  have h0 := hst.fresh
  obtain ⟨s1, hc⟩ := hst.created
  have hph : s0.ga.attrs.isPhenotype = true := by
    obtain ⟨_, hd, _⟩ := createPopulation_ok hc
    exact hd.phen.mpr ⟨gray, gens, rfl⟩
  unfold evolve
  have hfit : Alike (St.spoil left) (St.spoil left) (baseFitnessExec fit) (baseFitnessInPlace left fit) s0 :=
    baseFitness_alike left fit hph (fun r hr _ => List.count_eq_one_of_mem h0.distinct hr)
      (fun r hr hs => by rw [h0.unscored r hr] at hs; cases hs)
  refine Alike.bind hfit fun _ a1 h1 => ?_
  have hS := (baseFitness_isFitness fit) s0 a1 () (h0.distinct.sublist (unscored_sublist _ _)) h1
  let R : Ren ℚ := spoilRen left s0.ga.attrs.spec s0.ga.attrs.arith
  have i6 : Img R id gaUpdate gaUpdate := Img.gaUpdate strictMono_id
  refine Alike.bind (alike_of_img left i6 (by rw [hS.ga]; rfl)) fun _ a2 h2 => Alike.getGa rfl ?_
  exact mainLoop_alike left (fun k s h => Valued.of_after hst h) _ 1 a2 (.first h1 h2)

/-! ## Before the first evaluation -/

/-- Nothing in memory has been evaluated. -/
def Unscored {σ : Type} (s : St σ) : Prop := ∀ r, (s.heap r).score = none

theorem Unscored.spoil {σ : Type} {s : St σ} (h : Unscored s) (hsn : s.snaps = []) : s.spoil left = s := by
  unfold St.spoil
  rw [hsn, show (fun r => (s.heap r).spoil left) = s.heap from funext fun r => Ind.spoil_none left (h r)]
  cases s; simp only at hsn; subst hsn; rfl

theorem fill_unscored {σ : Type} {input : Option (List (List Val))} {s s' : St σ} {u : Unit} (hs : Unscored s)
    (h : fill input s = (.ok u, s')) : Unscored s' := by
  have hmod : ∀ {r : Nat} {f : Ind σ → Ind σ} {a b : St σ} {u : Unit}, (∀ x, (f x).score = x.score) → Unscored a →
      modInd r f a = (.ok u, b) → Unscored b := by
    intro r f a b u hf ha he
    rw [modInd_run] at he
    injection he with _ he
    subst he
    intro q
    by_cases hq : q = r
    · subst hq; simp only [upd, if_true]; rw [hf]; exact ha q
    · simp only [upd, hq, if_false]; exact ha q
  have hadd : ∀ {g : List Val} {a b : St σ} {u : Unit}, Unscored a → addDict g a = (.ok u, b) → Unscored b := by
    intro g a b u ha he
    unfold addDict at he
    obtain ⟨r, c, h1, h2⟩ := bind_ok.mp he
    rw [modGa_ok] at h2
    obtain ⟨rfl, rfl⟩ := alloc_ok.mp h1
    subst h2
    intro q
    show (upd a.heap a.next _ q).score = none
    by_cases hq : q = a.next
    · simp [upd, hq]
    · simp only [upd, hq, if_false]; exact ha q
  unfold fill at h
  obtain ⟨_, s2, h3, h4⟩ := bind_ok.mp h
  have u2 : Unscored s2 := by
    unfold prepare at h3
    rw [bind_of_ok (getGa_run _)] at h3
    cases hsp : s.ga.attrs.spec with
    | binary gray gens =>
      simp only [hsp] at h3
      obtain ⟨r, c, h1, h2⟩ := bind_ok.mp h3
      obtain ⟨_, rfl⟩ := liftE_ok.mp h1
      rw [modGa_ok] at h2
      subst h2; exact hs
    | cat _ =>
      simp only [hsp] at h3
      obtain ⟨_, rfl⟩ := pure_ok.mp h3; exact hs
    | orderCat _ _ _ =>
      simp only [hsp] at h3
      obtain ⟨_, rfl⟩ := pure_ok.mp h3; exact hs
  rw [bind_of_ok (getGa_run _)] at h4
  obtain ⟨_, s3, h5, h6⟩ := bind_ok.mp h4
  have u3 : Unscored s3 := forEach_inv Unscored (fun x _ a b ha he => by
    obtain ⟨g, c, h1, h2⟩ := bind_ok.mp he
    obtain ⟨_, rfl⟩ := liftE_ok.mp h1
    exact hadd ha h2) u2 h5
  obtain ⟨_, s4, h7, h8⟩ := bind_ok.mp h6
  have u4 : Unscored s4 := forEach_inv Unscored (fun x _ a b ha he => by
    obtain ⟨g, c, h1, h2⟩ := bind_ok.mp he
    obtain ⟨hd, _⟩ := generate_ok h1
    have : c.heap = a.heap := by obtain ⟨_, rfl⟩ := hd; rfl
    exact hadd (fun r => by rw [this]; exact ha r) h2) u3 h7
  obtain ⟨s5, u5, h10⟩ : ∃ s5, Unscored s5 ∧ resetIdx s5 = (.ok u, s') := by
    rw [ite_run] at h8
    split at h8
    · obtain ⟨_, s5, h9, h10⟩ := bind_ok.mp h8
      obtain ⟨_, a2, a3⟩ := getPhenotype_ok h9
      refine ⟨s5, fun r => ?_, h10⟩
      by_cases hr : r ∈ s4.ga.population
      · rw [(a2 r hr).keeps]; exact u4 r
      · rw [a3 r hr]; exact u4 r
    · exact ⟨s4, u4, h8⟩
  unfold resetIdx at h10
  rw [bind_of_ok (getGa_run _)] at h10
  have hreset : ∀ (l : List Nat) (i : Nat) (a b : St σ) (u : Unit), Unscored a → resetIdxFrom i l a = (.ok u, b) → Unscored b := by
    intro l
    induction l with
    | nil => intro i a b u ha he; obtain ⟨_, rfl⟩ := pure_ok.mp he; exact ha
    | cons x xs ih =>
      intro i a b u ha he
      rw [resetIdxFrom] at he
      obtain ⟨_, c, h1, h2⟩ := bind_ok.mp he
      exact ih _ c b u (hmod (f := fun ind => { ind with idx := some i }) (fun _ => rfl) ha h1) h2
  exact hreset _ _ _ _ _ u5 h10

/-- A call either fails before the first evaluation, or starts a run. -/
theorem facade_cases {σ : Type} (c : Cfg) (spec : PopSpec) (task : Task σ) (update selection : M σ Unit) (cross : CrossOp) (mutOp : MutOp)
    (newGen : Transfer → M σ Unit) {s : St σ} (hs : Unscored s) :
    (∃ e s1, ∀ fitExec, facade c spec task fitExec update selection cross mutOp newGen s = (.error e, s1)) ∨
    ∃ fit tr s0, Started spec c.numIndivid c.numGenerations c.input c.childrenPercent (some c.stop) c.arith s0 ∧ Unscored s0 ∧
      ∀ fitExec, facade c spec task fitExec update selection cross mutOp newGen s =
        (evolve (facadeOps fitExec update selection cross mutOp newGen fit tr) >>= fun _ => if c.isPrint then printBest else pure ()) s0 := by
  unfold facade newGaData
  simp only [bind_of_ok (modifyS_run _ _)]
  let g0 : GaData σ := { numGenerations := c.numGenerations, childrenPercent := c.childrenPercent, earlyStop := some c.stop, attrs := { arith := c.arith } }
  obtain ⟨t, ht⟩ : ∃ t, newPopulation { s with ga := g0, snaps := [] } = (.ok (), { s with ga := g0, snaps := [], tape := t }) := by
    unfold newPopulation reseed
    cases hsd : s.seed with
    | none => exact ⟨s.tape, rfl⟩
    | some t => exact ⟨t, rfl⟩
  simp only [show ({ numGenerations := c.numGenerations, childrenPercent := c.childrenPercent, earlyStop := some c.stop, attrs := { arith := c.arith } } : GaData σ) = g0 from rfl, bind_of_ok ht]
  by_cases hl : c.numIndivid < (c.input.getD []).length
  · have h1 : ∀ x : St σ, setParams spec c.numIndivid c.input x = (.error .exception, x) := by
      intro x
      unfold setParams
      rw [ite_run, if_pos hl]; rfl
    left
    exact ⟨_, _, fun _ => bind_of_err (h1 _)⟩
  · let s3 : St σ := { s with ga := { g0 with population := [], attrs := { numIndivid := c.numIndivid, spec := spec, isPhenotype := spec.hasPhenotype, arith := c.arith } }, snaps := [], tape := t }
    have h1 : setParams spec c.numIndivid c.input { s with ga := g0, snaps := [], tape := t } = (.ok (), s3) := by
      unfold setParams
      rw [ite_run, if_neg hl]; rfl
    simp only [bind_of_ok h1]
    rcases hnf : newFitness task s3 with ⟨e | fit, s4⟩
    · left
      exact ⟨_, _, fun _ => bind_of_err hnf⟩
    simp only [bind_of_ok hnf]
    have e4 : s4 = { s3 with conds := s4.conds } := by
      rcases (newFitness_ok hnf).2 with ⟨_, _, e, _⟩ | ⟨_, _, cs, _, _, ⟨_, _, _, e⟩ | ⟨_, _, _, _, e⟩⟩
      · rw [e]
      · rw [e]
      · rw [e]
    rcases hmu : newMutation mutOp c.mutationLvl s4 with ⟨e | u, s5⟩
    · left
      exact ⟨_, _, fun _ => bind_of_err hmu⟩
    simp only [bind_of_ok hmu]
    have e5 : s5 = { s4 with mutLvl := s5.mutLvl } := by
      unfold newMutation at hmu
      obtain ⟨l, s5', g1, g2⟩ := bind_ok.mp hmu
      obtain ⟨g3, rfl⟩ := liftE_ok.mp g1
      rw [bind_of_ok (getGa_run _), modifyS_ok] at g2
      rw [g2]
    rcases htr : checkTransfer c.transfer with e | tr
    · left
      exact ⟨_, _, fun _ => bind_of_err (by rfl)⟩
    have hli : ∀ x : St σ, (liftE (.ok tr) : M σ Transfer) x = (.ok tr, x) := fun _ => rfl
    simp only [bind_of_ok (hli _)]
    rcases hfi : fill c.input s5 with ⟨e | u, s0⟩
    · left
      exact ⟨_, _, fun _ => bind_of_err hfi⟩
    right
    refine ⟨fit, tr, s0, started_of_fill hl ?_ ?_ hfi, fill_unscored ?_ hfi, fun fitExec => ?_⟩
    · rw [e5, e4]
    · rw [e5, e4]
    · intro r; rw [e5, e4]; exact hs r
    · exact bind_of_ok hfi

end

/-! ## C120 -/

/-- C120 for `BinaryGA`: an objective that changes the list it is given does not disturb the search.  The call ends like
the one with an objective that leaves its argument alone; if it returns, everything is as there — draws, genotypes, scores,
histories, best solution, arguments of the calls — except that the phenotypes of evaluated individuals are the changed
lists. -/
theorem C120_search (left : List Val → List Val) (c : Cfg) (gray : Bool) (gens : List BinGene) (ov : Option ℚ) {s : St ℚ}
    (hs : Unscored s) :
    (binaryGAInPlace left c gray gens ov s).1 = (binaryGA c gray gens ov s).1 ∧
    ∀ s', binaryGA c gray gens ov s = (.ok (), s') → binaryGAInPlace left c gray gens ov s = (.ok (), s'.spoil left) := by
  unfold binaryGAInPlace binaryGA
  rcases facade_cases c (.binary gray gens) (hyperbolaTask c.obj1 c.obj2 c.inputTruthy c.penalty ov c.arith) gaUpdate
    (tournamentExec c.tournamentSize) .onePoint .binString newGenExec hs with ⟨e, s1, h⟩ | ⟨fit, tr, s0, hst, hu, h⟩
  · rw [h, h]
    exact ⟨rfl, fun s' e => by cases e⟩
  · rw [h, h]
    have hal := evolve_alike left (fit := fit) (size := c.tournamentSize) (op := .onePoint) (mop := .binString) (tr := tr) hst
    have hpr : ∀ t, Alike (St.spoil left) (St.spoil left) (if c.isPrint then printBest else pure () : M ℚ Unit)
        (if c.isPrint then printBest else pure ()) t := by
      intro t
      split
      · exact alike_of_img left (Img.printBest (R := spoilRen left t.ga.attrs.spec t.ga.attrs.arith)) rfl
      · exact Alike.pure () t
    have := hal.bind (fun _ s' _ => hpr s')
    have hsp : s0.spoil left = s0 := hu.spoil left hst.fresh.snaps
    unfold Alike at this
    rw [hsp] at this
    exact ⟨this.1, fun s' e => this.2 () s' e⟩

/-- C120 for `BinaryGA`, what is reported (no constraints, exact arithmetic): `best_solution` has the score of the best
point that was evaluated, but its phenotype is what the objective made of that point. -/
theorem C120_reported {left : List Val → List Val} {c : Cfg} {gray : Bool} {gens : List BinGene} {ov : Option ℚ} {s s' : St ℚ}
    (hs : Unscored s) (hx : c.arith = .exact) (hn : ¬ Constrained c s.conds) (h : binaryGAInPlace left c gray gens ov s = (.ok (), s')) :
    ∃ b gen p o, s'.ga.best = some (.single b gen) ∧ (s'.heap b).phenotype = some (left p) ∧ p ∈ evaluated s s' ∧
      c.objective p = .ok (.sc o) ∧ (s'.heap b).objScore = some (.sc o) ∧
      ∀ p' ∈ evaluated s s', ∃ o', c.objective p' = .ok (.sc o') ∧ cost ov o ≤ cost ov o' := by
  obtain ⟨h1, h2⟩ := C120_search left c gray gens ov hs
  rcases hr : binaryGA c gray gens ov s with ⟨x, t⟩
  rw [hr, h] at h1
  obtain rfl : _ = x := h1
  have h3 := h2 t hr
  rw [h] at h3
  injection h3 with _ h3
  subst h3
  have hr' : (SingleFacade.binary gray gens).optimize c ov s = (.ok (), t) := hr
  obtain ⟨b, gen, p, o, e1, e2, e3, e4, e5, e6⟩ := C72_best_of_all hx hn hr'
  obtain ⟨q, s0, sa, sb, k, hf, hcs, hst, hcalls, hk⟩ := SingleFacade.run_full hr'
  obtain ⟨b', gen', v, f1, f2, _⟩ := best_in_generations hst.fresh hk
  rw [e1] at f1
  injection f1 with f1
  injection f1 with f1 f1'
  subst f1
  refine ⟨b, gen, p, o, e1, ?_, e3, e4, e5, e6⟩
  have e2 : (t.heap b).phenotype = some p := e2
  show (Ind.spoil left (t.heap b)).phenotype = some (left p)
  unfold Ind.spoil
  simp [f2, e2]

/-- C120 for populations without phenotype (permutations, categories): the list that is changed is the genotype itself.
After an evaluation the genotype of every individual that was evaluated is what the objective made of it; individuals that
had a score keep theirs. -/
theorem C120_genotype {σ : Type} (left : List Val → List Val) {fit : Fit σ} {s s' : St σ} {u : Unit} (hp : s.ga.attrs.isPhenotype = false)
    (h : baseFitnessInPlace left fit s = (.ok u, s')) :
    (∀ r ∈ s.ga.population, (s.heap r).score = none → (s'.heap r).genotype = (s.heap r).genotype.map left) ∧
    (∀ r, (s.heap r).score.isSome → s'.heap r = s.heap r) ∧ ∀ r, r ∉ s.ga.population → s'.heap r = s.heap r := by
  unfold baseFitnessInPlace at h
  rw [bind_of_ok (getGa_run s)] at h
  simp only [hp, Bool.false_eq_true, if_false] at h
  have key : ∀ (l : List Nat) (a b : St σ) (u : Unit), forEach l (evalIndInPlace left fit) a = (.ok u, b) →
      (∀ r ∈ l, (a.heap r).score = none → (b.heap r).genotype = (a.heap r).genotype.map left) ∧
      (∀ r, (a.heap r).score.isSome → b.heap r = a.heap r) ∧ ∀ r, r ∉ l → b.heap r = a.heap r := by
    intro l
    induction l with
    | nil =>
      intro a b u he
      rw [forEach_nil] at he
      injection he with _ he
      subst he
      exact ⟨fun r hr => absurd hr List.not_mem_nil, fun _ _ => rfl, fun _ _ => rfl⟩
    | cons x xs ih =>
      intro a b u he
      obtain ⟨c, h1, h2⟩ := forEach_cons_ok.mp he
      obtain ⟨i1, i2, i3⟩ := ih c b u h2
      unfold evalIndInPlace at h1
      rw [bind_of_ok (getInd_run x a)] at h1
      cases hx : (a.heap x).score with
      | some v =>
        rw [hx] at h1
        obtain ⟨_, rfl⟩ := pure_ok.mp h1
        refine ⟨fun r hr hn => ?_, i2, fun r hr => i3 r fun h => hr (List.mem_cons_of_mem _ h)⟩
        rcases List.mem_cons.mp hr with rfl | hr
        · rw [hx] at hn; cases hn
        · exact i1 r hr hn
      | none =>
        simp only [hx] at h1
        obtain ⟨_, d, h3, h4⟩ := bind_ok.mp h1
        rw [modInd_run] at h4
        injection h4 with _ h4
        subst h4
        rcases evalInd_ok h3 with ⟨hsome, _⟩ | ⟨_, g, y, ba, hg, _, hto, rfl⟩
        · rw [hx] at hsome; cases hsome
        obtain ⟨z1, z2, _⟩ := hto.scored
        have hcx : ∀ r, r ≠ x → (upd (upd a.heap x y) x { upd a.heap x y x with genotype := (upd a.heap x y x).genotype.map left }) r = a.heap r := by
          intro r hr; simp [upd, hr]
        have hxx : (upd (upd a.heap x y) x { upd a.heap x y x with genotype := (upd a.heap x y x).genotype.map left }) x =
            { y with genotype := y.genotype.map left } := by simp [upd]
        refine ⟨fun r hr hn => ?_, fun r hs => ?_, fun r hr => ?_⟩
        · by_cases hrx : r = x
          · subst hrx
            rw [i2 r (by show (upd _ _ _ r).score.isSome; rw [hxx]; exact z1)]
            show (upd _ _ _ r).genotype = _
            rw [hxx, ← z2]
          · rcases List.mem_cons.mp hr with rfl | hr
            · exact absurd rfl hrx
            · have := i1 r hr (by show (upd _ _ _ r).score = none; rw [hcx r hrx]; exact hn)
              rw [this]
              show Option.map left (upd _ _ _ r).genotype = _
              rw [hcx r hrx]
        · have hrx : r ≠ x := by rintro rfl; rw [hx] at hs; cases hs
          rw [i2 r (by show (upd _ _ _ r).score.isSome; rw [hcx r hrx]; exact hs)]
          exact hcx r hrx
        · have hrx : r ≠ x := by rintro rfl; exact hr List.mem_cons_self
          rw [i3 r fun h => hr (List.mem_cons_of_mem _ h)]
          exact hcx r hrx
  exact key _ _ _ _ h

/-! ### What this means for the reported solution -/

/-- What a user expects: the reported point has the reported value, whatever the objective does to its argument. -/
def ReportedValue : Prop :=
  ∀ (left : List Val → List Val) (c : Cfg) (gray : Bool) (gens : List BinGene) (s s' : St ℚ), Unscored s → c.arith = .exact →
    ¬ Constrained c s.conds → binaryGAInPlace left c gray gens none s = (.ok (), s') →
    ∀ b gen p, s'.ga.best = some (.single b gen) → (s'.heap b).phenotype = some p →
      ∃ o, c.objective p = .ok (.sc o) ∧ (s'.heap b).objScore = some (.sc o)

/-- `x[0] + 10 * x[1]`. -/
def exWeighted (g : List Val) : Except PyErr Ret :=
  match g with
  | [.num a, .num b] => .ok (.sc (a + 10 * b))
  | _ => .error .typeError

def exPlaceCfg : Cfg := { exCfg with obj1 := exWeighted }

/-- The objective reverses the list it is given. -/
def exPlace : Except PyErr Unit × St ℚ :=
  binaryGAInPlace List.reverse exPlaceCfg true [⟨0, 3, 1⟩, ⟨-1, 1, 1 / 2⟩] none { tape := exTape }

set_option maxRecDepth 100000 in
theorem exPlace_ok : exPlace.1 = .ok () := by decide +kernel

theorem exPlace_eq : binaryGAInPlace List.reverse exPlaceCfg true [⟨0, 3, 1⟩, ⟨-1, 1, 1 / 2⟩] none { tape := exTape } = (.ok (), exPlace.2) := by
  rw [← exPlace_ok]; rfl

/-- The reported point and the reported value. -/
def exReported : Option (Option (List Val) × Option Ret) :=
  match exPlace.2.ga.best with
  | some (.single b _) => some ((exPlace.2.heap b).phenotype, (exPlace.2.heap b).objScore)
  | _ => none

/-- C120 is about this run: it returns, and leaves what the run with a well-behaved objective leaves, up to phenotypes. -/
example : ∃ s', binaryGA exPlaceCfg true [⟨0, 3, 1⟩, ⟨-1, 1, 1 / 2⟩] none { tape := exTape } = (.ok (), s') ∧ exPlace.2 = s'.spoil List.reverse := by
  obtain ⟨h1, h2⟩ := C120_search List.reverse exPlaceCfg true [⟨0, 3, 1⟩, ⟨-1, 1, 1 / 2⟩] none (s := { tape := exTape }) (fun _ => rfl)
  rw [exPlace_eq] at h1
  rcases hr : binaryGA exPlaceCfg true [⟨0, 3, 1⟩, ⟨-1, 1, 1 / 2⟩] none { tape := exTape } with ⟨x, s'⟩
  rw [hr] at h1
  obtain rfl : _ = x := h1
  have := h2 s' hr
  rw [exPlace_eq] at this
  exact ⟨s', rfl, by injection this⟩

/-- A population of categories with one individual still to be evaluated and one evaluated before; the objective sorts
(here: reverses) the categories it is given. -/
def exCats : St ℚ :=
  { heap := fun i => if i = 0 then { genotype := some [.str "a", .str "b"] } else { genotype := some [.str "c", .str "d"], score := some 4 }
    ga := { population := [0, 1] } }

example : exCats.ga.attrs.isPhenotype = false ∧
    (baseFitnessInPlace List.reverse ⟨hyperbolaTask (fun _ => .ok (.sc 1)) (fun _ => .ok (.sc 1)) false none none .exact, false, [], []⟩ exCats).1 = .ok () := by
  refine ⟨rfl, ?_⟩
  decide +kernel

set_option maxRecDepth 100000 in
theorem exReported_eq : exReported = some (some [.num (-5 / 7), .num 1], some (.sc (-43 / 7))) := by decide +kernel

/-- C120: the reported point need not have the reported value. -/
theorem C120_reported_refuted : ¬ ReportedValue := by
  intro h
  have hr := exReported_eq
  unfold exReported at hr
  split at hr
  · rename_i b gen hb
    simp only [Option.some.injEq, Prod.mk.injEq] at hr
    obtain ⟨o, h1, h2⟩ := h _ _ _ _ _ _ (fun _ => rfl) rfl (by unfold Constrained; decide) exPlace_eq b gen _ hb hr.1
    rw [hr.2] at h2
    injection h2 with h2
    injection h2 with h2
    subst h2
    have : (Except.ok (Ret.sc (-5 / 7 + 10 * 1)) : Except PyErr Ret) = .ok (.sc (-43 / 7)) := h1
    injection this with this
    injection this with this
    norm_num at this
  · cases hr

/-- What a user expects of permutations: they stay permutations, whatever the objective does to its argument. -/
def ToursStay : Prop :=
  ∀ (left : List Val → List Val) (c : Cfg) (a b k : Int) (s s' : St ℚ), Unscored s → c.input = none →
    combinatoryGAInPlace left c a b k none s = (.ok (), s') → ∀ l ∈ generationsOf s', ∀ x ∈ l, ∃ g, x.genotype = some g ∧ Spec.IsTrack a b k g

def exTourCfg : Cfg := { exCfg with obj1 := fun g => .ok (.sc g.length) }

/-- The objective closes the tour it is given: `tour.append(tour[0])`. -/
def exTour : Except PyErr Unit × St ℚ := combinatoryGAInPlace (fun g => g ++ g.take 1) exTourCfg 1 6 5 none { tape := exTape }

set_option maxRecDepth 100000 in
theorem exTour_ok : exTour.1 = .ok () := by decide +kernel

set_option maxRecDepth 100000 in
/-- Tours of five towns have six entries after the first generation, new ones seven after the second. -/
theorem exTour_lengths : exTour.2.snaps.map (List.map fun x => x.genotype.map List.length) =
    [[some 6, some 6, some 6, some 6], [some 7, some 7, some 6, some 6, some 6], [some 7, some 7, some 6, some 6, some 6]] := by
  decide +kernel

/-- C120: permutations do not stay permutations. -/
theorem C120_tours_refuted : ¬ ToursStay := by
  intro h
  have hl := exTour_lengths
  have he : combinatoryGAInPlace (fun g => g ++ g.take 1) exTourCfg 1 6 5 none { tape := exTape } = (.ok (), exTour.2) := by
    rw [← exTour_ok]; rfl
  have := h _ _ _ _ _ _ _ (fun _ => rfl) rfl he
  cases hs : exTour.2.snaps with
  | nil => rw [hs] at hl; cases hl
  | cons l ls =>
    rw [hs] at hl
    simp only [List.map_cons, List.cons.injEq] at hl
    cases l with
    | nil => cases hl.1
    | cons x xs =>
      simp only [List.map_cons, List.cons.injEq] at hl
      obtain ⟨g, h1, h2⟩ := this (x :: xs) (by show _ ∈ exTour.2.snaps; rw [hs]; exact List.mem_cons_self) x List.mem_cons_self
      have hlen := hl.1.1
      rw [h1] at hlen
      injection hlen with hlen
      have := h2.1
      omega
end BaumEva
