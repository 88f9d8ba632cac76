import Verif.Proofs.Image
import Verif.Proofs.HomRun
import Verif.Proofs.Fill
import Mathlib.Data.List.Dedup
/-!
# Runs of a transformed problem: the components

`Img` for the functions of the model, from the conditions a transformation has to meet: `Ren.Coding` for the
population, `Ren.Fits` for the objective.
-/
namespace BaumEva

section
variable {σ : Type}

/-- The conditions on a transformation, by the class of the population. -/
inductive Ren.Kind (R : Ren σ) : Prop
  | cat (pools pools' : List CatGene) (source : R.source = .cat pools) (target : R.target = .cat pools')
      (gens : List.Forall₂ (fun p p' => Img R R.val (genCatGene p) (genCatGene p') ∧
        ∀ x, Img R R.val (mutateCatGene p x) (mutateCatGene p' (R.val x))) pools pools')
  | order (a b k a' b' : Int) (t : Int → Int) (source : R.source = .orderCat a b k) (target : R.target = .orderCat a' b' k)
      (gens : pyRange a' (b' + 1) 1 = (pyRange a (b + 1) 1).map t) (val : ∀ i : Int, R.val (.num i) = .num (t i))
  | bin (gray : Bool) (gens gens' : List BinGene) (source : R.source = .binary gray gens)
      (target : R.target = .binary gray gens') (str : ∀ x, R.val (.str x) = .str x)
      (num : ∀ q, ∃ q', R.val (.num q) = .num q')
      (params : gensParamsR R.arith.rnd gens' 0 = (gensParamsR R.arith.rnd gens 0).map fun r => (r.1.map R.par, r.2))
      (encode : ∀ ps xs, encodeIndividR R.arith.rnd gray gens' (ps.map R.par) (R.geno xs) =
        (encodeIndividR R.arith.rnd gray gens ps xs).map R.geno)
      (decode : ∀ ps offs g, decodeGenesR R.arith.rnd gray (R.geno g) gens' (ps.map R.par) offs =
        (decodeGenesR R.arith.rnd gray g gens ps offs).map R.geno)

/-- A transformation of a population: different gene values stay different. -/
structure Ren.Genes (R : Ren σ) : Prop where
  inj : Function.Injective R.val
  kind : R.Kind

/-- Phenotypes are transformed like genotypes. -/
structure Ren.Coding (R : Ren σ) : Prop extends Ren.Genes R where
  seen : ∀ sc, R.seen sc = R.geno

instance {R : Ren σ} : Coe R.Coding R.Genes := ⟨Ren.Coding.toGenes⟩

namespace Img
variable {R : Ren σ}

/-! ## Populations -/

theorem addDict {g g' : List Val} (h : g' = R.geno g) : Img R id (BaumEva.addDict g : M σ Unit) (BaumEva.addDict g') :=
  bind (alloc (by subst h; rfl)) fun r => modGa (fun ga => rfl) fun _ => rfl

theorem resetIdxFrom : ∀ (i : Nat) (rs : List Nat),
    Img R id (BaumEva.resetIdxFrom i rs : M σ Unit) (BaumEva.resetIdxFrom i rs)
  | _, [] => unit
  | i, r :: rs => bind (modInd r fun _ => rfl) fun _ => resetIdxFrom (i + 1) rs

theorem resetIdx : Img R id (BaumEva.resetIdx : M σ Unit) BaumEva.resetIdx :=
  getGa_bind fun _ _ => resetIdxFrom 0 _

theorem decodeIndivid (hC : R.Genes) (a : Attrs) (ha : a.tag = (R.source, R.arith)) (g : List Val) :
    BaumEva.decodeIndivid (R.attrs a) (R.geno g) = (BaumEva.decodeIndivid a g).map R.geno := by
  unfold BaumEva.decodeIndivid
  have ht : (R.attrs a).spec = R.target := rfl
  have har : a.arith = R.arith := congrArg Prod.snd ha
  replace ha : a.spec = R.source := congrArg Prod.fst ha
  rcases hC.kind with ⟨p, p', h1, h2, _⟩ | ⟨x, y, k, x', y', t, h1, h2, _⟩ | ⟨gray, gens, gens', h1, h2, _, _, _, _, hd⟩
  · rw [ht, ha, h1, h2]; rfl
  · rw [ht, ha, h1, h2]; rfl
  · rw [ht, ha, h1, h2]
    simp only [har, show (R.attrs a).arith = a.arith from rfl]
    exact hd _ _ _

theorem adopt (hC : R.Genes) (a : Attrs) (ha : a.tag = (R.source, R.arith)) (g : List Val) :
    BaumEva.adopt (R.attrs a) (R.geno g) = (BaumEva.adopt a g).map R.geno := by
  unfold BaumEva.adopt
  have ht : (R.attrs a).spec = R.target := rfl
  have har : a.arith = R.arith := congrArg Prod.snd ha
  replace ha : a.spec = R.source := congrArg Prod.fst ha
  rcases hC.kind with ⟨p, p', h1, h2, _⟩ | ⟨x, y, k, x', y', t, h1, h2, _⟩ | ⟨gray, gens, gens', h1, h2, _, _, _, he, _⟩
  · rw [ht, ha, h1, h2]; rfl
  · rw [ht, ha, h1, h2]; rfl
  · rw [ht, ha, h1, h2]
    simp only [har, show (R.attrs a).arith = a.arith from rfl]
    exact he _ _

theorem getPhenotype (hC : R.Coding) : Img R id (BaumEva.getPhenotype : M σ Unit) BaumEva.getPhenotype := by
  refine getGa_bind fun ga hga => forEach_id (fun r => bind (getInd r) fun ind => ?_) _
  show Img R id _ (match (ind.phenotype.map (R.seen ind.score)) with | some _ => _ | none => _)
  cases ind.phenotype with
  | some _ => exact unit
  | none =>
    exact bind (genoOf r) fun g => bind (liftE (decodeIndivid hC ga.attrs hga g)) fun p => modInd r fun x => by
      simp [Ren.ind, hC.seen]

theorem ensurePhenotype (hC : R.Coding) : Img R id (BaumEva.ensurePhenotype : M σ Unit) BaumEva.ensurePhenotype :=
  getGa_bind fun _ _ => ite Iff.rfl (fun _ => getPhenotype hC) fun _ => unit

theorem swapPop (hC : R.Coding) : Img R id (BaumEva.swapPop : M σ Unit) BaumEva.swapPop :=
  getGa_bind fun ga _ => forEach_id (l := ga.population) (fun r => modInd r fun x => by simp [Ren.ind, hC.seen])

theorem encodeIndex_str {gray : Bool} {i n : Nat} {l : List Val} (h : encodeIndex gray i n = .ok l) :
    ∀ x ∈ l, ∃ y, x = .str y := by
  intro x hx
  rcases (encodeIndex_shape h).2 x hx with rfl | rfl
  · exact ⟨_, rfl⟩
  · exact ⟨_, rfl⟩

theorem genBinGene (gray : Bool) (p : GeneParams) (hs : ∀ x, R.val (.str x) = .str x) :
    Img R R.geno (BaumEva.genBinGene gray p : M σ (List Val)) (BaumEva.genBinGene gray (R.par p)) := by
  refine bind (randint _ _) fun v => liftE ?_
  show encodeIndex gray v.toNat p.numBits = _
  cases h : encodeIndex gray v.toNat p.numBits with
  | error e => rfl
  | ok l =>
    have := encodeIndex_str h
    show Except.ok l = Except.ok (l.map R.val)
    congr 1
    refine (List.map_id _).symm.trans (List.map_congr_left fun x hx => ?_)
    obtain ⟨y, rfl⟩ := this x hx
    exact (hs y).symm

theorem mapEach_forall₂ {α β γ δ : Type} (w : β → δ) {f : α → M σ β} {f' : γ → M σ δ} {l : List α} {l' : List γ}
    (h : List.Forall₂ (fun a a' => Img R w (f a) (f' a')) l l') :
    Img R (List.map w) (BaumEva.mapEach l f) (BaumEva.mapEach l' f') := by
  induction h with
  | nil => exact pure rfl
  | cons h1 _ ih => exact bind h1 fun _ => bind ih fun _ => pure rfl

theorem generate (hC : R.Genes) (a : Attrs) (ha : a.tag = (R.source, R.arith)) :
    Img R R.geno (BaumEva.generate a : M σ (List Val)) (BaumEva.generate (R.attrs a)) := by
  unfold BaumEva.generate
  have ht : (R.attrs a).spec = R.target := rfl
  replace ha : a.spec = R.source := congrArg Prod.fst ha
  rcases hC.kind with ⟨p, p', h1, h2, hg⟩ | ⟨x, y, k, x', y', t, h1, h2, hg, hv⟩ | ⟨gray, gens, gens', h1, h2, hs, _⟩
  · rw [ht, ha, h1, h2]
    exact mapEach_forall₂ R.val (hg.imp fun _ _ h => h.1)
  · rw [ht, ha, h1, h2]
    refine bind (v := List.map t) ?_ fun l => pure ?_
    · rw [hg]; exact sample t _ _
    · simp only [Ren.geno, List.map_map]
      exact List.map_congr_left fun i _ => (hv i).symm
  · rw [ht, ha, h1, h2]
    exact bind (mapEach R.par R.geno (fun p => genBinGene gray p hs) _) fun parts =>
      pure (by simp [Ren.geno, List.map_flatten]; rfl)

theorem prepare (hC : R.Genes) : Img R id (BaumEva.prepare : M σ Unit) BaumEva.prepare := by
  refine getGa_bind fun ga ha => ?_
  have ht : (R.ga ga).attrs.spec = R.target := rfl
  have har : ga.attrs.arith = R.arith := congrArg Prod.snd ha
  replace ha : ga.attrs.spec = R.source := congrArg Prod.fst ha
  rcases hC.kind with ⟨p, p', h1, h2, hg⟩ | ⟨x, y, k, x', y', t, h1, h2, _⟩ | ⟨gray, gens, gens', h1, h2, _, _, hp, _⟩
  · rw [ht, ha, h1, h2]; exact unit
  · rw [ht, ha, h1, h2]; exact unit
  · rw [ht, ha, h1, h2]
    simp only [har, show (R.ga ga).attrs.arith = ga.attrs.arith from rfl]
    exact bind (liftE hp) fun r => modGa (fun _ => rfl) fun _ => rfl

/-- An input population, transformed. -/
def _root_.BaumEva.Ren.input (R : Ren σ) (i : Option (List (List Val))) : Option (List (List Val)) := i.map (List.map R.geno)

theorem input_getD (i : Option (List (List Val))) : (R.input i).getD [] = (i.getD []).map R.geno := by
  cases i <;> rfl

theorem fill (hC : R.Coding) (input : Option (List (List Val))) :
    Img R id (BaumEva.fill input : M σ Unit) (BaumEva.fill (R.input input)) := by
  refine bind (prepare hC) fun _ => getGa_bind fun ga ha => ?_
  rw [input_getD, List.length_map]
  exact bind (forEach R.geno (fun x => bind (liftE (adopt hC ga.attrs ha x)) fun _ => addDict rfl) _) fun _ =>
    bind (forEach_id (fun _ => bind (generate hC ga.attrs ha) fun _ => addDict rfl) _) fun _ =>
    ite Iff.rfl (fun _ => bind (getPhenotype hC) fun _ => resetIdx) fun _ => resetIdx

theorem geno_injective (hC : R.Genes) : Function.Injective R.geno := List.map_injective_iff.mpr hC.inj

theorem isDuplicate (hC : R.Genes) (rs : List Nat) :
    Img R id (BaumEva.isDuplicate rs : M σ Bool) (BaumEva.isDuplicate rs) := by
  refine bind (mapEach_same R.geno genoOf _) fun gs => pure ?_
  rw [List.dedup_map_of_injective (geno_injective hC), List.length_map]; rfl

theorem _root_.BaumEva.sortByKey_mono {α β κ κ' : Type} [LinearOrder κ] [LinearOrder κ'] (v : α → β) (key : α → κ) (key' : β → κ')
    (hk : ∀ a b, key' (v a) ≤ key' (v b) ↔ key a ≤ key b) (l : List α) :
    sortByKey key' (l.map v) = (sortByKey key l).map v := by
  unfold sortByKey
  refine (List.map_insertionSort (r := fun a b => key a ≤ key b) (s := fun a b => key' a ≤ key' b) v l ?_).symm
  intro a _ b _
  exact (hk a b).symm

theorem sortByScore [LinearOrder σ] (hm : StrictMono R.sc) : Img R id (BaumEva.sortByScore : M σ Unit) BaumEva.sortByScore := by
  refine getGa_bind fun ga _ => bind (v := List.map (Prod.map R.sc id)) ?_ fun keyed => modGa (fun g => ?_) fun _ => rfl
  · refine mapEach_same (Prod.map R.sc id) (fun r => ?_) _
    refine bind (scoreOf r) fun v => ?_
    exact pure rfl
  · rw [sortByKey_mono (Prod.map R.sc id) (fun p => p.1) _ (fun a b => hm.le_iff_le)]
    simp [Ren.ga, Ren.attrs, Function.comp_def]

theorem sortByRank : Img R id (BaumEva.sortByRank : M σ Unit) BaumEva.sortByRank := by
  refine getGa_bind fun ga _ => bind (v := List.map id) ?_ fun keyed => modGa (fun g => ?_) fun _ => rfl
  · refine mapEach_same id (fun r => ?_) _
    refine bind (rankOf r) fun v => ?_
    exact pure rfl
  · simp [Ren.ga, Ren.attrs]

/-! ## Fitness -/

/-- How the objective and the score of the transformed task relate to those of the original one.  `raw` transforms
what the objective returns. -/
structure _root_.BaumEva.Ren.Fits (R : Ren σ) (raw : Ret → Ret) (fit fit' : Fit σ) : Prop where
  cond : fit'.isCond = fit.isCond
  conditions : fit'.conditions = fit.conditions
  idxOpt : fit'.idxOpt = fit.idxOpt
  penalty : fit'.task.penalty = fit.task.penalty
  multi : fit'.task.multi = fit.task.multi
  arith : fit'.task.arith = fit.task.arith
  /-- the calls -/
  call : ∀ g, (if fit'.task.inputTruthy then fit'.task.obj2 else fit'.task.obj1) (R.geno g) =
    ((if fit.task.inputTruthy then fit.task.obj2 else fit.task.obj1) g).map raw
  /-- the number of values returned -/
  check : ∀ v, checkInput fit.task.multi fit.isCond fit.conditions (raw v) =
    (checkInput fit.task.multi fit.isCond fit.conditions v).map (Option.map raw)
  /-- without constraints the returned value is stored -/
  plain : fit.isCond = false → raw = R.obj
  /-- with constraints: only the objective values change -/
  split : fit.isCond = true → (∀ q, ∃ q', raw (.sc q) = .sc q') ∧ ∀ vs, ∃ ws, raw (.tup vs) = .tup ws ∧ ∃ g : List ℚ → List ℚ,
    popAll fit.idxOpt ws = (popAll fit.idxOpt vs).map (fun r => (g r.1, r.2)) ∧
    ∀ r, popAll fit.idxOpt vs = .ok r →
      (if fit.task.multi then Ret.tup (g r.1) else .sc ((g r.1).headD 0)) =
        R.obj (if fit.task.multi then .tup r.1 else .sc (r.1.headD 0))
  /-- the score -/
  score : ∀ x pen, (fit.isCond = false → pen = 0) → fit'.task.score (R.ind x) pen = (fit.task.score x pen).map R.sc

theorem newFitness {t t' : Task σ} (hp : t'.penalty = t.penalty) (hm : t'.multi = t.multi) :
    Img R (fun fit => { fit with task := t' }) (BaumEva.newFitness t) (BaumEva.newFitness t') := by
  refine getS_bind fun s _ => ?_
  rw [hp, hm]
  cases t.penalty with
  | none => exact pure rfl
  | some _ =>
    exact ite Iff.rfl (fun _ => pure rfl) fun _ => ite Iff.rfl (fun _ => pure rfl) fun _ =>
      ite Iff.rfl (fun _ => bind (modifyS (fun _ => rfl) fun _ => rfl) fun _ => pure rfl) fun _ => throwE _

theorem callObj {raw : Ret → Ret} {f f' : List Val → Except PyErr Ret} (h : ∀ g, f' (R.geno g) = (f g).map raw) (g : List Val) :
    Img R raw (BaumEva.callObj f g : M σ Ret) (BaumEva.callObj f' (R.geno g)) :=
  bind (modifyS (fun s => by simp [Ren.st]) fun _ => rfl) fun _ => liftE (h g)

variable {raw : Ret → Ret} {fit fit' : Fit σ}

theorem calcObj (hF : R.Fits raw fit fit') (g : List Val) :
    Img R (Option.map raw) (BaumEva.calcObj fit g) (BaumEva.calcObj fit' (R.geno g)) := by
  refine bind (callObj hF.call g) fun v => liftE ?_
  rw [hF.multi, hF.cond, hF.conditions]
  exact hF.check v

theorem feasLoop (r : Nat) : ∀ (cs : List Cond) (vs : List ℚ),
    Img R id (BaumEva.feasLoop r cs vs : M σ Unit) (BaumEva.feasLoop r cs vs)
  | _, [] => by unfold BaumEva.feasLoop; exact unit
  | [], _ :: _ => throwE _
  | c :: cs, v :: vs =>
    bind (ite Iff.rfl (fun _ => unit) fun _ => modInd r fun _ => rfl) fun _ => feasLoop r cs vs

theorem bestArg (s : St σ) : BaumEva.bestArg (R.st s) = BaumEva.bestArg s := by
  unfold BaumEva.bestArg
  show (match s.ga.best with | none => _ | some (.single r _) => _ | some (.pareto _ _) => _) = _
  rcases s.ga.best with _ | ⟨r, g⟩ | ⟨f, g⟩ <;> rfl

theorem evalCond (hF : R.Fits raw fit fit') (r : Nat) (vs : List ℚ) {ws : List ℚ} {g : List ℚ → List ℚ}
    (h2 : popAll fit.idxOpt ws = (popAll fit.idxOpt vs).map (fun r => (g r.1, r.2)))
    (h3 : ∀ r, popAll fit.idxOpt vs = .ok r →
      (if fit.task.multi then Ret.tup (g r.1) else .sc ((g r.1).headD 0)) =
        R.obj (if fit.task.multi then .tup r.1 else .sc (r.1.headD 0))) :
    Img R id (BaumEva.evalCond fit r vs) (BaumEva.evalCond fit' r ws) := by
  unfold BaumEva.evalCond
  rw [hF.idxOpt, h2, hF.conditions, hF.multi, hF.penalty, hF.arith]
  cases hp : popAll fit.idxOpt vs with
  | error e => intro s hs; exact ⟨rfl, hs⟩
  | ok pr =>
    have h3 := h3 pr hp
    have hgo : Img R id (BaumEva.modInd r (fun ind =>
          { ind with objScore := some (if fit.task.multi then .tup pr.1 else .sc (pr.1.headD 0)) }) >>= fun _ =>
        BaumEva.feasLoop r fit.conditions pr.2 >>= fun _ => BaumEva.getS >>= fun s =>
        match fit.task.penalty with
        | none => BaumEva.throwE .attributeError
        | some p => BaumEva.liftE (p.value fit.task.arith fit.conditions pr.2 s.ga.idxGeneration (BaumEva.bestArg s)))
        (BaumEva.modInd r (fun ind =>
          { ind with objScore := some (if fit.task.multi then .tup (g pr.1) else .sc ((g pr.1).headD 0)) }) >>= fun _ =>
        BaumEva.feasLoop r fit.conditions pr.2 >>= fun _ => BaumEva.getS >>= fun s =>
        match fit.task.penalty with
        | none => BaumEva.throwE .attributeError
        | some p => BaumEva.liftE (p.value fit.task.arith fit.conditions pr.2 s.ga.idxGeneration (BaumEva.bestArg s))) := by
      refine bind (modInd r fun x => ?_) fun _ => bind (feasLoop r _ _) fun _ => getS_bind fun s _ => ?_
      · rw [h3]; rfl
      · rw [bestArg]
        cases fit.task.penalty with
        | none => exact throwE _
        | some p => exact liftE_id
    exact hgo

theorem evalValues (hF : R.Fits raw fit fit') (r : Nat) (v : Option Ret) :
    Img R id (BaumEva.evalValues fit r v) (BaumEva.evalValues fit' r (v.map raw)) := by
  unfold BaumEva.evalValues
  rw [hF.cond]
  refine ite Iff.rfl (fun hc => ?_) fun hc => bind (modInd r fun x => ?_) fun _ => pure rfl
  · obtain ⟨h1, h2⟩ := hF.split hc
    rcases v with _ | (q | vs)
    · exact throwE _
    · obtain ⟨q', hq⟩ := h1 q
      simp only [Option.map_some, hq]
      exact throwE _
    · obtain ⟨ws, e, g, e2, e3⟩ := h2 vs
      simp only [Option.map_some, e]
      exact evalCond hF r vs e2 e3
  · rw [hF.plain (by simpa using hc)]; rfl

theorem evalInd (hC : R.Coding) (hF : R.Fits raw fit fit') (r : Nat) :
    Img R id (BaumEva.evalInd fit r) (BaumEva.evalInd fit' r) := by
  refine bind (getInd r) fun ind => ?_
  show Img R id _ (match ind.score.map R.sc with | some _ => _ | none => _)
  cases ind.score with
  | some _ => exact unit
  | none =>
    refine bind (genoOf r) fun g => bind (calcObj hF g) fun v =>
      bind_of (fun pen => fit.isCond = false → pen = 0) (evalValues hF r v) ?_ fun pen hpen =>
      bind (getInd r) fun ind => bind (liftE (hF.score ind pen hpen)) fun sc => modInd r fun _ => by simp [Ren.ind, hC.seen]
    intro s pen s' h hc
    unfold BaumEva.evalValues at h
    rw [hc, ite_run, if_neg (by simp)] at h
    obtain ⟨_, s1, _, h2⟩ := bind_ok.mp h
    exact (pure_ok.mp h2).1

theorem baseFitnessExec (hC : R.Coding) (hF : R.Fits raw fit fit') :
    Img R id (BaumEva.baseFitnessExec fit) (BaumEva.baseFitnessExec fit') :=
  getGa_bind fun _ _ => ite Iff.rfl
    (fun _ => bind (getPhenotype hC) fun _ => bind (swapPop hC) fun _ => bind (forEach_id (evalInd hC hF) _) fun _ => swapPop hC)
    fun _ => forEach_id (evalInd hC hF) _

/-- How the ranking of the transformed task relates to that of the original one. -/
structure _root_.BaumEva.Ren.Ranks (R : Ren σ) (raw : Ret → Ret) (t t' : Task σ) : Prop where
  call : ∀ g, t'.obj1 (R.geno g) = (t.obj1 g).map raw
  tup : ∃ f : List ℚ → List ℚ, (∀ l, raw (.tup l) = .tup (f l)) ∧
    ∀ p q xs ys, t.obj1 p = .ok (.tup xs) → t.obj1 q = .ok (.tup ys) → inferiorOf (f xs) (f ys) = inferiorOf xs ys
  sc : ∀ q, ∃ q', raw (.sc q) = .sc q'

theorem rankPair {t t' : Task σ} (hC : R.Coding) (hT : R.Ranks raw t t') (x y : Nat) :
    Img R id (BaumEva.rankPair t x y) (BaumEva.rankPair t' x y) := by
  obtain ⟨f, hf, hi⟩ := hT.tup
  have hv : ∀ r, Img R f (BaumEva.objVector t r) (BaumEva.objVector t' r) := by
    intro r
    refine bind (getInd r) fun ind => ?_
    show Img R f _ (match ind.phenotype.map (R.seen ind.score) with | none => _ | some _ => _)
    rw [hC.seen]
    cases ind.phenotype with
    | none => exact throwE _
    | some p =>
      refine bind (callObj hT.call p) fun v => ?_
      cases v with
      | tup l => rw [hf]; exact pure rfl
      | sc q => obtain ⟨q', h⟩ := hT.sc q; rw [h]; exact throwE _
  have hp : ∀ (r : Nat) (s : St σ) (l : List ℚ) (s' : St σ), BaumEva.objVector t r s = (.ok l, s') → ∃ p, t.obj1 p = .ok (.tup l) := by
    intro r s l s' h
    obtain ⟨ind, s1, _, h⟩ := bind_ok.mp h
    cases hph : ind.phenotype with
    | none => rw [hph] at h; simp [BaumEva.throwE] at h
    | some p =>
      rw [hph] at h
      obtain ⟨v, s2, h1, h⟩ := bind_ok.mp h
      obtain ⟨_, _, _, h1⟩ := bind_ok.mp h1
      obtain ⟨h1, _⟩ := liftE_ok.mp h1
      cases v with
      | sc q => simp [BaumEva.throwE] at h
      | tup l' =>
        obtain ⟨rfl, _⟩ := pure_ok.mp h
        exact ⟨p, h1⟩
  refine bind_of (fun xs => ∃ p, t.obj1 p = .ok (.tup xs)) (hv x) (hp x) fun xs hxs =>
    bind_of (fun ys => ∃ p, t.obj1 p = .ok (.tup ys)) (hv y) (hp y) fun ys hys => ?_
  obtain ⟨p, hxs⟩ := hxs
  obtain ⟨q, hys⟩ := hys
  rw [hi p q xs ys hxs hys]
  refine bind liftE_id fun i => ?_
  have hb : ∀ z : Ind σ, bumpRank (R.ind z) = R.ind (bumpRank z) := by
    intro z
    unfold bumpRank
    show (match z.rank with | some (.sc q) => _ | _ => _) = _
    rcases z.rank with _ | (q | l) <;> rfl
  rcases i with _ | (_ | _)
  · exact unit
  · exact modInd y hb
  · exact modInd x hb

theorem rankLoop {t t' : Task σ} (hC : R.Coding) (hT : R.Ranks raw t t') : ∀ l, Img R id (BaumEva.rankLoop t l) (BaumEva.rankLoop t' l)
  | [] => unit
  | x :: xs => bind (forEach_id (rankPair hC hT x) xs) fun _ => rankLoop hC hT xs

theorem assignRanks {t t' : Task σ} (hC : R.Coding) (hT : R.Ranks raw t t') : Img R id (BaumEva.assignRanks t) (BaumEva.assignRanks t') :=
  getGa_bind fun ga _ => bind (forEach_id (l := ga.population) (fun r => modInd r fun x => by cases x; rfl)) fun _ => rankLoop hC hT _

theorem multiFitnessExec (hC : R.Coding) (hF : R.Fits raw fit fit') (hT : R.Ranks raw fit.task fit'.task) :
    Img R id (BaumEva.multiFitnessExec fit) (BaumEva.multiFitnessExec fit') :=
  bind (ensurePhenotype hC) fun _ => bind (assignRanks hC hT) fun _ => baseFitnessExec hC hF

/-! ## Selections -/

theorem baseSelection : Img R id (BaumEva.baseSelection : M σ Unit) BaumEva.baseSelection :=
  bind resetIdx fun _ => bind newPopulation fun _ => modGa (fun _ => rfl) fun _ => rfl

theorem addParent (r : Nat) : Img R id (BaumEva.addParent r : M σ Unit) (BaumEva.addParent r) :=
  bind (getInd r) fun _ => bind (alloc rfl) fun _ => modGa (fun _ => rfl) fun _ => rfl

theorem popAt (i : Int) : Img R id (BaumEva.popAt i : M σ Nat) (BaumEva.popAt i) := by
  refine getGa_bind fun ga _ => ?_
  show Img R id _ (match pyGet? ga.population i with | some r => _ | none => _)
  cases pyGet? ga.population i with
  | none => exact throwE _
  | some r => exact pure rfl

section keyed
variable {κ : Type} [LinearOrder κ] {key : Ind σ → Except PyErr κ} {w : κ → κ}

theorem getBestLoop (hw : StrictMono w) (hk : ∀ x, key (R.ind x) = (key x).map w) : ∀ (is : List Nat) (b : Nat),
    Img R id (BaumEva.getBestLoop key b is) (BaumEva.getBestLoop key b is)
  | [], _ => pure rfl
  | i :: is, b => by
    refine bind (popAt _) fun r => bind (getInd r) fun x => bind (getInd b) fun y => bind (liftE (hk x)) fun kx =>
      bind (liftE (hk y)) fun kb => ?_
    have := getBestLoop hw hk is (if kb < kx then r else b)
    simp only [hw.lt_iff_lt]
    exact this

theorem getBest (hw : StrictMono w) (hk : ∀ x, key (R.ind x) = (key x).map w) :
    ∀ is, Img R id (BaumEva.getBest key is) (BaumEva.getBest key is)
  | [] => throwE _
  | _ :: is => bind (popAt _) fun r => getBestLoop hw hk is r

theorem oneTournament (hw : StrictMono w) (hk : ∀ x, key (R.ind x) = (key x).map w) (size : Int) :
    Img R id (BaumEva.oneTournament key size) (BaumEva.oneTournament key size) :=
  getGa_bind fun _ _ => bind (sample_id _ _) fun t => getBest hw hk t

theorem secondParent (hw : StrictMono w) (hk : ∀ x, key (R.ind x) = (key x).map w) (size : Int) (first : Nat) : ∀ f : Nat,
    Img R id (BaumEva.secondParent key size first f) (BaumEva.secondParent key size first f)
  | 0 => throwE _
  | f + 1 =>
    bind (oneTournament hw hk size) fun _ => bind (getInd _) fun _ => bind (getInd _) fun _ =>
      ite Iff.rfl (fun _ => pure rfl) fun _ => secondParent hw hk size first f

theorem tournamentPair (hw : StrictMono w) (hk : ∀ x, key (R.ind x) = (key x).map w) (size : Int) :
    Img R id (BaumEva.tournamentPair key size) (BaumEva.tournamentPair key size) :=
  bind (oneTournament hw hk size) fun a => getS_bind fun _ _ =>
    bind (secondParent hw hk size a _) fun _ => bind (addParent a) fun _ => addParent _

theorem tournament (hw : StrictMono w) (hk : ∀ x, key (R.ind x) = (key x).map w) (size : Int) (m : Nat) :
    Img R id (BaumEva.tournament key size m) (BaumEva.tournament key size m) :=
  getGa_bind fun ga _ => forEach_id (l := List.range (numPairs ga m)) (fun _ => tournamentPair hw hk size)

end keyed

theorem checkTournament (size : Int) :
    Img R id (BaumEva.checkTournament size : M σ Unit) (BaumEva.checkTournament size) :=
  getGa_bind fun _ _ => ite Iff.rfl (fun _ => throwE _) fun _ => unit

theorem scoreKey (x : Ind σ) : BaumEva.scoreKey (R.ind x) = (BaumEva.scoreKey x).map R.sc := by
  unfold BaumEva.scoreKey
  show (match x.score.map R.sc with | some v => _ | none => _) = _
  cases x.score <;> rfl

theorem tournamentExec [LinearOrder σ] (hm : StrictMono R.sc) (size : Int) :
    Img R id (BaumEva.tournamentExec size : M σ Unit) (BaumEva.tournamentExec size) :=
  bind (checkTournament size) fun _ => bind baseSelection fun _ => tournament hm scoreKey size 1

theorem vegaTournamentExec {R : Ren (List ℚ)} (m : Nat) (size : Int) {w : Nat → ℚ → ℚ}
    (hw : ∀ i, StrictMono (w i)) (hk : ∀ i x, scoreAt i (R.ind x) = (scoreAt i x).map (w i)) :
    Img R id (BaumEva.vegaTournamentExec m size) (BaumEva.vegaTournamentExec m size) :=
  bind (checkTournament size) fun _ => bind baseSelection fun _ => forEach_id (fun i => tournament (hw i) (hk i) size m) _

theorem getIndex (sel : List ℚ) : Img R id (BaumEva.getIndex sel : M σ Int) (BaumEva.getIndex sel) :=
  getGa_bind fun _ _ => bind random01 fun _ => pure rfl

theorem secondIndex (sel : List ℚ) (first : Int) : ∀ f : Nat,
    Img R id (BaumEva.secondIndex sel first f : M σ Int) (BaumEva.secondIndex sel first f)
  | 0 => throwE _
  | f + 1 => bind (getIndex sel) fun _ => ite Iff.rfl (fun _ => pure rfl) fun _ => secondIndex sel first f

theorem roulettePair (sel : List ℚ) :
    Img R id (BaumEva.roulettePair sel : M σ Unit) (BaumEva.roulettePair sel) :=
  bind (getIndex sel) fun _ => getS_bind fun _ _ =>
    bind (secondIndex sel _ _) fun _ =>
      bind (popAt _) fun _ => bind (addParent _) fun _ => bind (popAt _) fun _ => addParent _

theorem roulette (sel : List ℚ) (m : Nat) :
    Img R id (BaumEva.roulette sel m : M σ Unit) (BaumEva.roulette sel m) :=
  getGa_bind fun ga _ => forEach_id (l := List.range (numPairs ga m)) (fun _ => roulettePair sel)

/-- The roulette, when the weights of the transformed population give the same wheel. -/
theorem balancedWith {pre pre' : M σ Unit} (h : Img R id pre pre') {w w' : Ind σ → Except PyErr ℚ} {v : ℚ → ℚ}
    (hw : ∀ x, w' (R.ind x) = (w x).map v) (hs : ∀ ws, selectionScoresR R.arith.rnd (sumR R.arith.rnd (ws.map v) 0) (ws.map v) =
      selectionScoresR R.arith.rnd (sumR R.arith.rnd ws 0) ws) (m : Nat) :
    Img R id (BaumEva.balancedWith pre w m) (BaumEva.balancedWith pre' w' m) := by
  refine bind baseSelection fun _ => bind h fun _ => bind (v := List.map v) ?_ fun ws => ?_
  · exact getGa_bind fun _ _ => mapEach_same v (fun r => bind (getInd r) fun x => liftE (hw x)) _
  · refine getGa_bind fun ga hga => ?_
    have har : ga.attrs.arith = R.arith := congrArg Prod.snd hga
    simp only [har, show (R.ga ga).attrs.arith = ga.attrs.arith from rfl]
    rw [hs]
    exact bind liftE_id fun _ => roulette _ m

/-! ## Crossovers -/

theorem segmentPoints (lo len : Nat) :
    Img R id (BaumEva.segmentPoints lo len : M σ (Nat × Nat)) (BaumEva.segmentPoints lo len) := by
  refine bind (sample_id _ _) fun l => ?_
  dsimp only [id]
  rcases l with _ | ⟨i, _ | ⟨j, _ | ⟨k, l⟩⟩⟩
  · exact throwE _
  · exact throwE _
  · exact pure rfl
  · exact throwE _

theorem uniformLoop (p1 p2 : List Val) : ∀ i n,
    Img R R.geno (BaumEva.uniformLoop p1 p2 i n : M σ (List Val)) (BaumEva.uniformLoop (R.geno p1) (R.geno p2) i n)
  | _, 0 => by unfold BaumEva.uniformLoop; exact pure rfl
  | i, n + 1 => by
    unfold BaumEva.uniformLoop
    refine bind (randint _ _) fun coin => ?_
    dsimp only [id]
    have : (if coin = 1 then R.geno p1 else R.geno p2)[i]? = ((if coin = 1 then p1 else p2)[i]?).map R.val := by
      split <;> exact List.getElem?_map
    rw [this]
    cases (if coin = 1 then p1 else p2)[i]? with
    | none => exact throwE _
    | some v => exact bind (uniformLoop p1 p2 _ n) fun _ => pure rfl

theorem orderChild {α β : Type} [DecidableEq α] [DecidableEq β] {v : α → β} (hv : Function.Injective v) (len c d : Nat)
    (p1 p2 : List α) : BaumEva.orderChild len c d (p1.map v) (p2.map v) = (BaumEva.orderChild len c d p1 p2).map v := by
  unfold BaumEva.orderChild slice
  simp only [List.map_append, List.map_take, List.map_drop]
  have : (List.filter (fun x => decide (x ∉ List.take (d - c) (List.drop c (p1.map v)))) (p2.map v)) =
      (List.filter (fun x => decide (x ∉ List.take (d - c) (List.drop c p1))) p2).map v := by
    rw [List.filter_map]
    congr 1
    refine List.filter_congr fun x _ => ?_
    simp only [Function.comp, ← List.map_drop, ← List.map_take, List.mem_map_of_injective hv]
  rw [this]

theorem crossGeno (hC : R.Genes) (op : CrossOp) (len : Nat) (p1 p2 : List Val) :
    Img R (Prod.map R.geno R.geno) (BaumEva.crossGeno op len p1 p2 : M σ _)
      (BaumEva.crossGeno op len (R.geno p1) (R.geno p2)) := by
  cases op with
  | onePoint =>
    exact bind (randint _ _) fun _ => pure (by simp [onePoint, Ren.geno, Prod.map, List.map_take, List.map_drop])
  | twoPoint =>
    exact bind (segmentPoints _ _) fun _ =>
      pure (by simp [twoPoint, slice, Ren.geno, Prod.map, List.map_take, List.map_drop])
  | uniform => exact bind (uniformLoop _ _ _ _) fun _ => pure rfl
  | order =>
    exact bind (segmentPoints _ _) fun _ =>
      pure (by unfold orderCross Ren.geno; rw [orderChild hC.inj, orderChild hC.inj]; rfl)

theorem getChild (hC : R.Genes) (op : CrossOp) (len : Nat) (p1 p2 : List Val) :
    Img R id (BaumEva.getChild op len p1 p2 : M σ Nat) (BaumEva.getChild op len (R.geno p1) (R.geno p2)) :=
  bind (crossGeno hC op len p1 p2) fun cs => bind (randint _ _) fun coin => alloc (by
    dsimp only [id, Prod.map]
    by_cases h : coin = 1 <;> simp [h, Ren.ind])

theorem crossPairs (hC : R.Genes) (op : CrossOp) (len : Nat) : ∀ l,
    Img R id (BaumEva.crossPairs op len l : M σ Unit) (BaumEva.crossPairs op len l)
  | [] => unit
  | [_] => throwE _
  | a :: b :: rest =>
    bind (genoOf a) fun _ => bind (genoOf b) fun _ => bind (getChild hC op len _ _) fun _ =>
      bind (modGa (fun _ => rfl) fun _ => rfl) fun _ => crossPairs hC op len rest

theorem crossExec (hC : R.Genes) (op : CrossOp) : Img R id (BaumEva.crossExec op : M σ Unit) (BaumEva.crossExec op) := by
  refine getGa_bind fun ga _ => ?_
  show Img R id _ (match ga.population with | [] => _ | r0 :: _ => _)
  cases ga.population with
  | nil => exact throwE _
  | cons r0 rs =>
    refine bind (genoOf r0) fun g => bind newPopulation fun _ => bind (modGa (fun _ => rfl) fun _ => rfl) fun _ => ?_
    have : (R.geno g).length = g.length := List.length_map _
    rw [this]
    exact crossPairs hC op _ _

/-! ## Mutations -/

theorem determinesMutation (lvl : MutLvl) :
    Img R id (BaumEva.determinesMutation lvl : M σ Bool) (BaumEva.determinesMutation lvl) := by
  refine bind (randint _ _) fun d => ?_
  cases lvl with
  | float q => exact pure rfl
  | str _ => exact throwE _
  | other => exact throwE _

theorem mutateComb (op : MutOp) (g : List Val) :
    Img R R.geno (BaumEva.mutateComb op g : M σ (List Val)) (BaumEva.mutateComb op (R.geno g)) := by
  have hlen : (R.geno g).length = g.length := List.length_map _
  cases op with
  | inversion =>
    unfold BaumEva.mutateComb
    rw [hlen]
    exact bind (segmentPoints _ _) fun _ =>
      pure (by simp [inversion, slice, Ren.geno, List.map_take, List.map_drop])
  | movement =>
    unfold BaumEva.mutateComb
    rw [hlen]
    refine bind (sample_id _ _) fun l => ?_
    dsimp only [id]
    rcases l with _ | ⟨i, _ | ⟨j, _ | ⟨k, l⟩⟩⟩
    · exact throwE _
    · exact throwE _
    · refine pure ?_
      unfold movement Ren.geno
      rw [List.getElem?_map]
      cases g[i]? with
      | none => rfl
      | some z =>
        simp only [Option.map_some]
        rw [List.eraseIdx_map, List.map_insertIdx]
    · exact throwE _
  | swap =>
    unfold BaumEva.mutateComb
    rw [hlen]
    refine bind (sample_id _ _) fun l => ?_
    dsimp only [id]
    rcases l with _ | ⟨i, _ | ⟨j, _ | ⟨k, l⟩⟩⟩
    · exact throwE _
    · exact throwE _
    · refine pure ?_
      unfold swapGenes Ren.geno
      rw [List.getElem?_map, List.getElem?_map]
      cases g[i]? with
      | none => rfl
      | some a =>
        cases g[j]? with
        | none => rfl
        | some b => simp [List.map_set]
    · exact throwE _
  | shift =>
    unfold BaumEva.mutateComb
    rw [hlen]
    exact bind (randint _ _) fun _ => bind (randint _ _) fun _ => bind (choice_id _) fun _ =>
      pure (by simp [shiftGenes, slice, Ren.geno, List.map_take, List.map_drop])
  | binString => exact pure rfl
  | categorical => exact pure rfl

theorem mutateBits (hs : ∀ x, R.val (.str x) = .str x) (hn : ∀ q, ∃ q', R.val (.num q) = .num q') (lvl : MutLvl) : ∀ l,
    Img R R.geno (BaumEva.mutateBits lvl l : M σ (List Val)) (BaumEva.mutateBits lvl (R.geno l))
  | [] => pure rfl
  | x :: xs => by
    refine bind (determinesMutation lvl) fun m => bind (mutateBits hs hn lvl xs) fun ys => pure ?_
    show (if m then (if R.val x = bit0 then bit1 else bit0) else R.val x) :: R.geno ys = _
    have h0 : R.val bit0 = bit0 := hs _
    have h1 : R.val bit1 = bit1 := hs _
    have hx : R.val x = bit0 ↔ x = bit0 := by
      cases x with
      | str y => rw [hs]
      | num q =>
        obtain ⟨q', h⟩ := hn q
        rw [h]
        constructor <;> intro h <;> cases h
    show _ = R.val (if m then (if x = bit0 then bit1 else bit0) else x) :: R.geno ys
    congr 1
    cases m
    · rfl
    · by_cases h : x = bit0
      · simp [h, h0, h1]
      · have h' : ¬ R.val x = bit0 := fun e => h (hx.mp e)
        rw [if_pos rfl, if_pos rfl, if_neg h, if_neg h', h0]

theorem mutateCat (lvl : MutLvl) {pools pools' : List CatGene}
    (h : List.Forall₂ (fun p p' => Img R R.val (BaumEva.genCatGene p) (BaumEva.genCatGene p') ∧
        ∀ x, Img R R.val (BaumEva.mutateCatGene p x) (BaumEva.mutateCatGene p' (R.val x))) pools pools') : ∀ l,
    Img R R.geno (BaumEva.mutateCat lvl pools l : M σ (List Val)) (BaumEva.mutateCat lvl pools' (R.geno l))
  | [] => by unfold BaumEva.mutateCat; exact pure rfl
  | x :: xs => by
    show Img R R.geno _ (BaumEva.mutateCat lvl pools' (R.val x :: R.geno xs))
    unfold BaumEva.mutateCat
    have h1 : Img R R.val (BaumEva.mutateCatAt lvl pools x) (BaumEva.mutateCatAt lvl pools' (R.val x)) := by
      refine bind (determinesMutation lvl) fun m => ite Iff.rfl (fun _ => ?_) fun _ => pure rfl
      cases h with
      | nil => exact throwE _
      | cons h1 _ => exact h1.2 x
    exact bind h1 fun _ => bind (mutateCat lvl (by cases h with | nil => exact .nil | cons _ h2 => exact h2) xs)
      fun _ => pure rfl

theorem mutateChild (hC : R.Genes) (op : MutOp) (hop : op = .binString → ∃ gray gens, R.source = .binary gray gens) (r : Nat) :
    Img R id (BaumEva.mutateChild op r : M σ Unit) (BaumEva.mutateChild op r) := by
  refine getS_bind fun s hs => ?_
  replace hs : s.ga.attrs.spec = R.source := congrArg Prod.fst hs
  cases op with
  | binString =>
    obtain ⟨gr, gn, e⟩ := hop rfl
    rcases hC.kind with ⟨p, p', h1, h2, hg⟩ | ⟨x, y, k, x', y', t, h1, h2, _⟩ | ⟨gray, gens, gens', h1, h2, h3, h4, _⟩
    · rw [e] at h1; cases h1
    · rw [e] at h1; cases h1
    · exact bind (genoOf r) fun _ => bind (mutateBits h3 h4 _ _) fun _ => modInd r fun _ => rfl
  | categorical =>
    refine bind (genoOf r) fun _ => ?_
    show Img R id (match s.ga.attrs.spec with | .cat pools => _ | _ => _) (match R.target with | .cat pools => _ | _ => _)
    rcases hC.kind with ⟨p, p', h1, h2, hg⟩ | ⟨x, y, k, x', y', t, h1, h2, _⟩ | ⟨gray, gens, gens', h1, h2, h3, h4, _⟩
    · rw [hs, h1, h2]; exact bind (mutateCat _ hg _) fun _ => modInd r fun _ => rfl
    · rw [hs, h1, h2]; exact throwE _
    · rw [hs, h1, h2]; exact throwE _
  | _ =>
    refine bind (determinesMutation _) fun m => ?_
    dsimp only [id]
    exact ite Iff.rfl (fun _ => bind (genoOf r) fun _ => bind (mutateComb _ _) fun _ => modInd r fun _ => rfl) fun _ => unit

theorem mutExec (hC : R.Genes) (op : MutOp) : Img R id (BaumEva.mutExec op : M σ Unit) (BaumEva.mutExec op) := by
  refine getS_bind fun s hs => ?_
  replace hs : s.ga.attrs.spec = R.source := congrArg Prod.fst hs
  cases op with
  | binString =>
    show Img R id (match s.ga.attrs.spec with | .binary _ _ => _ | _ => _) (match R.target with | .binary _ _ => _ | _ => _)
    rcases hC.kind with ⟨p, p', h1, h2, hg⟩ | ⟨x, y, k, x', y', t, h1, h2, _⟩ | ⟨gray, gens, gens', h1, h2, h3, h4, _⟩
    · rw [hs, h1, h2]; exact throwE _
    · rw [hs, h1, h2]; exact throwE _
    · rw [hs, h1, h2]
      exact bind liftE_id fun _ => bind (modifyS (fun _ => rfl) fun _ => rfl) fun _ =>
        forEach_id (mutateChild hC _ fun _ => ⟨_, _, h1⟩) _
  | _ => exact forEach_id (mutateChild hC _ (fun h => by cases h)) _

theorem newMutation (op : MutOp) (lvl : MutLvl) :
    Img R id (BaumEva.newMutation op lvl : M σ Unit) (BaumEva.newMutation op lvl) :=
  bind liftE_id fun _ => getGa_bind fun _ _ => modifyS (fun _ => rfl) fun _ => rfl

/-! ## Next generation -/

theorem delDupRev {α β : Type} [DecidableEq α] [DecidableEq β] {v : α → β} (hv : Function.Injective v) : ∀ l : List (α × Nat),
    BaumEva.delDupRev (l.map (Prod.map v id)) = (BaumEva.delDupRev l).map (Prod.map v id)
  | [] => rfl
  | x :: xs => by
    simp only [List.map_cons, BaumEva.delDupRev, List.any_map, List.eraseP_map, Function.comp_def, Prod.map_fst, hv.eq_iff]
    split
    · rfl
    · rw [delDupRev hv xs]; rfl

theorem withGeno (rs : List Nat) :
    Img R (List.map (Prod.map R.geno id)) (BaumEva.withGeno rs : M σ _) (BaumEva.withGeno rs) := by
  refine mapEach_same (Prod.map R.geno id) (fun r => ?_) _
  refine bind (genoOf r) fun g => ?_
  exact pure rfl

theorem addBest (hC : R.Genes) (n : Nat) : Img R id (BaumEva.addBest n : M σ _) (BaumEva.addBest n) := by
  refine getGa_bind fun ga _ => ?_
  refine bind (isDuplicate hC _) fun dup => ite Iff.rfl (fun _ => ?_) fun _ => pure rfl
  refine bind (withGeno _) fun keyed => ?_
  simp only [← List.map_reverse, delDupRev (geno_injective hC), List.map_map]
  exact bind (sample_id _ _) fun _ => pure rfl

theorem resample (hC : R.Genes) (n : Nat) (pool : List Nat) : ∀ (k : Nat) (e : List Nat),
    Img R id (BaumEva.resample pool n k e : M σ _) (BaumEva.resample pool n k e)
  | 0, _ => pure rfl
  | k + 1, e => bind (isDuplicate hC e) fun _ =>
      ite Iff.rfl (fun _ => bind (sample_id _ _) fun _ => resample hC n pool k _) fun _ => pure rfl

theorem addRandom (hC : R.Genes) (n : Nat) : Img R id (BaumEva.addRandom n : M σ _) (BaumEva.addRandom n) := by
  refine getGa_bind fun ga _ => ?_
  refine bind (sample_id _ _) fun _ => bind (resample hC _ _ _ _) fun e => ?_
  show Img R id _ (match ga.population.getLast? with | some r => _ | none => _)
  cases ga.population.getLast? with
  | none => exact throwE _
  | some r => exact pure rfl

theorem frontPrefix (rs : List Nat) : Img R id (BaumEva.frontPrefix rs : M σ _) (BaumEva.frontPrefix rs) :=
  fun _ hs => ⟨rfl, hs⟩

theorem installPop (e : List Nat) : Img R id (BaumEva.installPop e : M σ Unit) (BaumEva.installPop e) :=
  modGa (fun _ => rfl) fun _ => rfl

theorem chooseElites (hC : R.Genes) (tr : Transfer) (n : Nat) :
    Img R id (BaumEva.chooseElites tr n : M σ _) (BaumEva.chooseElites tr n) := by
  cases tr
  · exact addBest hC n
  · exact addRandom hC n

theorem ensureSorted [LinearOrder σ] (hm : StrictMono R.sc) : Img R id (BaumEva.ensureSorted : M σ Unit) BaumEva.ensureSorted :=
  getGa_bind fun _ _ => ite Iff.rfl (fun _ => unit) fun _ => sortByScore hm

theorem newGenExec [LinearOrder σ] (hC : R.Genes) (hm : StrictMono R.sc) (tr : Transfer) :
    Img R id (BaumEva.newGenExec tr : M σ Unit) (BaumEva.newGenExec tr) := by
  refine bind (ensureSorted hm) fun _ => getGa_bind fun ga _ => ?_
  refine ite Iff.rfl (fun _ => bind (chooseElites hC _ _) fun _ => installPop _) fun _ => ?_
  show Img R id _ (match ga.population.getLast? with | some r => _ | none => _)
  cases ga.population.getLast? with
  | none => exact throwE _
  | some r => exact installPop [r]

theorem chooseFront (hC : R.Genes) (tr : Transfer) :
    Img R id (BaumEva.chooseFront tr : M σ _) (BaumEva.chooseFront tr) := by
  refine getGa_bind fun ga _ => ?_
  cases tr
  · exact frontPrefix _
  · exact addRandom hC 10

theorem multiNewGenExec (hC : R.Coding) (tr : Transfer) :
    Img R id (BaumEva.multiNewGenExec tr : M σ Unit) (BaumEva.multiNewGenExec tr) :=
  bind (ensurePhenotype hC) fun _ => bind (chooseFront hC tr) fun _ => installPop _

/-! ## Bookkeeping -/

theorem snapshot : Img R id (BaumEva.snapshot : M σ Unit) BaumEva.snapshot :=
  modifyS (fun s => by simp [Ren.st, Ren.ga, Ren.heap]) fun _ => rfl

theorem recordScores : Img R id (BaumEva.recordScores : M σ Unit) BaumEva.recordScores := by
  refine getGa_bind fun ga _ => ?_
  show Img R id _ (match ga.population.getLast?, ga.population[ga.population.length / 2]?, ga.population.head? with
    | some rb, some rm, some rw => _ | _, _, _ => _)
  cases ga.population.getLast? with
  | none => exact throwE _
  | some rb =>
    cases ga.population[ga.population.length / 2]? with
    | none => exact throwE _
    | some rm =>
      cases ga.population.head? with
      | none => exact throwE _
      | some rw =>
        exact bind (scoreOf rb) fun _ => bind (scoreOf rm) fun _ => bind (scoreOf rw) fun _ =>
          modGa (fun _ => by simp [Ren.ga]) fun _ => rfl

theorem replaceBest (r : Nat) : Img R id (BaumEva.replaceBest r : M σ Unit) (BaumEva.replaceBest r) :=
  bind (getInd r) fun _ => bind (alloc rfl) fun _ => modGa (fun _ => rfl) fun _ => rfl

theorem decideBest [LinearOrder σ] (hm : StrictMono R.sc) (r : Nat) :
    Img R id (BaumEva.decideBest r : M σ Unit) (BaumEva.decideBest r) := by
  refine getGa_bind fun ga _ => ?_
  show Img R id _ (match ga.best with | none => _ | some (.single b _) => _ | some (.pareto _ _) => _)
  rcases ga.best with _ | ⟨b, g⟩ | ⟨f, g⟩
  · exact replaceBest r
  · exact bind (scoreOf b) fun _ => bind (scoreOf r) fun _ => ite hm.lt_iff_lt
      (fun _ => bind (replaceBest r) fun _ => modGa (fun _ => rfl) fun _ => rfl) fun _ => modGa (fun _ => rfl) fun _ => rfl
  · exact throwE _

theorem gaUpdate [LinearOrder σ] (hm : StrictMono R.sc) : Img R id (BaumEva.gaUpdate : M σ Unit) BaumEva.gaUpdate := by
  refine bind (ensureSorted hm) fun _ => bind recordScores fun _ => getGa_bind fun ga _ => ?_
  show Img R id _ (match ga.population.getLast? with | none => _ | some r => _)
  cases ga.population.getLast? with
  | none => exact throwE _
  | some r => exact bind (decideBest hm r) fun _ => bind (modGa (fun _ => rfl) fun _ => rfl) fun _ => snapshot

theorem initFront : Img R id (BaumEva.initFront : M σ Unit) BaumEva.initFront := by
  refine getGa_bind fun ga _ => ?_
  show Img R id _ (match ga.best with | none => _ | some _ => _)
  cases ga.best with
  | none => exact modGa (fun _ => rfl) fun _ => rfl
  | some _ => exact unit

theorem copyAll (rs : List Nat) : Img R id (BaumEva.copyAll rs : M σ _) (BaumEva.copyAll rs) :=
  (mapEach_same id (fun r => bind (getInd r) fun _ => alloc rfl) _).cast (by funext l; simp)

theorem ind_injective (hC : R.Coding) (hs : Function.Injective R.sc) (ho : Function.Injective R.obj) :
    Function.Injective R.ind := by
  have hg := geno_injective (R := R) hC
  intro x y h
  rcases x with ⟨a1, a2, a3, a4, a5, a6, a7⟩
  rcases y with ⟨b1, b2, b3, b4, b5, b6, b7⟩
  simp only [Ren.ind, Ind.mk.injEq, hC.seen] at h
  obtain ⟨h1, h2, h3, h4, h5, h6, h7⟩ := h
  rw [Option.map_injective hg h1, Option.map_injective hg h2, Option.map_injective hs h3, Option.map_injective ho h4, h5, h6, h7]

theorem decideFront [DecidableEq σ] (hC : R.Coding) (hs : Function.Injective R.sc) (ho : Function.Injective R.obj)
    (front : List Nat) : Img R id (BaumEva.decideFront front : M σ Unit) (BaumEva.decideFront front) := by
  refine getS_bind fun s _ => ?_
  show Img R id _ (match s.ga.best with | some (.pareto f _) => _ | _ => _)
  rcases s.ga.best with _ | ⟨b, g⟩ | ⟨f, g⟩
  · exact throwE _
  · exact throwE _
  · refine ite ?_ (fun _ => modGa (fun _ => rfl) fun _ => rfl)
      fun _ => bind (copyAll front) fun _ => modGa (fun _ => rfl) fun _ => rfl
    show f.map (R.heap s.heap) = front.map (R.heap s.heap) ↔ _
    have : R.heap s.heap = R.ind ∘ s.heap := rfl
    rw [this, ← List.map_map, ← List.map_map, (List.map_injective_iff.mpr (ind_injective hC hs ho)).eq_iff]

theorem ensureRankSorted : Img R id (BaumEva.ensureRankSorted : M σ Unit) BaumEva.ensureRankSorted :=
  getGa_bind fun _ _ => ite Iff.rfl (fun _ => unit) fun _ => sortByRank

theorem multiUpdate [DecidableEq σ] (hC : R.Coding) (hs : Function.Injective R.sc) (ho : Function.Injective R.obj) :
    Img R id (BaumEva.multiUpdate : M σ Unit) BaumEva.multiUpdate :=
  bind ensureRankSorted fun _ => getGa_bind fun _ _ => bind (frontPrefix _) fun _ =>
    bind (modGa (fun _ => rfl) fun _ => rfl) fun _ => bind initFront fun _ => bind (decideFront hC hs ho _) fun _ =>
      bind (modGa (fun _ => rfl) fun _ => rfl) fun _ => snapshot

/-! ## Whole runs -/

/-- All components of two collections. -/
structure _root_.BaumEva.Ops.Imgs (R : Ren σ) (ops ops' : Ops σ) : Prop where
  fitness : Img R id ops.fitness ops'.fitness
  update : Img R id ops.update ops'.update
  selection : Img R id ops.selection ops'.selection
  crossover : Img R id ops.crossover ops'.crossover
  mutation : Img R id ops.mutation ops'.mutation
  newGen : Img R id ops.newGen ops'.newGen

variable {ops ops' : Ops σ}

theorem generation (h : ops.Imgs R ops') : Img R id (BaumEva.generation ops) (BaumEva.generation ops') :=
  bind h.selection fun _ => bind h.crossover fun _ => bind h.mutation fun _ => bind h.newGen fun _ =>
    bind h.fitness fun _ => h.update

theorem mainLoop (h : ops.Imgs R ops') (hst : R.stop = id) : ∀ n, Img R id (BaumEva.mainLoop ops n) (BaumEva.mainLoop ops' n)
  | 0 => unit
  | n + 1 => by
    refine bind (generation h) fun _ => getGa_bind fun ga _ => ?_
    show Img R id _ (match R.stop ga.earlyStop with | none => _ | some e => _)
    rw [hst]
    dsimp only [id]
    cases ga.earlyStop with
    | none => exact throwE _
    | some e => exact ite Iff.rfl (fun _ => unit) fun _ => mainLoop h hst n

theorem evolve (h : ops.Imgs R ops') (hst : R.stop = id) (hr : R.rounds = id) :
    Img R id (BaumEva.evolve ops) (BaumEva.evolve ops') :=
  bind h.fitness fun _ => bind h.update fun _ => getGa_bind fun ga _ => by
    have : (R.ga ga).numGenerations = ga.numGenerations := by show R.rounds _ = _; rw [hr]; rfl
    rw [this]
    exact mainLoop h hst _

theorem printBest : Img R id (BaumEva.printBest : M σ Unit) BaumEva.printBest := by
  refine getS_bind fun s _ => ?_
  show Img R id _ (match s.ga.best with | none => _ | some (.single _ _) => _ | some (.pareto _ none) => _ | some (.pareto _ (some _)) => _)
  rcases s.ga.best with _ | ⟨b, g⟩ | ⟨f, _ | g⟩
  · exact throwE _
  · exact unit
  · exact throwE _
  · refine ite ?_ (fun _ => unit) fun _ => throwE _
    show (f.all fun r => ((R.heap s.heap r).phenotype).isSome) = true ↔ _
    simp [Ren.heap, Ren.ind]

end Img
end
end BaumEva
