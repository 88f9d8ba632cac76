import Verif.Props.NoCrash
import Verif.Props.Matching
import Verif.Proofs.SafeVega
import Verif.Proofs.SafeMultiRun
import Verif.Proofs.SafeWheel
/-!
# C87: multi-objective runs raise no exception
-/
namespace BaumEva
open Spec
variable {σ : Type}

/-! ## which calls are meant -/

/-- The penalty charges something for every list of constraint values and does not look at the best solution
(`AdaptivePenalty` does, which raises `KeyError` in multi-objective runs, see C62). -/
def BlindPenalty (p : Penalty) (ks : List Cond) : Prop := p.name ≠ "AdaptivePenalty" ∧ Charges p ks

/-- The objective and the conditions of a multi-objective task fit together: `n` values to be minimised, for a conditional task
together with one value for each constraint. -/
def VectorObjective (c : Cfg) (conds : Option (List Cond)) (Space : List Val → Prop) (n : Nat) : Prop :=
  ((c.penalty = none ∨ (conds.getD [.optimize]).length ≤ 1) ∧ ∀ x, Space x → ∃ vs, c.obj1 x = .ok (.tup vs) ∧ vs.length = n) ∨
  ∃ p cs, c.penalty = some p ∧ conds = some cs ∧ 2 ≤ cs.length ∧ cs.count .optimize = n ∧
    KnownSigns (cs.filter fun k => k ≠ .optimize) ∧ BlindPenalty p (cs.filter fun k => k ≠ .optimize) ∧
    ∀ x, Space x → ∃ vs, c.obj1 x = .ok (.tup vs) ∧ vs.length = cs.length

/-- Parameters of `FFGA` and `VEGA` that are admissible, apart from the size of the population and the transfer of parents. -/
structure VectorTask (gray : Bool) (gens : List BinGene) (c : Cfg) (conds : Option (List Cond)) (n : Nat) : Prop where
  genes : (SingleFacade.binary gray gens).Usable
  input : ∀ x ∈ c.input.getD [], (SingleFacade.binary gray gens).Space x
  room : (c.input.getD []).length ≤ c.numIndivid
  level : (SingleFacade.binary gray gens).Level c.mutationLvl
  plain : c.inputTruthy = false
  uniform : UniformVecs c.obj1
  objective : VectorObjective c conds ((SingleFacade.binary gray gens).Points c.arith) n
  arith : (SingleFacade.binary gray gens).Computes c.arith

/-- The parameters of `FFGA.optimize()` are admissible. -/
structure FfgaCall (gray : Bool) (gens : List BinGene) (c : Cfg) (conds : Option (List Cond)) : Prop where
  task : ∃ n, VectorTask gray gens c conds n
  some : 1 ≤ c.numIndivid
  transfer : c.transfer = "best" ∨ (c.transfer = "random" ∧ 11 ≤ c.numIndivid)

/-- And the arithmetic is exact: in machine arithmetic the roulette wheel of `FFGA` can raise `IndexError` (C97). -/
structure FfgaAdmissible (gray : Bool) (gens : List BinGene) (c : Cfg) (conds : Option (List Cond)) : Prop
    extends FfgaCall gray gens c conds where
  exact : c.arith = .exact

/-- No population of an `FFGA` run is larger. -/
def Cfg.ffgaLargest (c : Cfg) : Nat := c.numIndivid + 11 + c.numGenerations * c.children

/-- The parameters of `VEGA.optimize()` are admissible; `m`: the number of objectives as the facade counts them, `n`: as the objective
returns them. -/
structure VegaAdmissible (gray : Bool) (gens : List BinGene) (c : Cfg) (ov : Option (List ℚ)) (conds : Option (List Cond)) (m n : Nat) :
    Prop where
  task : VectorTask gray gens c conds n
  counts : CountsObjectives c gens.length conds m
  enough : m ≤ n
  target : ∀ ts, ov = .some ts → n ≤ ts.length
  size : 4 ≤ c.numIndivid
  transfer : c.transfer = "best" ∨ (c.transfer = "random" ∧ 1 ≤ m ∧ m ≤ 2 ^ 53 ∧ m ≤ c.childrenPercent * c.numIndivid)

/-! ## the objective -/

theorem popAll_run : ∀ {is : List Nat} {vs : List ℚ}, is.Pairwise (· > ·) → (∀ i ∈ is, i < vs.length) →
    ∃ pr, popAll is vs = .ok pr ∧ pr.1.length = is.length ∧ pr.2.length + is.length = vs.length := by
  intro is
  induction is with
  | nil => intro vs _ _; exact ⟨_, rfl, rfl, rfl⟩
  | cons i is ih =>
    intro vs hp hl
    have hi := hl i (by simp)
    rw [List.pairwise_cons] at hp
    have hlen : (vs.eraseIdx i).length = vs.length - 1 := by rw [List.length_eraseIdx, if_pos hi]
    obtain ⟨pr, h1, h2, h3⟩ := ih (vs := vs.eraseIdx i) hp.2 (fun j hj => by have := hp.1 j hj; omega)
    refine ⟨(vs[i] :: pr.1, pr.2), ?_, by simp [h2], by simp; omega⟩
    rw [popAll, List.getElem?_eq_getElem hi]
    simp only
    rw [h1]
    rfl

theorem optIdx_length (cs : List Cond) : (optIdx cs).length = cs.count .optimize := by
  induction cs using List.reverseRecOn with
  | nil => rfl
  | append_singleton cs c ih =>
    rw [optIdx_snoc, List.length_append, List.count_append, ih]
    by_cases h : c = .optimize <;> simp [h]

theorem popAll_objectives {cs : List Cond} {vs : List ℚ} (h : vs.length = cs.length) :
    ∃ pr, popAll (optIdx cs).reverse vs = .ok pr ∧ pr.1.length = cs.count .optimize ∧
      (cs.filter fun k => k ≠ .optimize).length = pr.2.length := by
  have hp : (optIdx cs).reverse.Pairwise (· > ·) := by
    rw [List.pairwise_reverse]
    exact List.pairwise_lt_range.sublist List.filter_sublist
  obtain ⟨pr, h1, h2, h3⟩ := popAll_run (vs := vs) hp (by
    intro i hi
    rw [List.mem_reverse] at hi
    have := List.mem_range.mp (List.mem_filter.mp hi).1
    omega)
  rw [List.length_reverse, optIdx_length] at h2 h3
  refine ⟨pr, h1, h2, ?_⟩
  have hc : (cs.filter fun k => k ≠ .optimize).length + cs.count .optimize = cs.length := by
    clear h h1 h2 h3 hp
    induction cs with
    | nil => rfl
    | cons c cs ih =>
      by_cases hc : c = .optimize
      · subst hc; simp at ih ⊢; omega
      · rw [List.filter_cons_of_pos (by simp [hc]), List.count_cons_of_ne hc, List.length_cons, List.length_cons]; omega
  omega

theorem blind_value {ar : Arith} (R : Rounding ar.rnd) {p : Penalty} {ks : List Cond} (h : BlindPenalty p ks) (hk : KnownSigns ks) {vs : List ℚ}
    (hl : ks.length = vs.length) (gen : Nat) (best : BestArg) : ∃ pen, 0 ≤ pen ∧ p.value ar ks vs gen best = .ok pen := by
  obtain ⟨hn, (⟨δ, c, α, β, h1, h2, h3, h4, rfl⟩ | ⟨δ, b1, b2, β, h1, h2, h3⟩) | ⟨n1, n2, f, e, hf⟩⟩ := h
  · obtain ⟨pen, e, h0, _⟩ := C37_dynamic R h1 h2 h3.toGrowingPower h4 hk hl best
    exact ⟨pen gen, h0 gen, e gen⟩
  · exfalso
    unfold newAdaptive at h3
    split at h3
    · cases h3
    split at h3
    · cases h3
    split at h3
    · cases h3
    injection h3 with h3
    subst h3
    exact hn rfl
  · obtain ⟨q, q0, hq⟩ := hf vs hl.symm
    refine ⟨q, q0, ?_⟩
    unfold Penalty.value
    rw [if_neg n1, if_neg n2, e]
    exact hq

/-- The evaluation of a point of the search space: `n` values, a penalty that is not negative. -/
theorem vector_evaluable {c : Cfg} {task : Task σ} {Space : List Val → Prop} {fit : Fit σ} {s s' : St σ} {n : Nat}
    (ho : VectorObjective c s.conds Space n) (h1 : task.obj1 = c.obj1) (hin : task.inputTruthy = false) (hpen : task.penalty = c.penalty)
    (R : Rounding task.arith.rnd) (hm : task.multi = true) (h : newFitness task s = (.ok fit, s')) {Sc : Option Rank → Prop}
    (hsc : ∀ (a : Ind σ) (os : List ℚ) (pen : ℚ), Sc a.rank → a.objScore = some (.tup os) → os.length = n → 0 ≤ pen →
      ∃ sc, task.score a pen = .ok sc)
    {x : List Val} (hx : Space x) {b : Option Best} {gen : Nat} {rk : Option Rank} (hrk : Sc rk) :
    (∃ l, fit.task.obj1 x = .ok (.tup l)) ∧ Evaluable fit b gen rk x := by
  obtain ⟨ht, hcase⟩ := newFitness_ok h
  rw [ht]
  unfold Evaluable
  rw [ht, hin, hm]
  simp only [Bool.false_eq_true, if_false]
  rw [h1]
  rcases ho with ⟨hun, hval⟩ | ⟨p, cs, e1, e2, e3, e4, e5, e6, hval⟩
  · obtain ⟨vs, hv, hvl⟩ := hval x hx
    have hc : fit.isCond = false := by
      rcases hcase with ⟨hc, _⟩ | ⟨_, ⟨p, hp⟩, cs, hcs, hl, _⟩
      · exact hc
      · rcases hun with hun | hun
        · rw [hpen, hun] at hp; cases hp
        · rw [hcs, Option.getD_some] at hun; omega
    refine ⟨⟨vs, hv⟩, .tup vs, some (.tup vs), hv, rfl, ?_⟩
    rw [hc]
    simp only [Bool.false_eq_true, if_false]
    intro a ha ho
    exact hsc a vs 0 (ha ▸ hrk) ho hvl le_rfl
  · obtain ⟨vs, hv, hvl⟩ := hval x hx
    rcases hcase with ⟨_, _, _, hp | hp⟩ | ⟨hc, _, cs', hcs, hl, ⟨_, hco, hidx, _⟩ | ⟨hmt, _⟩⟩
    · rw [hpen, e1] at hp; cases hp
    · rw [e2, Option.getD_some] at hp; omega
    · rw [e2] at hcs
      injection hcs with hcs
      subst hcs
      obtain ⟨pr, p1, p2, p3⟩ := popAll_objectives hvl
      refine ⟨⟨vs, hv⟩, .tup vs, some (.tup vs), hv, rfl, ?_⟩
      rw [hc]
      simp only [if_true]
      refine ⟨vs, pr, p, rfl, by rw [hidx]; exact p1, by rw [hco, p3], by rw [hpen, e1], ?_⟩
      intro best _
      rw [hco]
      obtain ⟨pen, q0, hq⟩ := blind_value R e6 e5 p3 gen best
      refine ⟨pen, hq, fun a ha ho => ?_⟩
      exact hsc a pr.1 pen (ha ▸ hrk) ho (p2.trans e4) q0
    · rw [hm] at hmt; cases hmt

/-- What an evaluation says about the values the score is computed from. -/
theorem vector_evaluated {c : Cfg} {task : Task σ} {Space : List Val → Prop} {fit : Fit σ} {s s' : St σ} {n : Nat}
    (ho : VectorObjective c s.conds Space n) (h1 : task.obj1 = c.obj1) (hin : task.inputTruthy = false) (hpen : task.penalty = c.penalty)
    (R : Rounding task.arith.rnd) (hm : task.multi = true) (h : newFitness task s = (.ok fit, s')) {ga : GaData σ} (hb : ga.attrs.isPhenotype = true)
    {best : BestArg} {m y : Ind σ} (he : Evaluated fit ga best m y) (hy : ∀ p, y.phenotype = some p → Space p) :
    ∃ a os pen sc, a.rank = m.rank ∧ a.objScore = some (.tup os) ∧ os.length = n ∧ 0 ≤ pen ∧ task.score a pen = .ok sc ∧ y.score = some sc := by
  obtain ⟨ht, hcase⟩ := newFitness_ok h
  obtain ⟨g, hs, he⟩ := he
  rw [if_pos hb] at he
  obtain ⟨ret, vals, os, feas, pen, sc, e1, e2, e3, e4, e5⟩ := he
  have hyy : y = swapInd (swapInd y) := rfl
  have hp : y.phenotype = some g := by
    rw [hyy, e3]
    unfold seen at hs
    rw [if_pos hb] at hs
    exact hs
  have hys : y.score = some sc := by rw [hyy, e3]; rfl
  have hx := hy g hp
  rw [ht, hin] at e1
  simp only [Bool.false_eq_true, if_false] at e1
  rw [h1] at e1
  rw [ht, hm] at e2
  unfold checkInput at e2
  rw [if_pos rfl] at e2
  rw [ht] at e4
  rcases ho with ⟨hun, hval⟩ | ⟨p, cs, f1, f2, f3, f4, f5, f6, hval⟩
  · obtain ⟨vs, hv, hvl⟩ := hval g hx
    rw [hv] at e1
    injection e1 with e1
    subst e1
    simp only [Except.ok.injEq] at e2
    have hc : fit.isCond = false := by
      rcases hcase with ⟨hc, _⟩ | ⟨_, ⟨p, hp⟩, cs, hcs, hl, _⟩
      · exact hc
      · rcases hun with hun | hun
        · rw [hpen, hun] at hp; cases hp
        · rw [hcs, Option.getD_some] at hun; omega
    rcases e5 with ⟨_, e5, _, e6⟩ | ⟨e5, _⟩
    · exact ⟨{ swapInd m with objScore := os, feasible := feas }, vs, pen, sc, rfl, e5.trans e2.symm, hvl, e6.ge, e4, hys⟩
    · rw [hc] at e5; cases e5
  · obtain ⟨vs, hv, hvl⟩ := hval g hx
    rw [hv] at e1
    injection e1 with e1
    subst e1
    simp only [Except.ok.injEq] at e2
    rcases hcase with ⟨_, _, _, hp | hp⟩ | ⟨hc, _, cs', hcs, hl, ⟨_, hco, hidx, _⟩ | ⟨hmt, _⟩⟩
    · rw [hpen, f1] at hp; cases hp
    · rw [f2, Option.getD_some] at hp; omega
    · rw [f2] at hcs
      injection hcs with hcs
      subst hcs
      obtain ⟨pr, p1, p2, p3⟩ := popAll_objectives hvl
      rcases e5 with ⟨e5, _⟩ | ⟨_, vs', pr', p', g1, g2, g3, _, _, g6, g7⟩
      · rw [hc] at e5; cases e5
      · rw [← e2] at g1
        injection g1 with g1
        injection g1 with g1
        subst g1
        rw [hidx] at g2
        have g2' := p1.symm.trans g2
        injection g2' with g2'
        subst g2'
        rw [ht, hm, if_pos rfl] at g3
        have g6 : task.penalty = some p' := by rw [← ht]; exact g6
        rw [hpen, f1] at g6
        injection g6 with g6
        subst g6
        rw [hco] at g7
        obtain ⟨pen', q0, hq⟩ := blind_value (ar := fit.task.arith) (by rw [ht]; exact R) f6 f5 p3 ga.idxGeneration best
        rw [hq] at g7
        injection g7 with g7
        exact ⟨{ swapInd m with objScore := os, feasible := feas }, pr.1, pen, sc, rfl, g3, p2.trans f4, g7 ▸ q0, e4, hys⟩
    · rw [hm] at hmt; cases hmt

theorem multi_newFitness_safe {task : Task σ} (hm : task.multi = true) (s : St σ) : Safe (newFitness task) s := by
  unfold newFitness
  refine Safe.bind_ok (getS_run s) ?_
  cases task.penalty with
  | none => exact Safe.pure _ _
  | some p =>
    refine Safe.ite (fun _ => Safe.pure _ _) (fun _ => ?_)
    rw [if_pos hm]
    exact Safe.pure _ _

/-! ## the facade -/

theorem facade_safe {c : Cfg} {gray : Bool} {gens : List BinGene} {task : Task σ} {fitExec : Fit σ → M σ Unit} {update selection : M σ Unit}
    {newGen : Transfer → M σ Unit} {s : St σ} (hu : (SingleFacade.binary gray gens).Usable)
    (hin : ∀ x ∈ c.input.getD [], (SingleFacade.binary gray gens).Space x) (hroom : (c.input.getD []).length ≤ c.numIndivid)
    (hx : (SingleFacade.binary gray gens).Computes c.arith) (hlev : (SingleFacade.binary gray gens).Level c.mutationLvl) (htr : ∃ tr, checkTransfer c.transfer = .ok tr) (hm : task.multi = true)
    (hrun : ∀ fit tr (sa sb s0 : St σ), newFitness task sa = (.ok fit, sb) → sa.conds = s.conds → checkTransfer c.transfer = .ok tr →
      (∀ D, Modest D s → Modest D s0) →
      (∃ l, checkMutation .binString c.mutationLvl = .ok l ∧ s0.mutLvl = l.stored c.arith) →
      Started (.binary gray gens) c.numIndivid c.numGenerations c.input c.childrenPercent (some c.stop) c.arith s0 →
      Safe (evolve { fitness := fitExec fit, update := update, selection := selection, crossover := crossExec .onePoint,
                     mutation := mutExec .binString, newGen := newGen tr }) s0 ∧
      ∀ k s7, After { fitness := fitExec fit, update := update, selection := selection, crossover := crossExec .onePoint,
                      mutation := mutExec .binString, newGen := newGen tr } s0 k s7 → Safe printBest s7) :
    Safe (facade c (.binary gray gens) task fitExec update selection .onePoint .binString newGen) s := by
  obtain ⟨l, hlvl⟩ := level_check hlev
  obtain ⟨tr, htr⟩ := htr
  have hlen : ¬ c.numIndivid < (c.input.getD []).length := by omega
  unfold facade newGaData newPopulation setParams newMutation
  refine Safe.bind_ok (modifyS_run _ _) (Safe.bind (Safe.reseed _) ?_)
  intro _ s2 h2
  obtain ⟨t, e2⟩ := reseed_ok h2
  rw [if_neg hlen]
  refine Safe.bind_ok (modGa_run _ _) (Safe.bind (multi_newFitness_safe hm _) ?_)
  intro fit s4 h4
  have e4 : s4 = { s2 with ga := s4.ga, conds := s4.conds } ∧ s4.ga = { s2.ga with population := [], attrs := { numIndivid := c.numIndivid, spec := .binary gray gens, isPhenotype := (PopSpec.binary gray gens).hasPhenotype, arith := s2.ga.attrs.arith } } := by
    rcases (newFitness_ok h4).2 with ⟨_, _, e, _⟩ | ⟨_, _, cs, _, _, ⟨_, _, _, e⟩ | ⟨_, _, _, _, e⟩⟩
    all_goals rw [e]; exact ⟨rfl, rfl⟩
  obtain ⟨e4, e4g⟩ := e4
  refine Safe.bind (Safe.bind (Safe.liftE_ok hlvl _) (fun _ _ _ => Safe.bind_ok (getGa_run _) (Safe.of_ok (modifyS_run _ _)))) ?_
  intro _ s5 h5
  obtain ⟨l', s5', g1, g2⟩ := bind_ok.mp h5
  have g1' : liftE (.ok l) s4 = (.ok l', s5') := hlvl ▸ g1
  obtain ⟨g3, rfl⟩ := liftE_ok.mp g1'
  injection g3 with g3
  subst g3
  rw [bind_of_ok (getGa_run _), modifyS_ok] at g2
  refine Safe.bind (Safe.liftE_ok htr _) ?_
  intro tr' s6 h6
  rw [htr] at h6
  obtain ⟨g3, rfl⟩ := liftE_ok.mp h6
  injection g3 with g3
  subst g3
  have hga : s6.ga = { numGenerations := c.numGenerations, childrenPercent := c.childrenPercent, earlyStop := some c.stop
                       attrs := { numIndivid := c.numIndivid, spec := .binary gray gens, isPhenotype := (PopSpec.binary gray gens).hasPhenotype, arith := c.arith } } := by
    rw [g2]; simp only; rw [e4g, e2]
  have hsn : s6.snaps = [] := by rw [g2]; simp only; rw [e4, e2]
  have hspec : s6.ga.attrs.spec = (SingleFacade.binary gray gens).spec := by rw [hga]; rfl
  refine Safe.bind (fill_safe (prepare_safe hu hspec (by rw [hga]; exact hx)) ?_ ?_ (by rw [hga])) ?_
  · intro at_ hat har hprep
    rw [hspec] at hat
    exact ⟨fun x hx' => adopt_safe hu (by rw [har, hga]; exact hx) hat hprep (hin x hx'), fun s' => generate_safe hu hat hprep s'⟩
  · exact fun _ => ⟨gray, gens, hspec⟩
  intro _ s0 h12
  have hst := started_of_fill hlen hga hsn h12
  have hmut : ∃ l, checkMutation .binString c.mutationLvl = .ok l ∧ s0.mutLvl = l.stored c.arith := by
    refine ⟨l, hlvl, ?_⟩
    obtain ⟨_, _, _, _, _, _, _, _, _, b1, b2, _⟩ := fill_ok (by rw [hga]) (by rw [hga]; simp only; omega) h12
    rw [b2, g2]
    simp only
    rw [e4g, e2]
  have hmod : ∀ D, Modest D s → Modest D s0 := by
    intro D hD
    refine Keeps.ok (fill_frame (modest_frame D).toQuiet.still _) h12 ?_
    have h2' := Keeps.ok (modest_frame D).toQuiet.still.calm.reseed h2 hD
    rw [g2, e4]
    exact h2'
  obtain ⟨hev, hpr⟩ := hrun fit tr _ _ s0 h4 (by rw [e2]) htr hmod hmut hst
  refine Safe.bind hev ?_
  intro _ s7 h7
  refine Safe.ite (fun _ => ?_) (fun _ => Safe.pure _ _)
  obtain ⟨_, k, _, _, _, hk, _⟩ := evolve_after h7
  exact hpr k s7 hk

/-! ## what FFGA and VEGA have in common -/

theorem MultiInv.front_nonempty {f : List Val → Except PyErr Ret} {s : St σ} {k : Nat} (h : MultiInv f s k) (hne : s.ga.population ≠ []) :
    (s.ga.population.filter fun r => (s.heap r).rank = some (.sc 1)) ≠ [] := by
  obtain ⟨r0, hr0⟩ := List.exists_mem_of_ne_nil _ hne
  obtain ⟨b, hb, hn, _⟩ := exists_nonDominated f (s.ga.population.map s.heap) _ (List.mem_map_of_mem hr0)
  obtain ⟨r1, hr1, rfl⟩ := List.mem_map.mp hb
  have h1 := (h.rank_one hr1).mpr hn
  exact List.ne_nil_of_mem (List.mem_filter.mpr ⟨hr1, by simp [h1]⟩)

/-- The parts of `MultiSafe` that follow from `VectorTask`. -/
theorem VectorTask.safe [DecidableEq σ] {gray : Bool} {gens : List BinGene} {c : Cfg} {n q : Nat} {task : Task σ} {fit : Fit σ} {sa sb s0 : St σ}
    {ops : Ops σ} {op : CrossOp} {mop : MutOp} {X : Ind σ → Prop} {Sc : Option Rank → Prop}
    (ht : VectorTask gray gens c sa.conds n) (hM : Matching (.binary gray gens) op mop) (h1 : task.obj1 = c.obj1) (h2 : task.inputTruthy = c.inputTruthy) (h3 : task.penalty = c.penalty)
    (hR : Rounding task.arith.rnd) (h4 : task.multi = true)
    (hfit : newFitness task sa = (.ok fit, sb))
    (hsc : ∀ (a : Ind σ) (os : List ℚ) (pen : ℚ), Sc a.rank → a.objScore = some (.tup os) → os.length = n → 0 ≤ pen →
      ∃ sc, task.score a pen = .ok sc)
    (hrk : ∀ q, 1 ≤ q → Sc (some (.sc q)))
    (hX : ∀ x y, X x → SameResult true x y → X y)
    (hXn : ∀ (a y : Ind σ) (os : List ℚ) (pen : ℚ) (sc : σ), (∃ q, 1 ≤ q ∧ a.rank = some (.sc q)) → a.objScore = some (.tup os) →
      os.length = n → 0 ≤ pen → task.score a pen = .ok sc → y.score = some sc → X y)
    (hlvl : ∃ l, checkMutation mop c.mutationLvl = .ok l ∧ s0.mutLvl = l.stored c.arith)
    (hst : Started (.binary gray gens) c.numIndivid c.numGenerations c.input c.childrenPercent (some c.stop) c.arith s0)
    (hrun : MultiRun ops fit op mop) (hkeep : OpsKeep SameSetup ops)
    (hq : ∀ s a : St σ, s.ga.attrs = s0.ga.attrs → s.ga.childrenPercent = s0.ga.childrenPercent →
      (∀ r ∈ s.ga.population, r < s.next) → ops.selection s = (.ok (), a) → a.ga.parents.length = 2 * q)
    (hne : ∀ k s, After ops s0 k s → s.ga.population ≠ [])
    (hsel : ∀ k s, After ops s0 k s → k < s0.ga.numGenerations → s.ga.attrs = s0.ga.attrs → MultiInv fit.task.obj1 s k → (∀ r ∈ s.ga.population, X (s.heap r)) →
      Safe ops.selection s)
    (hng : ∀ k s s1, After ops s0 k s → s.ga.attrs = s0.ga.attrs → MultiInv fit.task.obj1 s k → Bore op mop s s1 → Ready s1 →
      s1.ga.children.length = q → (∀ r ∈ s1.ga.population, ∃ g, (s1.heap r).genotype = some g) → Safe ops.newGen s1) :
    MultiSafe ops fit op mop (BitsOf s0.ga.attrs) s0 ∧
      ∀ k s, After ops s0 k s → ∀ r ∈ s.ga.population, X (s.heap r) := by
  obtain ⟨b1, b2, b3⟩ := started_binary hst
  obtain ⟨s1, hc⟩ := hst.created
  obtain ⟨_, hd, _, _⟩ := createPopulation_ok hc
  have hex : (SingleFacade.binary gray gens).Computes s0.ga.attrs.arith := by rw [hst.arith]; exact ht.arith
  have hsp : s0.ga.attrs.spec = (SingleFacade.binary gray gens).spec := hd.spec_eq
  have hprep : ∀ gray gens, s0.ga.attrs.spec = .binary gray gens → Prepared s0.ga.attrs gray gens := by
    intro gray gens e
    exact hd.prep gray gens (hsp.symm.trans e)
  have hclosed : ClosedFor σ op mop s0.ga.attrs.spec (BitsOf s0.ga.attrs) := by
    rw [hsp]; exact bits_closed_for_all σ hM.1 mop gray gens _
  have hin : task.inputTruthy = false := h2.trans ht.plain
  have hspace : ∀ g a, BitsOf s0.ga.attrs g → decodeIndivid s0.ga.attrs g = .ok a → (SingleFacade.binary gray gens).Points c.arith a := by
    intro g a hg ha
    rw [← hst.arith]
    refine (SingleFacade.geno_arg (f := .binary gray gens) ht.genes hex hsp b2 hprep hg).2 a ?_
    unfold ArgOf
    rw [if_pos b2]
    exact ha
  have hled : ∀ k s, After ops s0 k s → MultiLedger (Known (BitsOf s0.ga.attrs) s0.ga.attrs True X) q s0 s k := by
    intro k s h
    refine multi_ledger hrun hkeep hq hst.fresh b2 hclosed b3 (known_verdict b2 hX) (fun x hx => hx.1) ?_ h
    intro ga best m y hb he _ _ hr hw
    refine ⟨hw, he.keeps.1, fun _ => ?_⟩
    obtain ⟨a, os, pen, sc, k1, k2, k3, k4, k5, k6⟩ := vector_evaluated ht.objective h1 hin h3 hR h4 hfit hb he (by
      intro p hp
      obtain ⟨g, _, w2, w3⟩ := hw
      obtain ⟨p', w4, w5⟩ := w3 b2
      rw [hp] at w4
      injection w4 with w4
      exact hspace g p w2 (w4 ▸ w5))
    exact hXn a y os pen sc (by rw [k1]; exact hr) k2 k3 k4 k5 k6
  have hpairs : ∀ k s a, After ops s0 k s → ops.selection s = (.ok (), a) → a.ga.parents.length = 2 * q := by
    intro k s a h hs
    exact hq s a (hled k s h).attrs (h.keeps sameSetup_frame hkeep).1.2.1 (h.multi hrun hst.fresh).alive hs
  refine ⟨?_, fun k s h r hr => ((hled k s h).members r hr).2.2 trivial⟩
  have hlv : MutReady mop s0.ga.attrs s0.mutLvl := by
    obtain ⟨l, hl1, hl2⟩ := hlvl
    rw [hl2]
    exact (hM.ready ht.genes hex hsp hprep hl1).stored _
  refine ⟨hrun, hkeep, hst.fresh, b2, hclosed, fun r hr => (b3 r hr).2, fun k s h => (hled k s h).attrs,
    fun k s h r hr => ((hled k s h).members r hr).1, hne,
    fun k s h hk => hsel k s h hk (hled k s h).attrs (h.multi hrun hst.fresh) (fun r hr => ((hled k s h).members r hr).2.2 trivial),
    fun k s a h hs => ⟨q, hpairs k s a h hs⟩, fun g0 p1 p2 k0 k1 k2 => hM.cross ht.genes hex hsp hprep k0 k1 k2,
    fun g0 p1 p2 g1 k0 k1 k2 hcr => hM.mutable ht.genes hex hsp hprep (hclosed .other g0 p1 p2 g1 g1 k0 k1 k2 hcr (.inl rfl)),
    hlv, ?_,
    fun g hg => (SingleFacade.geno_arg (f := .binary gray gens) ht.genes hex hsp b2 hprep hg).1 b2, ?_, ?_, by rw [hst.stop]; simp⟩
  · intro k s a s1 h hs hp hB hr
    have hI := h.multi hrun hst.fresh
    refine hng k s s1 h (hled k s h).attrs hI hB hr ?_ ?_
    · have e1 := hB.size
      have e2 := hpairs k s a h hs
      rw [hp] at e1
      omega
    · intro r hm
      have hm : r ∈ s.ga.population := by rw [hB.ga] at hm; exact hm
      obtain ⟨g, hg, _⟩ := ((hled k s h).members r hm).1
      exact ⟨g, by rw [(hB.core r (hI.alive r hm)).genotype]; exact hg⟩
  · intro g a hg ha
    exact (vector_evaluable (b := none) (gen := 0) ht.objective h1 hin h3 hR h4 hfit hsc (hspace g a hg ha) (hrk 1 le_rfl)).1
  · intro g a hg ha b gen q _ hq1
    exact (vector_evaluable ht.objective h1 hin h3 hR h4 hfit hsc (hspace g a hg ha) (hrk q hq1)).2

theorem facade_matching (gray : Bool) (gens : List BinGene) : Matching (.binary gray gens) .onePoint .binString :=
  ⟨.inl rfl, .inl rfl, by simp⟩

/-! ## FFGA -/

/-- The fewest members of a population of an `FFGA` run whose selection leaves ranks alone. -/
def Cfg.ffgaFewest (c : Cfg) : Transfer → Nat
  | .best => min c.numIndivid (c.children + 1)
  | .random => min c.numIndivid (c.children + 11)

/-- What makes the generations of an admissible `FFGA` run raise nothing, and the sizes of its populations, for all components. -/
theorem ffga_multiSafe_all {c : Cfg} {gray : Bool} {gens : List BinGene} {fit : Fit ℚ} {tr : Transfer} {sa sb s0 : St ℚ} {sel : SelOp}
    {op : CrossOp} {mop : MutOp} (ha : FfgaCall gray gens c sa.conds) (hM : Matching (.binary gray gens) op mop)
    (hfit : newFitness (ffgaTask c.obj1 c.obj2 c.inputTruthy c.penalty c.arith) sa = (.ok fit, sb))
    (htr : checkTransfer c.transfer = .ok tr) (hlvl : ∃ l, checkMutation mop c.mutationLvl = .ok l ∧ s0.mutLvl = l.stored c.arith)
    (hst : Started (.binary gray gens) c.numIndivid c.numGenerations c.input c.childrenPercent (some c.stop) c.arith s0)
    (hrk : sel = .ranked → tr = .best → 1 ≤ c.children)
    (hwheel : ∀ k s, After (ffgaOps fit sel op mop tr) s0 k s → k < c.numGenerations → s.ga.attrs.arith = c.arith →
      s.ga.attrs.numIndivid = c.numIndivid →
      (∀ r ∈ s.ga.population, r < s.next) → s.ga.population ≠ [] → s.ga.population.length ≤ c.ffgaLargest →
      (sel ≠ .ranked → c.ffgaFewest tr ≤ s.ga.population.length) →
      (∀ r ∈ s.ga.population, ∃ q, (s.heap r).score = some q ∧ 0 < q) → Safe (selExec sel) s) :
    MultiSafe (ffgaOps fit sel op mop tr) fit op mop (BitsOf s0.ga.attrs) s0 ∧
      ∀ k s, After (ffgaOps fit sel op mop tr) s0 k s →
        s.ga.population ≠ [] ∧ (tr = .random → 10 < s.ga.population.length) := by
  obtain ⟨n, ht⟩ := ha.task
  have hobj : fit.task.obj1 = c.obj1 := by rw [(newFitness_ok hfit).1]; rfl
  have hv : UniformVecs fit.task.obj1 := by rw [hobj]; exact ht.uniform
  have hops := ffgaOps_run hv sel op mop tr
  obtain ⟨b4, b5, _, _⟩ := hst.cells
  have hsize : ∀ k s, After (ffgaOps fit sel op mop tr) s0 k s →
      s.ga.population ≠ [] ∧ (tr = .random → 10 < s.ga.population.length) ∧
        s.ga.population.length + c.children ≤ c.numIndivid + 11 + k * c.children ∧
        (sel ≠ .ranked → c.ffgaFewest tr ≤ s.ga.population.length) := by
    intro k s hk
    induction hk with
    | @first s1 s a b =>
      have hl := (multi_first hv hst.fresh a b).2.1.length_eq
      refine ⟨?_, ?_, by omega, fun _ => ?_⟩
      · intro e'
        rw [e'] at hl
        have := ha.some
        simp at hl
        omega
      · rintro rfl
        rcases ha.transfer with h' | h'
        · rw [h'] at htr; simp [checkTransfer] at htr
        · omega
      · unfold Cfg.ffgaFewest
        cases tr <;> simp only <;> omega
    | @next k s s' a b ih =>
      obtain ⟨es, k1, k2, k3, k4, k5⟩ := ffga_sizes_all hv hst.fresh a b
      have hp := a.pos
      have hmul : (k + 1) * c.children = k * c.children + c.children := by ring
      have hge : c.children ≤ k * c.children := Nat.le_mul_of_pos_left _ hp
      have k2 : s'.ga.population.length = c.children + es.length := by
        rw [k2, hst.arith, hst.percent, b5]; rfl
      cases tr with
      | best =>
        have hle := k5 rfl
        have := ih.2.2.1
        by_cases hs : sel = .ranked
        · have h1 := hrk hs rfl
          refine ⟨?_, fun e => absurd e (by simp), by omega, fun e => absurd hs e⟩
          intro e'
          rw [e'] at k2
          simp at k2
          omega
        · have hes : es ≠ [] := by
            rw [k3 rfl hs]
            exact (a.multi hops hst.fresh).front_nonempty ih.1
          obtain ⟨r, hr⟩ := List.exists_mem_of_ne_nil _ hes
          have h1 := List.length_pos_of_mem hr
          refine ⟨List.ne_nil_of_mem (k1 r hr).2, fun e => absurd e (by simp), by omega, fun _ => ?_⟩
          unfold Cfg.ffgaFewest
          simp only
          omega
      | random =>
        have := (k4 rfl).1
        refine ⟨?_, fun _ => by omega, by omega, fun _ => ?_⟩
        · intro e'
          rw [e'] at k2
          simp at k2
          omega
        · unfold Cfg.ffgaFewest
          simp only
          omega
  have hsafe : MultiSafe (ffgaOps fit sel op mop tr) fit op mop (BitsOf s0.ga.attrs) s0 := by
    refine And.left <| VectorTask.safe (sa := sa) (sb := sb) (n := n) (q := c.children) (X := fun x => ∃ q, x.score = some q ∧ 0 < q)
      (Sc := fun rk => ∃ q, 1 ≤ q ∧ rk = some (.sc q)) ht hM rfl rfl rfl ht.arith.rounding rfl hfit ?_ (fun q hq => ⟨q, hq, rfl⟩) ?_ ?_ hlvl hst
      hops (ffgaOps_frame sameSetup_frame fit sel op mop tr) ?_ (fun k s hk => (hsize k s hk).1) ?_ ?_
    · rintro a os pen ⟨q, hq, hr⟩ _ _ _
      refine ⟨c.arith.rnd (1 / (1 + q)), ?_⟩
      show ffgaScore c.arith a pen = _
      unfold ffgaScore
      rw [hr]
      simp only
      rw [if_neg (by linarith)]
    · rintro x y ⟨q, h1, h2⟩ e'
      exact ⟨q, by rw [e'.1]; exact h1, h2⟩
    · rintro a y os pen sc ⟨q, hq, hr⟩ _ _ _ hs hy
      change ffgaScore c.arith a pen = .ok sc at hs
      unfold ffgaScore at hs
      rw [hr] at hs
      simp only at hs
      rw [if_neg (by linarith)] at hs
      injection hs with hs
      refine ⟨sc, hy, ?_⟩
      rw [← hs]
      exact ht.arith.rounding.pos (by positivity)
    · intro x y e1 e2 hal hsel
      rw [(selExec_isSelection sel x y _ hal hsel).2, numPairs_children (c := c) (by rw [e1]; exact b5) (by rw [e2]; exact hst.percent) (by rw [e1]; exact hst.arith)]
    · intro k s hk hkn hat hI hX
      have hkn : k < c.numGenerations := by rw [← hst.gens]; exact hkn
      refine hwheel k s hk hkn (by rw [hat]; exact hst.arith) (by rw [hat, b5]) hI.alive (hsize k s hk).1 ?_ (hsize k s hk).2.2.2 hX
      have h1 := (hsize k s hk).2.2.1
      have h2 := Nat.mul_le_mul_right c.children hkn.le
      unfold Cfg.ffgaLargest
      omega
    · intro k s s1 hk hat _ hB hr _ hg
      have hp1 : s1.ga.population = s.ga.population := by rw [hB.ga]
      refine multiNewGen_safe (hr ?_) hg ?_
      · have : s1.ga.attrs = s.ga.attrs := by rw [hB.ga]
        rw [this, hat]
        exact (started_binary hst).2.1
      · intro e'
        rw [hp1]
        exact (hsize k s hk).2.1 e'
  exact ⟨hsafe, fun k s hk => ⟨(hsize k s hk).1, (hsize k s hk).2.1⟩⟩

/-- What makes the generations of an admissible `FFGA` run raise nothing, and the sizes of its populations. -/
theorem ffga_multiSafe {c : Cfg} {gray : Bool} {gens : List BinGene} {fit : Fit ℚ} {tr : Transfer} {sa sb s0 : St ℚ}
    (ha : FfgaCall gray gens c sa.conds) (hfit : newFitness (ffgaTask c.obj1 c.obj2 c.inputTruthy c.penalty c.arith) sa = (.ok fit, sb))
    (htr : checkTransfer c.transfer = .ok tr) (hlvl : ∃ l, checkMutation .binString c.mutationLvl = .ok l ∧ s0.mutLvl = l.stored c.arith)
    (hst : Started (.binary gray gens) c.numIndivid c.numGenerations c.input c.childrenPercent (some c.stop) c.arith s0)
    (hwheel : ∀ k s, After (ffgaOps fit .balanced .onePoint .binString tr) s0 k s → k < c.numGenerations → s.ga.attrs.arith = c.arith →
      (∀ r ∈ s.ga.population, r < s.next) → s.ga.population ≠ [] → s.ga.population.length ≤ c.ffgaLargest →
      (∀ r ∈ s.ga.population, ∃ q, (s.heap r).score = some q ∧ 0 < q) → Safe balancedExec s) :
    MultiSafe (ffgaOps fit .balanced .onePoint .binString tr) fit .onePoint .binString (BitsOf s0.ga.attrs) s0 ∧
      ∀ k s, After (ffgaOps fit .balanced .onePoint .binString tr) s0 k s →
        s.ga.population ≠ [] ∧ (tr = .random → 10 < s.ga.population.length) :=
  ffga_multiSafe_all ha (facade_matching gray gens) hfit htr hlvl hst (fun e => by cases e)
    (fun k s h1 h2 h3 _ h4 h5 h6 _ h7 => hwheel k s h1 h2 h3 h4 h5 h6 h7)

theorem ffga_wheel_exact {c : Cfg} {gray : Bool} {gens : List BinGene} {conds : Option (List Cond)} {ops : Ops ℚ} {s0 : St ℚ}
    (ha : FfgaAdmissible gray gens c conds) : ∀ k s, After ops s0 k s → k < c.numGenerations → s.ga.attrs.arith = c.arith →
      (∀ r ∈ s.ga.population, r < s.next) → s.ga.population ≠ [] → s.ga.population.length ≤ c.ffgaLargest →
      (∀ r ∈ s.ga.population, ∃ q, (s.heap r).score = some q ∧ 0 < q) → Safe balancedExec s :=
  fun _ _ _ _ har hal hne _ hpos => balancedExec_safe (har.trans ha.exact) hal hne hpos

/-- C87: with admissible parameters `FFGA.optimize()` raises no exception. -/
theorem C87_ffga_no_exception {c : Cfg} {gray : Bool} {gens : List BinGene} {s s' : St ℚ} {e : PyErr}
    (ha : FfgaAdmissible gray gens c s.conds) (h : ffga c gray gens s = (.error e, s')) : e = .exhausted ∧ s'.tape = [] := by
  obtain ⟨n, ht⟩ := ha.task
  revert h
  suffices hs : Safe (ffga c gray gens) s from hs e s'
  refine facade_safe ht.genes ht.input ht.room ht.arith ht.level ?_ rfl ?_
  · rcases ha.transfer with h | h
    · rw [h]; exact ⟨_, rfl⟩
    · rw [h.1]; exact ⟨_, rfl⟩
  intro fit tr sa sb s0 hfit hconds htr _ hlvl hst
  obtain ⟨hsafe, _⟩ := ffga_multiSafe (by rw [hconds]; exact ha.toFfgaCall) hfit htr hlvl hst
    (ffga_wheel_exact ha)
  exact ⟨hsafe.evolve, fun k s7 hk => hsafe.print hk⟩

/-! ## VEGA -/

theorem vegaTarget_run {ar : Arith} (R : Rounding ar.rnd) {pen : ℚ} (hp : 0 ≤ pen) :
    ∀ {ts os : List ℚ}, os.length ≤ ts.length → ∃ l, vegaTarget ar pen ts os = .ok l := by
  intro ts os
  induction os generalizing ts with
  | nil => intro _; exact ⟨[], by cases ts <;> rfl⟩
  | cons o os ih =>
    intro h
    cases ts with
    | nil => simp at h
    | cons t ts =>
      obtain ⟨l, hl⟩ := ih (ts := ts) (by simpa using h)
      refine ⟨ar.rnd (1 / ar.rnd (ar.rnd (1 + ar.rnd |t - o|) + pen)) :: l, ?_⟩
      rw [vegaTarget, hyperbolaR_target R hp, hl]
      rfl

theorem vegaTarget_length {ar : Arith} {pen : ℚ} : ∀ {ts os l : List ℚ}, vegaTarget ar pen ts os = .ok l → l.length = os.length := by
  intro ts os
  induction os generalizing ts with
  | nil => intro l h; cases ts <;> (injection h with h; rw [← h])
  | cons o os ih =>
    intro l h
    cases ts with
    | nil => cases h
    | cons t ts =>
      rw [vegaTarget] at h
      cases hx : hyperbolaR ar.rnd (some t) o pen with
      | error e => rw [hx] at h; cases h
      | ok x =>
        rw [hx] at h
        cases hr : vegaTarget ar pen ts os with
        | error e => rw [hr] at h; cases h
        | ok l' =>
          rw [hr] at h
          injection h with h
          rw [← h, List.length_cons, List.length_cons, ih hr]

/-- A percentage that yields a pair for each of `m` objectives in exact arithmetic does so for every rounding. -/
theorem share_pos {ar : Arith} (R : Rounding ar.rnd) {pct : ℚ} {n m : Nat} (hm : 1 ≤ m) (hb : m ≤ 2 ^ 53) (h : (m : ℚ) ≤ pct * n) : 1 ≤ ar.share pct n m := by
  have h1 : (m : ℚ) ≤ ar.rnd (pct * n) := by
    have := R.int (n := (m : Int)) (by rw [abs_of_nonneg (by positivity)]; exact_mod_cast hb)
    push_cast at this
    rw [← this]
    exact R.mono h
  have h2 : 1 ≤ ar.rnd (ar.rnd (pct * n) / m) := by
    rw [← R.one]
    refine R.mono ?_
    rw [le_div_iff₀ (by exact_mod_cast hm)]
    linarith
  have h3 : 1 ≤ ⌊ar.rnd (ar.rnd (pct * n) / m)⌋ := by rw [Int.le_floor]; exact_mod_cast h2
  unfold Arith.share
  omega

/-- How many children a generation of a `VEGA` run has: the roulettes keep only the parents of the last objective (C60). -/
def Cfg.vegaPairs (c : Cfg) (m : Nat) : VegaSelOp → Nat
  | .tournament _ => c.vegaChildren m
  | .balanced => c.arith.share c.childrenPercent c.numIndivid m
  | .ranked => c.arith.share c.childrenPercent c.numIndivid m

/-- No population of a `VEGA` run is larger. -/
def Cfg.vegaLargest (c : Cfg) (m : Nat) (sel : VegaSelOp) : Nat := max c.numIndivid (c.vegaPairs m sel) + 1

theorem roulette_parents {m n : Nat} {f : Nat → M (List ℚ) Unit} (hs : ∀ i, Selects (f i))
    (hf : ∀ i (s s' : St (List ℚ)), (∀ r ∈ s.ga.population, r < s.next) → f i s = (.ok (), s') →
      s'.ga.parents.length = 2 * numPairs s.ga n) (hm : 1 ≤ m) {s s' : St (List ℚ)} (hal : ∀ r ∈ s.ga.population, r < s.next)
    (h : forEach (List.range m) f s = (.ok (), s')) : s'.ga.parents.length = 2 * numPairs s.ga n := by
  obtain ⟨m, rfl⟩ := Nat.exists_eq_add_of_le' hm
  obtain ⟨s1, hs1, h1⟩ := selects_before_last hs hal h
  rcases hs1 with ⟨_, rfl⟩ | hS
  · exact hf _ _ _ hal h1
  · rw [hf _ _ _ (by rw [hS.ga]; exact fun r hr => (hal r hr).trans_le hS.next) h1, hS.ga]
    rfl

/-- The number of parents of a `VEGA` run. -/
theorem vegaSel_parents {m : Nat} {sel : VegaSelOp} (hm : 1 ≤ m ∨ ∃ size, sel = .tournament size) {c : Cfg} {s s' : St (List ℚ)}
    (hal : ∀ r ∈ s.ga.population, r < s.next) (h : vegaSelExec m sel s = (.ok (), s'))
    (hn : s.ga.attrs.numIndivid = c.numIndivid) (hp : s.ga.childrenPercent = c.childrenPercent) (har : s.ga.attrs.arith = c.arith) :
    s'.ga.parents.length = 2 * c.vegaPairs m sel := by
  have hnum : numPairs s.ga m = c.arith.share c.childrenPercent c.numIndivid m := by rw [numPairs_share, hn, hp, har]
  cases sel with
  | tournament size =>
    rw [(C60_tournament_blocks hal h).1, hn, hp, har]
    unfold Cfg.vegaPairs Cfg.vegaChildren
    ring
  | balanced =>
    have hm : 1 ≤ m := by rcases hm with hm | ⟨_, e⟩ <;> [exact hm; cases e]
    have := roulette_parents (n := m) (fun i => balanced_at_selects i m)
      (fun i x y hx hy => (balancedWith_selected (fun _ _ _ hv => noPre hv) hx hy).2) hm hal h
    rw [this, hnum]
    rfl
  | ranked =>
    have hm : 1 ≤ m := by rcases hm with hm | ⟨_, e⟩ <;> [exact hm; cases e]
    unfold vegaSelExec vegaRankedExec at h
    simp only at h
    rw [bind_of_ok (getGa_run s)] at h
    obtain ⟨_, s1, h1, h2⟩ := bind_ok.mp h
    obtain ⟨⟨a1, a2, _⟩, _, _⟩ := clearRanks_ok (fun r hr => hr) h1
    have := roulette_parents (n := m) (fun i => ranked_at_selects i m)
      (fun i x y hx hy => (balancedWith_selected (fun _ _ _ hv => vegaRankedPre hv) hx hy).2) hm (by rw [a2, a1.next]; exact hal) h2
    rw [this, a2, hnum]
    rfl

theorem newGenExec_le {σ : Type} [LinearOrder σ] {tr : Transfer} {s s' : St σ} {u : Unit} (h : newGenExec tr s = (.ok u, s')) :
    s'.ga.population.length ≤ max s.ga.attrs.numIndivid s.ga.children.length + 1 := by
  unfold newGenExec at h
  obtain ⟨_, s1, h1, h2⟩ := bind_ok.mp h
  obtain ⟨pop, rfl, hperm, hs1, hs2⟩ := ensureSorted_ok h1
  rw [bind_of_ok (getGa_run _)] at h2
  simp only at h2
  rw [ite_run] at h2
  split at h2
  · rename_i hk
    obtain ⟨es, s2, h3, h4⟩ := bind_ok.mp h2
    obtain ⟨⟨t, rfl⟩, _, _⟩ := chooseElites_ok h3
    have hl : es.length ≤ s.ga.attrs.numIndivid - s.ga.children.length + 1 := by
      cases tr with
      | best =>
        obtain ⟨_, _, _, c2, c3⟩ := addBest_ok h3
        by_cases hd : ((lastN pop (s.ga.attrs.numIndivid - s.ga.children.length + 1)).map fun r => (s.heap r).genotype).Nodup
        · rw [c2 hd]
          unfold lastN
          rw [List.length_drop]
          omega
        · rw [(c3 hd).1]
      | random => obtain ⟨_, _, c, _⟩ := addRandom_ok h3; rw [c]
    unfold installPop at h4
    rw [modGa_ok] at h4
    subst h4
    simp only [List.length_append]
    have := le_max_left s.ga.attrs.numIndivid s.ga.children.length
    omega
  · rename_i hk
    cases hl : pop.getLast? with
    | none => simp only [hl, throwE_ok] at h2
    | some r =>
      simp only [hl] at h2
      unfold installPop at h2
      rw [modGa_ok] at h2
      subst h2
      simp only [List.length_append, List.length_singleton]
      have := le_max_right s.ga.attrs.numIndivid s.ga.children.length
      omega

theorem vegaTarget_pos {ar : Arith} (R : Rounding ar.rnd) {pen : ℚ} (hp : 0 ≤ pen) :
    ∀ {ts os l : List ℚ}, vegaTarget ar pen ts os = .ok l → ∀ q ∈ l, 0 < q := by
  intro ts os
  induction os generalizing ts with
  | nil => intro l h; cases ts <;> (injection h with h; rw [← h]; simp)
  | cons o os ih =>
    intro l h
    cases ts with
    | nil => cases h
    | cons t ts =>
      rw [vegaTarget, hyperbolaR_target R hp] at h
      cases hr : vegaTarget ar pen ts os with
      | error e => rw [hr] at h; cases h
      | ok l' =>
        rw [hr] at h
        injection h with h
        rw [← h]
        intro q hq
        rcases List.mem_cons.mp hq with rfl | hq
        · exact R.pos (one_div_pos.mpr (R.pos (add_pos_of_pos_of_nonneg (R.pos (add_pos_of_pos_of_nonneg one_pos
            (R.nonneg (abs_nonneg _)))) hp)))
        · exact ih hr q hq

/-- What makes the generations of a `VEGA` run raise nothing, and the sizes of its populations, for all components. -/
theorem vega_multiSafe_all {c : Cfg} {gray : Bool} {gens : List BinGene} {ov : Option (List ℚ)} {fit : Fit (List ℚ)} {tr : Transfer}
    {sa sb s0 : St (List ℚ)} {m n : Nat} {sel : VegaSelOp} {op : CrossOp} {mop : MutOp} (ht : VectorTask gray gens c sa.conds n)
    (hM : Matching (.binary gray gens) op mop) (hm1 : 1 ≤ m ∨ ∃ size, sel = .tournament size) (hmn : m ≤ n)
    (htar : ∀ ts, ov = .some ts → n ≤ ts.length) (htwo : 2 ≤ c.numIndivid)
    (hrand : tr = .random → 1 ≤ c.vegaPairs m sel)
    (hfit : newFitness (vegaTask c.obj1 c.obj2 c.inputTruthy c.penalty ov c.arith) sa = (.ok fit, sb))
    (hlvl : ∃ l, checkMutation mop c.mutationLvl = .ok l ∧ s0.mutLvl = l.stored c.arith)
    (hst : Started (.binary gray gens) c.numIndivid c.numGenerations c.input c.childrenPercent (some c.stop) c.arith s0)
    (hwheel : ∀ k s, After (vegaOps fit m sel op mop tr) s0 k s → s.ga.attrs.arith = c.arith → s.ga.attrs.numIndivid = c.numIndivid →
      (∀ r ∈ s.ga.population, r < s.next) → c.numIndivid ≤ s.ga.population.length →
      s.ga.population.length ≤ c.vegaLargest m sel →
      (∀ r ∈ s.ga.population, ∃ l, (s.heap r).score = some l ∧ m ≤ l.length ∧ (ov.isSome → ∀ q ∈ l, 0 < q)) →
      Safe (vegaSelExec m sel) s) :
    MultiSafe (vegaOps fit m sel op mop tr) fit op mop (BitsOf s0.ga.attrs) s0 ∧
      ∀ k s, After (vegaOps fit m sel op mop tr) s0 k s → c.numIndivid ≤ s.ga.population.length ∧
        (∀ r ∈ s.ga.population, ∃ l, (s.heap r).score = some l ∧ m ≤ l.length ∧ (ov.isSome → ∀ q ∈ l, 0 < q)) ∧
        s.ga.population.length ≤ c.vegaLargest m sel := by
  have hobj : fit.task.obj1 = c.obj1 := by rw [(newFitness_ok hfit).1]; rfl
  have hv : UniformVecs fit.task.obj1 := by rw [hobj]; exact ht.uniform
  have hops : MultiRun (vegaOps fit m sel op mop tr) fit op mop := by
    rcases hm1 with h | ⟨size, rfl⟩
    · exact vegaOps_run hv h sel op mop tr
    · exact vegaTour_run hv m size op mop tr
  obtain ⟨b4, b5, _, _⟩ := hst.cells
  have hsize : ∀ k s, After (vegaOps fit m sel op mop tr) s0 k s →
      s.ga.attrs = s0.ga.attrs ∧ c.numIndivid ≤ s.ga.population.length ∧ s.ga.population.length ≤ c.vegaLargest m sel := by
    intro k s hk
    induction hk with
    | @first s1 s a b =>
      obtain ⟨_, hl, _, _, hat, _⟩ := multi_first hv hst.fresh a b
      have := le_max_left c.numIndivid (c.vegaPairs m sel)
      exact ⟨hat, by rw [hl.length_eq, b4], by rw [hl.length_eq, b4]; unfold Cfg.vegaLargest; omega⟩
    | @next k s s' a b ih =>
      obtain ⟨_, a0, s1, s2, s3, es, t, hsel, _, _, hb3, hB, hready, hng, hes, e2, _, _, _, _, _, hperm, _, hat, _⟩ :=
        multi_generation hops (a.multi hops hst.fresh) b
      refine ⟨hat.trans ih.1, ?_⟩
      have hpc : s.ga.childrenPercent = c.childrenPercent := by
        rw [(a.keeps sameSetup_frame (vegaOps_frame sameSetup_frame fit m sel op mop tr)).1.2.1, hst.percent]
      have hch : s1.ga.children.length = c.vegaPairs m sel := by
        have h1 := vegaSel_parents hm1 (a.multi hops hst.fresh).alive hsel (by rw [ih.1, b5]) hpc (by rw [ih.1]; exact hst.arith)
        have h2 := hB.size
        rw [hb3, h1] at h2
        omega
      have hN : s1.ga.attrs.numIndivid = c.numIndivid := by rw [hB.ga]; simp only; rw [ih.1, b5]
      have := newGenExec_size (show newGenExec tr s1 = (.ok (), s2) from hng) (by rw [hN, hB.ga]; exact ih.2.1)
      have hle := newGenExec_le (show newGenExec tr s1 = (.ok (), s2) from hng)
      rw [hN, e2] at this
      rw [hN, e2, hch] at hle
      rw [hperm.length_eq]
      exact ⟨this, hle⟩
  have hsafe : MultiSafe (vegaOps fit m sel op mop tr) fit op mop (BitsOf s0.ga.attrs) s0 ∧
      ∀ k s, After (vegaOps fit m sel op mop tr) s0 k s → ∀ r ∈ s.ga.population,
        ∃ l, (s.heap r).score = some l ∧ m ≤ l.length ∧ (ov.isSome → ∀ q ∈ l, 0 < q) := by
    refine VectorTask.safe (sa := sa) (sb := sb) (n := n) (q := c.vegaPairs m sel)
      (X := fun x => ∃ l, x.score = some l ∧ m ≤ l.length ∧ (ov.isSome → ∀ q ∈ l, 0 < q))
      (Sc := fun _ => True) ht hM rfl rfl rfl ht.arith.rounding rfl hfit ?_ (fun _ _ => trivial) ?_ ?_ hlvl hst
      hops (vegaOps_frame sameSetup_frame fit m sel op mop tr) ?_ ?_ ?_ ?_
    · rintro a os pen _ h1 h2 h3
      show ∃ sc, vegaScore c.arith ov a pen = .ok sc
      unfold vegaScore
      rw [h1]
      cases hov : ov with
      | none => exact ⟨_, rfl⟩
      | some ts => exact vegaTarget_run ht.arith.rounding h3 (by rw [h2]; exact htar ts hov)
    · rintro x y ⟨q, h1, h2⟩ e'
      exact ⟨q, by rw [e'.1]; exact h1, h2⟩
    · rintro a y os pen sc _ h1 h2 hpen h3 hy
      refine ⟨sc, hy, ?_⟩
      change vegaScore c.arith ov a pen = .ok sc at h3
      unfold vegaScore at h3
      rw [h1] at h3
      have : sc.length = os.length := by
        cases hov : ov with
        | none =>
          rw [hov] at h3
          simp only [Except.ok.injEq] at h3
          rw [← h3, List.length_map]
        | some ts =>
          rw [hov] at h3
          exact vegaTarget_length h3
      refine ⟨by omega, fun hsome => ?_⟩
      obtain ⟨ts, hov⟩ := Option.isSome_iff_exists.mp hsome
      rw [hov] at h3
      exact vegaTarget_pos ht.arith.rounding hpen h3
    · intro x y e1 e2 hal hsel
      exact vegaSel_parents hm1 hal hsel (by rw [e1, b5]) (by rw [e2]; exact hst.percent) (by rw [e1]; exact hst.arith)
    · intro k s hk e'
      have := (hsize k s hk).2.1
      rw [e'] at this
      simp at this
      omega
    · intro k s hk _ hat hI hX
      exact hwheel k s hk (by rw [hat]; exact hst.arith) (by rw [hat, b5]) hI.alive (hsize k s hk).2.1 (hsize k s hk).2.2 hX
    · intro k s s1 hk hat hI hB _ hch hg
      have hp1 : s1.ga.population = s.ga.population := by rw [hB.ga]
      have hN : s1.ga.attrs.numIndivid = c.numIndivid := by rw [hB.ga]; simp only; rw [hat, b5]
      have h2 := (hsize k s hk).2.1
      refine newGen_unsorted_safe ?_ hg (by rw [hp1]; omega) (by rw [hN, hp1]; exact h2) ?_
      · intro r hr
        rw [hp1] at hr
        rw [(hB.core r (hI.alive r hr)).score]
        exact hI.scored r hr
      · rintro rfl
        rw [hN, hp1, hch]
        have := hrand rfl
        omega
  exact ⟨hsafe.1, fun k s hk => ⟨(hsize k s hk).2.1, hsafe.2 k s hk, (hsize k s hk).2.2⟩⟩

/-- What makes the generations of an admissible `VEGA` run raise nothing, and the sizes of its populations. -/
theorem vega_multiSafe {c : Cfg} {gray : Bool} {gens : List BinGene} {ov : Option (List ℚ)} {fit : Fit (List ℚ)} {tr : Transfer}
    {sa sb s0 : St (List ℚ)} {m n : Nat} (ha : VegaAdmissible gray gens c ov sa.conds m n)
    (hfit : newFitness (vegaTask c.obj1 c.obj2 c.inputTruthy c.penalty ov c.arith) sa = (.ok fit, sb))
    (htr : checkTransfer c.transfer = .ok tr) (hlvl : ∃ l, checkMutation .binString c.mutationLvl = .ok l ∧ s0.mutLvl = l.stored c.arith)
    (hst : Started (.binary gray gens) c.numIndivid c.numGenerations c.input c.childrenPercent (some c.stop) c.arith s0) :
    MultiSafe (vegaOps fit m (.tournament 3) .onePoint .binString tr) fit .onePoint .binString (BitsOf s0.ga.attrs) s0 ∧
      ∀ k s, After (vegaOps fit m (.tournament 3) .onePoint .binString tr) s0 k s → c.numIndivid ≤ s.ga.population.length ∧
        (∀ r ∈ s.ga.population, ∃ l, (s.heap r).score = some l ∧ m ≤ l.length) ∧
        s.ga.population.length ≤ c.vegaLargest m (.tournament 3) := by
  have ht := ha.task
  obtain ⟨b4, b5, _, _⟩ := hst.cells
  have h4 := ha.size
  obtain ⟨h1, h2⟩ := vega_multiSafe_all ht (facade_matching gray gens) (.inr ⟨3, rfl⟩) ha.enough ha.target (by omega) (tr := tr) (by
    rintro rfl
    rcases ha.transfer with h' | ⟨_, hm, hb, hle⟩
    · rw [h'] at htr; simp [checkTransfer] at htr
    · have := share_pos ht.arith.rounding hm hb hle
      have := Nat.mul_le_mul hm this
      unfold Cfg.vegaPairs Cfg.vegaChildren
      simp only
      omega) hfit hlvl hst (by
    intro k s hk _ hN hal hsz _ hX
    refine vegaTournamentExec_safe (by norm_num) (by rw [hN]; omega) (by rw [hN]; exact hsz) hal ?_
    intro r hr
    obtain ⟨l, e1, e2, _⟩ := hX r hr
    exact ⟨l, e1, e2⟩)
  refine ⟨h1, fun k s hk => ⟨(h2 k s hk).1, fun r hr => ?_, (h2 k s hk).2.2⟩⟩
  obtain ⟨l, e1, e2, _⟩ := (h2 k s hk).2.1 r hr
  exact ⟨l, e1, e2⟩

theorem VegaAdmissible.count {c : Cfg} {gray : Bool} {gens : List BinGene} {ov : Option (List ℚ)} {m n : Nat} {s : St (List ℚ)}
    (ha : VegaAdmissible gray gens c ov s.conds m n) :
    ∃ s1, vegaNumObjectives c gens.length s = (.ok m, s1) ∧ s1.conds = s.conds ∧ s1.seed = s.seed := by
  have hc := ha.counts
  unfold CountsObjectives at hc
  unfold vegaNumObjectives
  rw [bind_of_ok (getS_run s)]
  cases hco : s.conds with
  | none =>
    rw [hco] at hc
    obtain ⟨l, h1, h2⟩ := hc
    simp only
    rw [bind_of_ok (callObj_ok.mpr ⟨h1, rfl⟩)]
    refine ⟨{ s with calls := s.calls ++ [List.replicate gens.length (.num 0)] }, ?_, hco, rfl⟩
    rw [h2]
    rfl
  | some l =>
    rw [hco] at hc
    exact ⟨s, by rw [hc]; rfl, hco, rfl⟩

/-- C87: with admissible parameters `VEGA.optimize()` raises no exception. -/
theorem C87_vega_no_exception {c : Cfg} {gray : Bool} {gens : List BinGene} {ov : Option (List ℚ)} {s s' : St (List ℚ)} {e : PyErr} {m n : Nat}
    (ha : VegaAdmissible gray gens c ov s.conds m n) (h : vega c gray gens ov s = (.error e, s')) : e = .exhausted ∧ s'.tape = [] := by
  have ht := ha.task
  revert h
  suffices hs : Safe (vega c gray gens ov) s from hs e s'
  unfold vega
  obtain ⟨s1, hs1, hc1, _⟩ := ha.count
  refine Safe.bind_ok hs1 ?_
  refine facade_safe ht.genes ht.input ht.room ht.arith ht.level ?_ rfl ?_
  · rcases ha.transfer with h | h
    · rw [h]; exact ⟨_, rfl⟩
    · rw [h.1]; exact ⟨_, rfl⟩
  intro fit tr sa sb s0 hfit hconds htr _ hlvl hst
  obtain ⟨hsafe, _⟩ := vega_multiSafe (by rw [hconds, hc1]; exact ha) hfit htr hlvl hst
  exact ⟨hsafe.evolve, fun k s7 hk => hsafe.print hk⟩

/-! ## cases that meet the hypotheses, and the limits of the claim -/

/-- Two objectives: the sum of the genes and the square of its distance to 2. -/
def exPairCfg : Cfg :=
  { numGenerations := 4, numIndivid := 12, obj1 := fun x => .ok (.tup [sumNums x, (sumNums x - 2) ^ 2]), childrenPercent := 1 / 2,
    mutationLvl := .str "strong", transfer := "random" }

theorem exPair_task {c : Cfg} (h1 : c.obj1 = exPairCfg.obj1) (h2 : c.input = none) (h3 : c.mutationLvl = .str "strong")
    (h4 : c.inputTruthy = false) (h5 : c.penalty = none) (h6 : (SingleFacade.binary true [⟨0, 3, 1⟩, ⟨-1, 1, 1 / 2⟩]).Computes c.arith) :
    VectorTask true [⟨0, 3, 1⟩, ⟨-1, 1, 1 / 2⟩] c none 2 where
  genes := exSum_admissible.genes
  input := by simp [h2]
  room := by simp [h2]
  level := .inr ⟨by simp, by simp [h3]⟩
  plain := h4
  uniform := by
    intro x y p q hx hy
    rw [h1] at hx hy
    simp only [exPairCfg, Except.ok.injEq, Ret.tup.injEq] at hx hy
    subst hx hy
    rfl
  objective := .inl ⟨.inl h5, fun x _ => ⟨_, by rw [h1]; rfl, rfl⟩⟩
  arith := h6

theorem exPair_ffga : FfgaAdmissible true [⟨0, 3, 1⟩, ⟨-1, 1, 1 / 2⟩] exPairCfg none where
  task := ⟨2, exPair_task rfl rfl rfl rfl rfl (.inl rfl)⟩
  some := by simp [exPairCfg]
  transfer := .inr ⟨rfl, by simp [exPairCfg]⟩
  exact := rfl

theorem exPair_vega : VegaAdmissible true [⟨0, 3, 1⟩, ⟨-1, 1, 1 / 2⟩] exPairCfg (some [0, 0]) none 2 2 where
  task := exPair_task rfl rfl rfl rfl rfl (.inl rfl)
  counts := ⟨_, rfl, rfl⟩
  enough := le_rfl
  target := by rintro ts ⟨⟩; rfl
  size := by simp [exPairCfg]
  transfer := .inr ⟨rfl, by norm_num, by norm_num, by norm_num [exPairCfg]⟩

/-- A conditional task: the sum must not exceed 3. -/
def exCappedCfg : Cfg :=
  { numGenerations := 4, numIndivid := 5, obj1 := fun x => .ok (.tup [sumNums x, sumNums x - 3, (sumNums x - 2) ^ 2]), childrenPercent := 1 / 2,
    mutationLvl := .float (1 / 100), penalty := some (newDynamic 1 2 1 2) }

example : VegaAdmissible false [⟨0, 3, 1⟩, ⟨-1, 1, 1 / 2⟩] exCappedCfg none (some [.optimize, .le, .optimize]) 2 2 where
  task := {
    genes := exSum_admissible.genes
    input := by simp [exCappedCfg]
    room := by simp [exCappedCfg]
    level := .inl ⟨_, rfl, by norm_num, by norm_num⟩
    plain := rfl
    uniform := by
      intro x y p q hx hy
      simp only [exCappedCfg, Except.ok.injEq, Ret.tup.injEq] at hx hy
      subst hx hy
      rfl
    objective := .inr ⟨_, _, rfl, rfl, by simp, rfl, by simp [KnownSigns], ⟨by simp [newDynamic], .inl (.inl ⟨1, 2, 1, 2, by norm_num, by norm_num, positive_nat le_rfl, positive_nat (by norm_num), rfl⟩)⟩,
      fun x _ => ⟨_, rfl, rfl⟩⟩
    arith := .inl rfl }
  counts := rfl
  enough := le_rfl
  target := by rintro ts ⟨⟩
  size := by simp [exCappedCfg]
  transfer := .inl rfl

set_option maxRecDepth 100000 in
/-- C87: `FFGA` with transfer "random" and ten individuals raises `ValueError` (it draws eleven parents without repetition). -/
theorem C87_ffga_random_small : ∃ (gray : Bool) (gens : List BinGene) (c : Cfg) (s : St ℚ), VectorTask gray gens c s.conds 2 ∧
    c.transfer = "random" ∧ c.numIndivid = 10 ∧ (ffga c gray gens s).1 = .error .valueError :=
  ⟨true, [⟨0, 3, 1⟩, ⟨-1, 1, 1 / 2⟩], { exPairCfg with numIndivid := 10 }, { tape := exDraws 500 (exSeed 7) },
    exPair_task rfl rfl rfl rfl rfl (.inl rfl), rfl, rfl, by decide +kernel⟩

set_option maxRecDepth 100000 in
/-- C87: `VEGA` with three individuals raises: its tournament of size 3 has to be smaller than the population. -/
theorem C87_vega_three_individuals : ∃ (gray : Bool) (gens : List BinGene) (c : Cfg) (s : St (List ℚ)), VectorTask gray gens c s.conds 2 ∧
    c.numIndivid = 3 ∧ (vega c gray gens none s).1 = .error .exception :=
  ⟨true, [⟨0, 3, 1⟩, ⟨-1, 1, 1 / 2⟩], { exPairCfg with numIndivid := 3 }, { tape := exDraws 500 (exSeed 7) },
    exPair_task rfl rfl rfl rfl rfl (.inl rfl), rfl, by decide +kernel⟩

set_option maxRecDepth 100000 in
/-- C87: `VEGA` with transfer "random" raises `ValueError` when the percentage leaves no child for an objective. -/
theorem C87_vega_random_childless : ∃ (gray : Bool) (gens : List BinGene) (c : Cfg) (s : St (List ℚ)), VectorTask gray gens c s.conds 2 ∧
    c.transfer = "random" ∧ 4 ≤ c.numIndivid ∧ c.childrenPercent * c.numIndivid = 1 ∧ (vega c gray gens none s).1 = .error .valueError :=
  ⟨true, [⟨0, 3, 1⟩, ⟨-1, 1, 1 / 2⟩], { exPairCfg with numIndivid := 4, childrenPercent := 1 / 4 }, { tape := exDraws 500 (exSeed 7) },
    exPair_task rfl rfl rfl rfl rfl (.inl rfl), rfl, le_rfl, by norm_num, by decide +kernel⟩

set_option maxRecDepth 100000 in
/-- C87: a target with fewer entries than objectives raises `IndexError`. -/
theorem C87_vega_short_target : ∃ (gray : Bool) (gens : List BinGene) (c : Cfg) (s : St (List ℚ)), VectorTask gray gens c s.conds 2 ∧
    4 ≤ c.numIndivid ∧ (vega c gray gens (some [1]) s).1 = .error .indexError :=
  ⟨true, [⟨0, 3, 1⟩, ⟨-1, 1, 1 / 2⟩], { exPairCfg with numIndivid := 5 }, { tape := exDraws 500 (exSeed 7) },
    exPair_task rfl rfl rfl rfl rfl (.inl rfl), by norm_num, by decide +kernel⟩

end BaumEva
