import Verif.Proofs.SafeEvolve
import Verif.Props.Penalty
import Verif.Proofs.FloatRun
/-!
# Single-objective runs raise no exception (C65)
-/
namespace BaumEva
open Spec

/-! ## which calls are meant -/

/-- At least two bits in total: two genes, or a gene with at least three grid points. -/
def EnoughBits (gens : List BinGene) : Prop := 2 ≤ gens.length ∨ ∃ g ∈ gens, 2 * g.step ≤ |g.hi - g.lo|

/-- The declared genes are usable. -/
def SingleFacade.Usable : SingleFacade → Prop
  | .binary _ gens => Proper gens ∧ (∀ g ∈ gens, ¬ Degenerate g) ∧ EnoughBits gens
  | .combinatory a b k => 3 ≤ k ∧ k ≤ b + 1 - a
  | .categorical gens => ∀ g ∈ gens, (∃ v, InPool g v) ∧ ∀ l, g = .values l → 1 < l.length → ∃ u ∈ l, ∃ v ∈ l, u ≠ v

/-- The search space: what the objective has to accept and what may be given as input. -/
def SingleFacade.Space : SingleFacade → List Val → Prop
  | .binary _ gens => List.Forall₂ InGene gens
  | .combinatory a b k => IsTrack a b k
  | .categorical gens => IsTuple gens

/-- The points the objective is called with: the search space, up to the rounding of the last grid point of a gene. -/
def SingleFacade.Points (ar : Arith) : SingleFacade → List Val → Prop
  | .binary _ gens => List.Forall₂ (NearGene ar) gens
  | .combinatory a b k => IsTrack a b k
  | .categorical gens => IsTuple gens

/-- The arithmetic is exact, or it rounds like binary64 and can represent the declared genes. -/
def SingleFacade.Computes (f : SingleFacade) (ar : Arith) : Prop :=
  ar = .exact ∨ (Rounding ar.rnd ∧ ∀ gray gens, f = .binary gray gens → ∀ g ∈ gens, MachineGene ar.rnd g)

/-- The mutation level is admissible. -/
def SingleFacade.Level (f : SingleFacade) (lvl : MutLvl) : Prop :=
  (∃ q, lvl = .float q ∧ 0 ≤ q ∧ q ≤ 1) ∨
  ((∀ gens, f ≠ .categorical gens) ∧ (lvl = .str "weak" ∨ lvl = .str "normal" ∨ lvl = .str "strong"))

/-- The penalty charges something for every list of constraint values. -/
def Charges (p : Penalty) (ks : List Cond) : Prop :=
  PositivePenalty p ∨
  (p.name ≠ "DynamicPenalty" ∧ p.name ≠ "AdaptivePenalty" ∧
    ∃ f, p.impl = .custom f ∧ ∀ vs : List ℚ, vs.length = ks.length → ∃ q, 0 ≤ q ∧ f ks vs = .ok q)

/-- The objective as the fitness calls it. -/
def Cfg.objective (c : Cfg) : List Val → Except PyErr Ret := if c.inputTruthy then c.obj2 else c.obj1

/-- The objective and the conditions fit together: a number for an unconditional task; for a conditional one exactly
one `'optimize'`, known signs for the rest, and one value per condition. -/
def ObjectiveOk (c : Cfg) (conds : Option (List Cond)) (Space : List Val → Prop) : Prop :=
  ((c.penalty = none ∨ (conds.getD [.optimize]).length ≤ 1) ∧ ∀ x, Space x → ∃ q, c.objective x = .ok (.sc q)) ∨
  ∃ p cs, c.penalty = some p ∧ conds = some cs ∧ 2 ≤ cs.length ∧ cs.count .optimize = 1 ∧
    KnownSigns (cs.filter fun k => k ≠ .optimize) ∧ Charges p (cs.filter fun k => k ≠ .optimize) ∧
    ∀ x, Space x → ∃ vs, c.objective x = .ok (.tup vs) ∧ vs.length = cs.length

/-- Number of children per generation. -/
def Cfg.children (c : Cfg) : Nat := c.arith.share c.childrenPercent c.numIndivid 1

/-- The parameters of `optimize()` are admissible. -/
structure Admissible (f : SingleFacade) (c : Cfg) (conds : Option (List Cond)) : Prop where
  genes : f.Usable
  input : ∀ x ∈ c.input.getD [], f.Space x
  room : (c.input.getD []).length ≤ c.numIndivid
  size : 2 ≤ c.tournamentSize
  size_lt : c.tournamentSize < c.numIndivid
  level : f.Level c.mutationLvl
  transfer : c.transfer = "best" ∨ (c.transfer = "random" ∧ 1 ≤ c.childrenPercent * c.numIndivid)
  objective : ObjectiveOk c conds (f.Points c.arith)
  arith : f.Computes c.arith

theorem SingleFacade.Computes.rounding {f : SingleFacade} {ar : Arith} (h : f.Computes ar) : Rounding ar.rnd := by
  rcases h with rfl | h
  · exact id_rounding
  · exact h.1

theorem SingleFacade.Computes.step {gray : Bool} {gens : List BinGene} {ar : Arith} (h : (SingleFacade.binary gray gens).Computes ar) :
    ∀ g ∈ gens, Machine ar.rnd g.step := by
  rcases h with rfl | h
  · intro _ _; rfl
  · exact fun g hg => (h.2 gray gens rfl g hg).step

theorem SingleFacade.Computes.lo {gray : Bool} {gens : List BinGene} {ar : Arith} (h : (SingleFacade.binary gray gens).Computes ar) :
    ∀ g ∈ gens, Machine ar.rnd g.lo := by
  rcases h with rfl | h
  · intro _ _; rfl
  · exact fun g hg => (h.2 gray gens rfl g hg).lo

/-! ## fitness -/

theorem hyperbola_safe {ar : Arith} (R : Rounding ar.rnd) {ov : Option ℚ} {a : Ind ℚ} {o pen : ℚ} (h : a.objScore = some (.sc o))
    (hp : 0 ≤ pen) : ∃ sc, hyperbola ar ov a pen = .ok sc := by
  cases ov with
  | none =>
    unfold hyperbola
    rw [h]
    exact ⟨_, rfl⟩
  | some t =>
    unfold hyperbola
    rw [h]
    exact ⟨_, hyperbolaR_target R hp⟩

theorem charges_value {ar : Arith} (R : Rounding ar.rnd) {p : Penalty} {ks : List Cond} (h : Charges p ks) (hk : KnownSigns ks) {vs : List ℚ}
    (hl : ks.length = vs.length) {gen : Nat} {b : Option Best} {best : BestArg} (hb : BestKind b best)
    (hg : gen = 0 ∨ ∃ x k, b = some (.single x k)) : ∃ pen, 0 ≤ pen ∧ p.value ar ks vs gen best = .ok pen := by
  rcases h with (⟨δ, c, α, β, h1, h2, h3, h4, rfl⟩ | ⟨δ, b1, b2, β, h1, h2, h3⟩) | ⟨n1, n2, f, e, hf⟩
  · obtain ⟨pen, e, h0, _⟩ := C37_dynamic R h1 h2 h3.toGrowingPower h4 hk hl best
    exact ⟨pen gen, h0 gen, e gen⟩
  · have hnp : best ≠ .notPassed := by
      unfold BestKind at hb
      split at hb
      · rw [hb]; simp
      · obtain ⟨f, rfl⟩ := hb; simp
      · rw [hb]; simp
    by_cases h0 : gen = 0
    · subst h0
      exact ⟨0, le_rfl, C39_generation_zero R (.inr ⟨δ, b1, b2, β, h1, h2, h3⟩) hk hl best hnp⟩
    · obtain ⟨x, k, rfl⟩ := hg.resolve_left h0
      obtain ⟨fb, rfl⟩ := hb
      obtain ⟨pen, e, p0, _⟩ := C38_adaptive R h3 hk hl h1 h2 (Nat.one_le_iff_ne_zero.mpr h0) fb
      exact ⟨pen, p0, e⟩
  · obtain ⟨q, q0, hq⟩ := hf vs hl.symm
    refine ⟨q, q0, ?_⟩
    unfold Penalty.value
    rw [if_neg n1, if_neg n2, e]
    exact hq

theorem evaluable_single {c : Cfg} {ov : Option ℚ} {Space : List Val → Prop} {fit : Fit ℚ} {s s' : St ℚ}
    (ho : ObjectiveOk c s.conds Space) (R : Rounding c.arith.rnd)
    (h : newFitness (hyperbolaTask c.obj1 c.obj2 c.inputTruthy c.penalty ov c.arith) s = (.ok fit, s')) {x : List Val} (hx : Space x)
    {b : Option Best} {gen : Nat} {rk : Option Rank} (hg : gen = 0 ∨ ∃ x k, b = some (.single x k)) :
    Evaluable fit b gen rk x := by
  obtain ⟨ht, hcase⟩ := newFitness_ok h
  have hobj : (if fit.task.inputTruthy then fit.task.obj2 else fit.task.obj1) = c.objective := by rw [ht]; rfl
  have hm : fit.task.multi = false := by rw [ht]; rfl
  have hsc : ∀ (a : Ind ℚ) (pen : ℚ), fit.task.score a pen = hyperbola c.arith ov a pen := by intro a pen; rw [ht]; rfl
  have hpen : fit.task.penalty = c.penalty := by rw [ht]; rfl
  unfold Evaluable
  rw [hobj, hm]
  rcases ho with ⟨hun, hval⟩ | ⟨p, cs, e1, e2, e3, e4, e5, e6, hval⟩
  · obtain ⟨q, hq⟩ := hval x hx
    have hc : fit.isCond = false := by
      rcases hcase with ⟨hc, _⟩ | ⟨_, ⟨p, hp⟩, cs, hcs, hl, _⟩
      · exact hc
      · rcases hun with hun | hun
        · rw [show (hyperbolaTask c.obj1 c.obj2 c.inputTruthy c.penalty ov c.arith).penalty = c.penalty from rfl, hun] at hp
          simp at hp
        · rw [hcs, Option.getD_some] at hun; omega
    refine ⟨.sc q, some (.sc q), hq, by rw [hc]; rfl, ?_⟩
    rw [if_neg (by simp [hc])]
    intro a _ ha
    rw [hsc]
    exact hyperbola_safe R ha le_rfl
  · obtain ⟨vs, hv, hvl⟩ := hval x hx
    rcases hcase with ⟨_, _, _, hp | hp⟩ | ⟨hc, _, cs', hcs, hl, ⟨hmt, _⟩ | ⟨_, hmem, hco, hidx, _⟩⟩
    · rw [show (hyperbolaTask c.obj1 c.obj2 c.inputTruthy c.penalty ov c.arith).penalty = c.penalty from rfl, e1] at hp
      simp at hp
    · rw [e2, Option.getD_some] at hp; omega
    · rw [show (hyperbolaTask c.obj1 c.obj2 c.inputTruthy c.penalty ov c.arith).multi = false from rfl] at hmt
      simp at hmt
    · rw [e2] at hcs
      injection hcs with hcs
      subst hcs
      have hi := List.idxOf_lt_length_of_mem hmem
      have hlen : fit.conditions.length + 1 = cs.length := by
        rw [hco, List.length_erase_of_mem hmem]; omega
      have hfil := (single_opt e4).2
      refine ⟨.tup vs, some (.tup vs), hv, ?_, ?_⟩
      · rw [hc]
        unfold checkInput
        simp only [Bool.false_eq_true, if_false, if_true]
        rw [if_neg (by omega)]
      · rw [if_pos hc]
        have hvi : cs.idxOf .optimize < vs.length := by omega
        refine ⟨vs, ([vs[cs.idxOf .optimize]], vs.eraseIdx (cs.idxOf .optimize)), p, rfl, ?_, ?_, hpen.trans e1, ?_⟩
        · rw [hidx]
          simp [popAll, List.getElem?_eq_getElem hvi, bind, Except.bind, pure, Except.pure]
        · simp only [List.length_eraseIdx, if_pos hvi]
          omega
        · intro best hbest
          rw [← hfil, ← hco] at e5 e6
          obtain ⟨pen, p0, hp⟩ := charges_value (ar := fit.task.arith) (by rw [ht]; exact R) e6 e5 (vs := vs.eraseIdx (cs.idxOf .optimize))
            (by rw [List.length_eraseIdx, if_pos hvi]; omega) (gen := gen) hbest hg
          refine ⟨pen, hp, ?_⟩
          intro a _ ha
          rw [hsc]
          exact hyperbola_safe R ha p0

theorem newFitness_safe {c : Cfg} {ov : Option ℚ} {Space : List Val → Prop} {s : St ℚ} (ho : ObjectiveOk c s.conds Space) :
    Safe (newFitness (hyperbolaTask c.obj1 c.obj2 c.inputTruthy c.penalty ov c.arith)) s := by
  unfold newFitness
  refine Safe.bind_ok (getS_run s) ?_
  simp only [hyperbolaTask]
  rcases ho with ⟨hun, hval⟩ | ⟨p, cs, e1, e2, e3, e4, e5, e6, hval⟩
  · cases hp : c.penalty with
    | none => exact Safe.pure _ _
    | some p =>
      simp only
      rw [hp] at hun
      rw [if_pos (by simpa using hun)]
      exact Safe.pure _ _
  · rw [e1, e2]
    simp only [Option.getD_some]
    have hm : Cond.optimize ∈ cs := by rw [← List.count_pos_iff]; omega
    rw [if_neg (by omega), if_neg (by simp), if_pos hm]
    exact Safe.bind_ok (modifyS_run _ _) (Safe.pure _ _)

/-! ## filling -/

theorem rangeLen_pos {lo hi step : Int} (i : Nat)
    (h : (0 < step ∧ lo + step * (i : Int) ≤ hi) ∨ (step < 0 ∧ hi + 1 < lo + step * (i : Int))) :
    0 < rangeLen lo (hi + 1) step := by
  unfold rangeLen
  rcases h with ⟨h1, h2⟩ | ⟨h1, h2⟩
  · rw [if_pos h1]
    have : 0 ≤ step * (i : Int) := by positivity
    have h3 : step * 1 ≤ hi + 1 - lo + step - 1 := by linarith
    rw [Int.fdiv_eq_ediv_of_nonneg _ h1.le]
    exact lt_of_lt_of_le zero_lt_one ((Int.le_ediv_iff_mul_le h1).mpr (by linarith))
  · rw [if_neg (by omega)]
    have : step * (i : Int) ≤ 0 := mul_nonpos_of_nonpos_of_nonneg h1.le (by positivity)
    have h3 : hi + 1 - lo + step + 1 ≤ step := by linarith
    have : (hi + 1 - lo + step + 1).fdiv step = (-(hi + 1 - lo + step + 1)).fdiv (-step) := by
      rw [Int.neg_fdiv_neg]
    rw [this, Int.fdiv_eq_ediv_of_nonneg _ (by omega)]
    exact lt_of_lt_of_le zero_lt_one ((Int.le_ediv_iff_mul_le (by omega)).mpr (by linarith))

theorem genCatGene_safe {σ : Type} {g : CatGene} (h : ∃ v, InPool g v) (s : St σ) : Safe (genCatGene g) s := by
  obtain ⟨v, hv⟩ := h
  cases g with
  | range lo hi step =>
    obtain ⟨i, _, hi'⟩ := hv
    rw [genCatGene]
    refine Safe.bind ?_ (fun _ _ _ => Safe.pure _ _)
    unfold randrange
    have := rangeLen_pos i hi'
    exact Safe.ite (fun h0 => by omega) (fun _ => Safe.ite (fun h0 => by omega)
      (fun _ => Safe.bind (Safe.draw s) (fun _ _ _ => Safe.pure _ _)))
  | values l =>
    rw [genCatGene]
    exact Safe.choice s (List.ne_nil_of_mem hv)
  | other => exact hv.elim

theorem generate_safe {σ : Type} {f : SingleFacade} (hu : f.Usable) {at_ : Attrs} (hsp : at_.spec = f.spec)
    (hprep : ∀ gray gens, at_.spec = .binary gray gens → Prepared at_ gray gens) (s : St σ) : Safe (generate at_) s := by
  unfold generate
  rw [hsp]
  cases f with
  | binary gray gens =>
    simp only [SingleFacade.spec] at hsp ⊢
    have hP := hprep gray gens hsp
    refine Safe.bind (Safe.mapEach (fun _ => True) ?_ (fun _ _ _ _ _ _ _ => trivial) trivial) (fun _ _ _ => Safe.pure _ _)
    intro p hp s1 _
    obtain ⟨g, _, hgp⟩ := forall₂_right hP.forallR hp
    obtain ⟨a1, a2, _⟩ := geneParamsR_ok hgp
    unfold genBinGene
    have h2 : (1 : Int) ≤ 2 ^ p.numBits := by exact_mod_cast Nat.one_le_two_pow
    refine Safe.bind (Safe.randint (by rw [a2]; omega) s1) ?_
    intro v s2 hv
    obtain ⟨v1, v2, _⟩ := randint_ok hv
    have hlt : v < ((2 ^ p.numBits : Nat) : Int) := by have := Nat.one_le_two_pow (n := p.numBits); omega
    obtain ⟨l, hl, _⟩ := encodeIndex_eq (gray := gray) (v := v.toNat) a1 (by omega)
    exact Safe.liftE_ok hl s2
  | combinatory a b k =>
    obtain ⟨h1, h2⟩ := hu
    simp only [SingleFacade.spec]
    refine Safe.bind (Safe.sample s (by omega) ?_) (fun _ _ _ => Safe.pure _ _)
    rw [length_pyRange_one]
    omega
  | categorical gens =>
    simp only [SingleFacade.spec]
    exact Safe.mapEach (fun _ => True) (fun g hg s1 _ => genCatGene_safe (hu g hg).1 s1) (fun _ _ _ _ _ _ _ => trivial) trivial

theorem prepare_safe {σ : Type} {f : SingleFacade} (hu : f.Usable) {s : St σ} (hsp : s.ga.attrs.spec = f.spec)
    (hx : f.Computes s.ga.attrs.arith) : Safe prepare s := by
  unfold prepare
  refine Safe.bind_ok (getGa_run s) ?_
  rw [hsp]
  cases f with
  | binary gray gens =>
    simp only [SingleFacade.spec]
    obtain ⟨r, h⟩ := gensParamsR_accepts hx.rounding (off := 0) hu.2.1 hx.step
    exact Safe.bind (Safe.liftE_ok h s) (fun _ s1 _ => Safe.of_ok (modGa_run _ s1))
  | combinatory a b k => exact Safe.pure _ _
  | categorical gens => exact Safe.pure _ _

theorem adopt_safe {f : SingleFacade} (hu : f.Usable) {at_ : Attrs} (he : f.Computes at_.arith) (hsp : at_.spec = f.spec)
    (hprep : ∀ gray gens, at_.spec = .binary gray gens → Prepared at_ gray gens) {x : List Val} (hx : f.Space x) :
    ∃ g, adopt at_ x = .ok g := by
  cases f with
  | binary gray gens =>
    rcases he with he | ⟨R, hm⟩
    · obtain ⟨geno, _, h1, _⟩ := C07_encode_nearest (hprep gray gens hsp) he hu.1 hx
      exact ⟨geno, h1⟩
    · have hP := (hprep gray gens hsp).forallR
      unfold adopt
      rw [hsp]
      simp only [SingleFacade.spec, encodeIndividR]
      rw [if_neg (by rw [List.Forall₂.length_eq hx]; simp)]
      refine encodeGenesR_accepts R hP hu.1 ?_ hx
      intro p hp
      obtain ⟨g, hg, hgp⟩ := forall₂_right hP hp
      have hd := hu.2.1 g hg
      unfold Degenerate at hd
      push Not at hd
      have := hm gray gens rfl g hg
      exact numBits_le R hgp hd.1 this.step this.grid
  | combinatory a b k => exact ⟨x, by unfold adopt; rw [hsp]; rfl⟩
  | categorical gens => exact ⟨x, by unfold adopt; rw [hsp]; rfl⟩

/-! ## genotypes of the facades -/

theorem totalBits_two {rnd : ℚ → ℚ} (R : Rounding rnd) {gens : List BinGene} {ps : List GeneParams}
    (h : List.Forall₂ (fun g p => geneParamsR rnd g = .ok p) gens ps) (hm : ∀ g ∈ gens, Machine rnd g.step)
    (hd : ∀ g ∈ gens, ¬ Degenerate g) (he : EnoughBits gens) : 2 ≤ totalBits ps := by
  have hone : ∀ {gens : List BinGene} {ps : List GeneParams}, List.Forall₂ (fun g p => geneParamsR rnd g = .ok p) gens ps →
      gens.length ≤ totalBits ps := by
    intro gens ps h
    induction h with
    | nil => simp
    | cons h1 _ ih =>
      have := (geneParamsR_ok h1).1
      simp only [totalBits, List.map_cons, List.sum_cons, List.length_cons] at ih ⊢
      omega
  rcases he with he | ⟨g, hg, hw⟩
  · exact he.trans (hone h)
  · obtain ⟨p, hp, hgp⟩ : ∃ p ∈ ps, geneParamsR rnd g = .ok p := by
      clear hd hm
      induction h with
      | nil => simp at hg
      | cons h1 _ ih =>
        rcases List.mem_cons.mp hg with rfl | hg
        · exact ⟨_, List.mem_cons_self, h1⟩
        · obtain ⟨p, hp, e⟩ := ih hg
          exact ⟨p, List.mem_cons_of_mem _ hp, e⟩
    have hst : 0 < g.step := by
      have := hd g hg
      unfold Degenerate at this
      push Not at this
      exact this.1
    have hb : 2 ≤ p.numBits := numBits_two R hgp hst (hm g hg) hw
    have hle : p.numBits ≤ totalBits ps := by
      unfold totalBits
      exact List.single_le_sum (fun _ _ => Nat.zero_le _) _ (List.mem_map_of_mem hp)
    omega

/-- Genotypes of a facade once its population is prepared. -/
def SingleFacade.Geno (at_ : Attrs) : SingleFacade → List Val → Prop
  | .binary _ _ => fun g => IsBits g ∧ g.length = at_.idxBits.getLastD 0
  | .combinatory a b k => IsTrack a b k
  | .categorical gens => IsTuple gens

theorem SingleFacade.geno_closed (f : SingleFacade) (at_ : Attrs) : ClosedGeno f.cross f.mutOp f.spec (f.Geno at_) := by
  cases f with
  | binary gray gens => exact bits_closed _ _
  | combinatory a b k => exact track_closed _ a b k
  | categorical gens => exact tuple_closed gens

theorem SingleFacade.geno_first {f : SingleFacade} {n : Nat} {input : Option (List (List Val))} {s s0 : St ℚ}
    (hin : ∀ x ∈ input.getD [], f.Space x) (hc : createPopulation f.spec n input s = (.ok (), s0)) :
    ∀ r ∈ s0.ga.population, WellFormed (f.Geno s0.ga.attrs) s0.ga.attrs (s0.heap r) := by
  have hd := (createPopulation_ok hc).2.1
  intro r hr
  cases f with
  | binary gray gens =>
    obtain ⟨hprep, hpop⟩ := C10_fill_binary hc
    obtain ⟨g, p, e1, e2, e3, e4, e5⟩ := hpop r hr
    exact ⟨g, e1, ⟨e3, e4⟩, fun _ => ⟨p, e2, e5⟩⟩
  | combinatory a b k =>
    have hnp : s0.ga.attrs.isPhenotype ≠ true := by
      intro hp
      obtain ⟨_, _, e⟩ := hd.phen.mp hp
      simp [SingleFacade.spec] at e
    obtain ⟨i, hi⟩ := List.getElem?_of_mem hr
    have hgood : ∃ g, (s0.heap r).genotype = some g ∧ IsTrack a b k g := by
      by_cases hil : i < (input.getD []).length
      · cases hci : input with
        | none => rw [hci] at hil; simp at hil
        | some inp =>
          rw [hci] at hil hin
          simp only [Option.getD_some] at hil hin
          rw [hci] at hc
          obtain ⟨_, hall⟩ := C11_input_adopted (by simp [SingleFacade.spec]) hc
          obtain ⟨r', hr', hg⟩ := hall i inp[i] (List.getElem?_eq_getElem hil)
          rw [hi] at hr'
          injection hr' with hr'
          subst hr'
          exact ⟨_, hg, hin _ (List.getElem_mem hil)⟩
      · exact C13_generated_tracks hc i r (by omega) hi
    obtain ⟨g, g1, g2⟩ := hgood
    exact ⟨g, g1, g2, fun hp => absurd hp hnp⟩
  | categorical gens =>
    have hnp : s0.ga.attrs.isPhenotype ≠ true := by
      intro hp
      obtain ⟨_, _, e⟩ := hd.phen.mp hp
      simp [SingleFacade.spec] at e
    obtain ⟨i, hi⟩ := List.getElem?_of_mem hr
    have hgood : ∃ g, (s0.heap r).genotype = some g ∧ IsTuple gens g := by
      by_cases hil : i < (input.getD []).length
      · cases hci : input with
        | none => rw [hci] at hil; simp at hil
        | some inp =>
          rw [hci] at hil hin
          simp only [Option.getD_some] at hil hin
          rw [hci] at hc
          obtain ⟨_, hall⟩ := C11_input_adopted (by simp [SingleFacade.spec]) hc
          obtain ⟨r', hr', hg⟩ := hall i inp[i] (List.getElem?_eq_getElem hil)
          rw [hi] at hr'
          injection hr' with hr'
          subst hr'
          exact ⟨_, hg, hin _ (List.getElem_mem hil)⟩
      · exact C12_generated_in_pools hc i r (by omega) hi
    obtain ⟨g, g1, g2⟩ := hgood
    exact ⟨g, g1, g2, fun hp => absurd hp hnp⟩

/-- Every genotype of the facade can be given to the objective. -/
theorem SingleFacade.geno_arg {f : SingleFacade} (hu : f.Usable) {at_ : Attrs} (he : f.Computes at_.arith) (hsp : at_.spec = f.spec)
    (hph : at_.isPhenotype = f.spec.hasPhenotype)
    (hprep : ∀ gray gens, at_.spec = .binary gray gens → Prepared at_ gray gens) {g : List Val} (hg : f.Geno at_ g) :
    (at_.isPhenotype = true → ∃ p, decodeIndivid at_ g = .ok p) ∧ ∀ a, ArgOf at_ g a → f.Points at_.arith a := by
  cases f with
  | binary gray gens =>
    have hP := hprep gray gens hsp
    have x1 := hP.decodeR hg.1 (by rw [← hP.total]; exact hg.2.ge)
    have x2 : List.Forall₂ (NearGene at_.arith) gens (pointsR at_.arith.rnd gray g gens at_.params) := by
      refine pointsR_nearGene he.rounding hP.forallR hu.1 he.lo g ?_
      intro hex
      obtain ⟨xs, y1, y2⟩ := C05_decode_in_range hP hex hu.1 hg.1 hg.2
      rw [x1] at y1
      injection y1 with y1
      rw [y1]; exact y2
    refine ⟨fun _ => ⟨_, x1⟩, ?_⟩
    intro a ha
    unfold ArgOf at ha
    rw [hph] at ha
    simp only [SingleFacade.spec, PopSpec.hasPhenotype, if_true] at ha
    rw [x1] at ha
    injection ha with ha
    subst ha
    exact x2
  | combinatory a b k =>
    rw [show at_.isPhenotype = false from hph]
    refine ⟨fun h => by simp at h, ?_⟩
    intro a ha
    unfold ArgOf at ha
    rw [show at_.isPhenotype = false from hph] at ha
    simp only [Bool.false_eq_true, if_false] at ha
    subst ha
    exact hg
  | categorical gens =>
    rw [show at_.isPhenotype = false from hph]
    refine ⟨fun h => by simp at h, ?_⟩
    intro a ha
    unfold ArgOf at ha
    rw [show at_.isPhenotype = false from hph] at ha
    simp only [Bool.false_eq_true, if_false] at ha
    subst ha
    exact hg

theorem mutablePool {g : CatGene} (h : (∃ v, InPool g v) ∧ ∀ l, g = .values l → 1 < l.length → ∃ u ∈ l, ∃ v ∈ l, u ≠ v) :
    MutablePool g := by
  obtain ⟨⟨v, hv⟩, h2⟩ := h
  cases g with
  | range lo hi step =>
    obtain ⟨i, _, hi'⟩ := hv
    unfold MutablePool
    simp only
    omega
  | values l =>
    unfold MutablePool
    simp only
    by_cases hl : 1 < l.length
    · obtain ⟨u, hu, v, hv, hne⟩ := h2 l rfl hl
      exact .inr ⟨u, v, hu, hv, hne⟩
    · exact .inl (by omega)
  | other => exact hv.elim

/-! ## the run -/

/-- The checked level is usable. -/
theorem level_ready {f : SingleFacade} (hu : f.Usable) {lvl l : MutLvl} (hl : checkMutation f.mutOp lvl = .ok l) {at_ : Attrs}
    (he : f.Computes at_.arith) (hsp : at_.spec = f.spec) (hprep : ∀ gray gens, at_.spec = .binary gray gens → Prepared at_ gray gens) :
    MutReady f.mutOp at_ l := by
  constructor
  · unfold checkMutation at hl
    cases lvl with
    | float q =>
      simp only at hl
      split at hl
      · cases hl
      · injection hl with hl; exact .inl ⟨q, hl.symm⟩
    | other => cases hl
    | str x =>
      cases f with
      | binary gray gens =>
        simp only [SingleFacade.mutOp] at hl ⊢
        split at hl
        · injection hl with hl; exact .inr ⟨trivial, x, hl.symm⟩
        · cases hl
      | combinatory a b k =>
        simp only [SingleFacade.mutOp] at hl
        left
        split at hl
        · injection hl with hl; exact ⟨_, hl.symm⟩
        · split at hl
          · injection hl with hl; exact ⟨_, hl.symm⟩
          · split at hl
            · injection hl with hl; exact ⟨_, hl.symm⟩
            · cases hl
      | categorical gens => cases hl
  · intro hb
    cases f with
    | binary gray gens =>
      refine ⟨⟨gray, gens, hsp⟩, ?_⟩
      have hP := hprep gray gens hsp
      rw [hP.total]
      have := totalBits_two he.rounding hP.forallR he.step hu.2.1 hu.2.2
      omega
    | combinatory a b k => simp [SingleFacade.mutOp] at hb
    | categorical gens => simp [SingleFacade.mutOp] at hb

theorem level_check {f : SingleFacade} {lvl : MutLvl} (h : f.Level lvl) : ∃ l, checkMutation f.mutOp lvl = .ok l := by
  rcases h with ⟨q, rfl, h0, h1⟩ | ⟨hn, h⟩
  · unfold checkMutation
    simp only
    rw [if_neg (by push Not; exact ⟨h0, h1⟩)]
    exact ⟨_, rfl⟩
  · cases f with
    | categorical gens => exact absurd rfl (hn gens)
    | binary gray gens => rcases h with rfl | rfl | rfl <;> exact ⟨_, rfl⟩
    | combinatory a b k => rcases h with rfl | rfl | rfl <;> exact ⟨_, rfl⟩

theorem crossResult_tuple {gens : List CatGene} {g0 p1 p2 g1 : List Val} (h0 : IsTuple gens g0) (h1 : IsTuple gens p1)
    (h2 : IsTuple gens p2) (h : CrossResult ℚ .uniform g0.length p1 p2 g1) : IsTuple gens g1 :=
  tuple_closed gens .other g0 p1 p2 g1 g1 h0 h1 h2 h (.inl rfl)

theorem crossResult_track {a b k : Int} {g0 p1 p2 g1 : List Val} (h0 : IsTrack a b k g0) (h1 : IsTrack a b k p1)
    (h2 : IsTrack a b k p2) (h : CrossResult ℚ .order g0.length p1 p2 g1) : IsTrack a b k g1 :=
  track_closed (.orderCat a b k) a b k .other g0 p1 p2 g1 g1 h0 h1 h2 h (.inl rfl)

/-- A run of a facade from a started state raises nothing. -/
theorem run_safe {f : SingleFacade} {c : Cfg} {ov : Option ℚ} {sa sb s0 : St ℚ} {fit : Fit ℚ} {tr : Transfer}
    (ha : Admissible f c sa.conds)
    (hfit : newFitness (hyperbolaTask c.obj1 c.obj2 c.inputTruthy c.penalty ov c.arith) sa = (.ok fit, sb))
    (htr : checkTransfer c.transfer = .ok tr)
    (hlvl : ∃ l, checkMutation f.mutOp c.mutationLvl = .ok l ∧ s0.mutLvl = l.stored c.arith)
    (hst : Started f.spec c.numIndivid c.numGenerations c.input c.childrenPercent (some c.stop) c.arith s0) :
    SafeSetup fit (.tournament c.tournamentSize) f.cross f.mutOp tr (f.Geno s0.ga.attrs) s0 := by
  obtain ⟨s1, hc⟩ := hst.created
  obtain ⟨_, hd, hpop, _⟩ := createPopulation_ok hc
  have hsp : s0.ga.attrs.spec = f.spec := hd.spec_eq
  have hnum : s0.ga.attrs.numIndivid = c.numIndivid := hd.num
  have hprep : ∀ gray gens, s0.ga.attrs.spec = .binary gray gens → Prepared s0.ga.attrs gray gens := by
    intro gray gens e
    exact hd.prep gray gens (hsp.symm.trans e)
  have hph : s0.ga.attrs.isPhenotype = f.spec.hasPhenotype := by
    have := hd.phen
    cases f with
    | binary gray gens => exact this.mpr ⟨gray, gens, rfl⟩
    | combinatory a b k =>
      simp only [SingleFacade.spec, PopSpec.hasPhenotype]
      rw [Bool.eq_false_iff]
      intro hp
      obtain ⟨_, _, e⟩ := this.mp hp
      simp [SingleFacade.spec] at e
    | categorical gens =>
      simp only [SingleFacade.spec, PopSpec.hasPhenotype]
      rw [Bool.eq_false_iff]
      intro hp
      obtain ⟨_, _, e⟩ := this.mp hp
      simp [SingleFacade.spec] at e
  have hex : f.Computes s0.ga.attrs.arith := by rw [hst.arith]; exact ha.arith
  have h2 := ha.size
  have h3 := ha.size_lt
  refine ⟨⟨hst.fresh, ?_, SingleFacade.geno_first ha.input hc, ?_, ?_, ?_, ?_, ?_, ?_,
    fun hp g hg => (SingleFacade.geno_arg ha.genes hex hsp hph hprep hg).1 hp, ?_, ?_⟩, ?_⟩
  · rw [hsp]; exact f.geno_closed _
  · rw [hpop, List.length_range', hnum]
  · rw [hnum]; omega
  · intro g0 p1 p2 k0 k1 k2
    have hu := ha.genes
    cases f with
    | binary gray gens =>
      have hP := hprep gray gens hsp
      have := totalBits_two hex.rounding hP.forallR hex.step hu.2.1 hu.2.2
      have e := k0.2
      rw [hP.total] at e
      show 2 ≤ g0.length
      omega
    | combinatory a b k =>
      show 3 ≤ g0.length
      have := k0.1
      have := hu.1
      omega
    | categorical gens =>
      have a0 := k0.length_eq
      have a1 := k1.length_eq
      have a2 := k2.length_eq
      exact ⟨by omega, by omega⟩
  · intro g0 p1 p2 g1 k0 k1 k2 hcr
    have hu := ha.genes
    cases f with
    | binary gray gens => trivial
    | combinatory a b k =>
      have := (crossResult_track k0 k1 k2 hcr).1
      have := hu.1
      show 2 ≤ g1.length
      omega
    | categorical gens =>
      refine ⟨gens, hsp, (crossResult_tuple k0 k1 k2 hcr).length_eq.ge, ?_⟩
      intro p hp
      exact mutablePool (hu p hp)
  · obtain ⟨l, hl1, hl2⟩ := hlvl
    rw [hl2]
    exact (level_ready ha.genes hl1 hex hsp hprep).stored _
  · intro e
    subst e
    have h1 : 1 ≤ c.childrenPercent * c.numIndivid := by
      rcases ha.transfer with h | h
      · rw [h] at htr; simp [checkTransfer] at htr
      · exact h.2
    rw [numPairs_share, hst.percent, hnum, hst.arith, share_one ha.arith.rounding]
    have h2 := ha.arith.rounding.mono h1
    rw [ha.arith.rounding.one] at h2
    have : (1 : Int) ≤ ⌊c.arith.rnd (c.childrenPercent * c.numIndivid)⌋ := Int.le_floor.mpr (by push_cast; exact h2)
    omega
  · intro g a hg harg b gen rk hb
    have := (SingleFacade.geno_arg ha.genes hex hsp hph hprep hg).2 a harg
    rw [hst.arith] at this
    exact evaluable_single ha.objective ha.arith.rounding hfit this hb
  · rw [hst.stop]; simp
  · intro s e1 e2 e3 e4
    exact tournamentExec_safe h2 (by rw [e1, hnum]; exact h3) e2 e3 e4

/-- C65: with admissible parameters `optimize()` of the single-objective facades raises no exception: the only way to
stop early is that the list of draws is finite. -/
theorem C65_no_exception {f : SingleFacade} {c : Cfg} {ov : Option ℚ} {s s' : St ℚ} {e : PyErr} (ha : Admissible f c s.conds)
    (h : f.optimize c ov s = (.error e, s')) : e = .exhausted ∧ s'.tape = [] := by
  suffices hs : Safe (facade c f.spec (hyperbolaTask c.obj1 c.obj2 c.inputTruthy c.penalty ov c.arith) baseFitnessExec gaUpdate
      (tournamentExec c.tournamentSize) f.cross f.mutOp newGenExec) s by
    apply hs e s'
    cases f <;> exact h
  clear h
  obtain ⟨l, hlvl⟩ := level_check ha.level
  obtain ⟨tr, htr⟩ : ∃ tr, checkTransfer c.transfer = .ok tr := by
    rcases ha.transfer with h | h
    · rw [h]; exact ⟨_, rfl⟩
    · rw [h.1]; exact ⟨_, rfl⟩
  have hlen : ¬ c.numIndivid < (c.input.getD []).length := by have := ha.room; omega
  unfold facade newGaData newPopulation setParams newMutation
  refine Safe.bind_ok (modifyS_run _ _) (Safe.bind (Safe.reseed _) ?_)
  intro _ s2 h2
  obtain ⟨t, e2⟩ := reseed_ok h2
  rw [if_neg hlen]
  refine Safe.bind_ok (modGa_run _ _) (Safe.bind (newFitness_safe (Space := f.Points c.arith) ?_) ?_)
  · rw [e2]; exact ha.objective
  intro fit s4 h4
  have e4 : s4 = { s2 with ga := s4.ga, conds := s4.conds } ∧ s4.ga = { s2.ga with population := [], attrs := { numIndivid := c.numIndivid, spec := f.spec, isPhenotype := f.spec.hasPhenotype, arith := s2.ga.attrs.arith } } := by
    rcases (newFitness_ok h4).2 with ⟨_, _, e, _⟩ | ⟨_, _, cs, _, _, ⟨_, _, _, e⟩ | ⟨_, _, _, _, e⟩⟩
    all_goals rw [e]; exact ⟨rfl, rfl⟩
  obtain ⟨e4, e4g⟩ := e4
  refine Safe.bind (Safe.bind (Safe.liftE_ok hlvl _) (fun _ _ _ => Safe.bind_ok (getGa_run _) (Safe.of_ok (modifyS_run _ _)))) ?_
  intro _ s5 h5
  obtain ⟨l', s5', g1, g2⟩ := bind_ok.mp h5
  rw [hlvl] at g1
  obtain ⟨g3, rfl⟩ := liftE_ok.mp g1
  injection g3 with g3
  subst g3
  rw [bind_of_ok (getGa_run _), modifyS_ok] at g2
  refine Safe.bind (Safe.liftE_ok htr _) ?_
  intro tr' s6 h6
  rw [htr] at h6
  obtain ⟨g3, rfl⟩ := liftE_ok.mp h6
  injection g3 with g3
  subst g3
  have hga : s6.ga = { numGenerations := c.numGenerations, childrenPercent := c.childrenPercent, earlyStop := some c.stop
                       attrs := { numIndivid := c.numIndivid, spec := f.spec, isPhenotype := f.spec.hasPhenotype, arith := c.arith } } := by
    rw [g2]; simp only; rw [e4g, e2]
  have hsn : s6.snaps = [] := by rw [g2]; simp only; rw [e4, e2]
  have hspec : s6.ga.attrs.spec = f.spec := by rw [hga]
  refine Safe.bind (fill_safe (prepare_safe ha.genes hspec (by rw [hga]; exact ha.arith)) ?_ ?_ (by rw [hga])) ?_
  · intro at_ hat har hprep
    rw [hspec] at hat
    exact ⟨fun x hx => adopt_safe ha.genes (by rw [har, hga]; exact ha.arith) hat hprep (ha.input x hx), fun s' => generate_safe ha.genes hat hprep s'⟩
  · intro hp
    rw [hga] at hp
    cases f with
    | binary gray gens => exact ⟨gray, gens, hspec⟩
    | combinatory a b k => cases hp
    | categorical gens => cases hp
  intro _ s0 h12
  have hst := started_of_fill hlen hga hsn h12
  have hmut : ∃ l, checkMutation f.mutOp c.mutationLvl = .ok l ∧ s0.mutLvl = l.stored c.arith := by
    obtain ⟨_, _, _, _, _, _, _, _, _, b1, b2, _⟩ := fill_ok (by rw [hga]) (by rw [hga]; simp only; omega) h12
    refine ⟨l, hlvl, ?_⟩
    rw [b2, g2]
    simp only
    rw [e4g, e2]
  have hsetup := run_safe (s0 := s0) (ov := ov) (by show Admissible f c s2.conds; rw [show s2.conds = s.conds by rw [e2]]; exact ha) h4 htr hmut hst
  refine Safe.bind hsetup.evolve ?_
  intro _ s7 h7
  refine Safe.ite (fun _ => ?_) (fun _ => Safe.pure _ _)
  obtain ⟨_, k, _, _, _, hk, _⟩ := evolve_after (ops := singleOps fit (.tournament c.tournamentSize) f.cross f.mutOp tr) h7
  obtain ⟨b, g, v, r, t1, _⟩ := (hk.inv (singleOps_run fit (.tournament c.tournamentSize) f.cross f.mutOp tr) hst.fresh).top
  unfold printBest
  refine Safe.bind_ok (getS_run s7) ?_
  rw [t1]
  exact Safe.pure _ _

/-! ## the conditions can be met, and cannot be dropped -/

def sumNums (x : List Val) : ℚ := (x.map fun v => match v with | .num q => q | .str _ => 0).sum

def exSumCfg : Cfg :=
  { numGenerations := 4, numIndivid := 5, obj1 := fun x => .ok (.sc (sumNums x)), childrenPercent := 1 / 2, tournamentSize := 2,
    mutationLvl := .str "strong", transfer := "random" }

theorem exSum_admissible : Admissible (.binary true [⟨0, 3, 1⟩, ⟨-1, 1, 1 / 2⟩]) exSumCfg none where
  genes := by
    refine ⟨?_, ?_, .inl (by simp)⟩
    · intro g hg
      simp only [List.mem_cons, List.not_mem_nil, or_false] at hg
      rcases hg with rfl | rfl <;> norm_num
    · intro g hg
      unfold Degenerate
      simp only [List.mem_cons, List.not_mem_nil, or_false] at hg
      rcases hg with rfl | rfl <;> norm_num [abs_of_pos]
  input := by simp [exSumCfg]
  room := by simp [exSumCfg]
  size := by simp [exSumCfg]
  size_lt := by simp [exSumCfg]
  level := .inr ⟨by simp, by simp [exSumCfg]⟩
  transfer := .inr ⟨rfl, by norm_num [exSumCfg]⟩
  objective := .inl ⟨.inl rfl, fun x _ => ⟨_, rfl⟩⟩
  arith := .inl rfl

/-- A conditional task: the sum is to be minimised, be at least two and not exceed nine. -/
def exBoundedCfg : Cfg :=
  { numGenerations := 4, numIndivid := 5,
    obj1 := fun x => .ok (.tup [2 - sumNums x, sumNums x, sumNums x - 9]), childrenPercent := 1 / 2, tournamentSize := 2,
    mutationLvl := .float (1 / 100), penalty := some (newDynamic 1 2 1 2) }

example : Admissible (.categorical [.range 0 9 1, .values [.num 1, .str "a"]]) exBoundedCfg (some [.le, .optimize, .le]) where
  genes := by
    intro g hg
    simp only [List.mem_cons, List.not_mem_nil, or_false] at hg
    rcases hg with rfl | rfl
    · exact ⟨⟨.num 0, 0, by norm_num, .inl (by norm_num)⟩, fun l h => by cases h⟩
    · refine ⟨⟨.num 1, by simp [InPool]⟩, ?_⟩
      intro l h _
      injection h with h
      subst h
      exact ⟨.num 1, by simp, .str "a", by simp, by simp⟩
  input := by simp [exBoundedCfg]
  room := by simp [exBoundedCfg]
  size := by simp [exBoundedCfg]
  size_lt := by simp [exBoundedCfg]
  level := .inl ⟨1 / 100, rfl, by norm_num, by norm_num⟩
  transfer := .inl rfl
  objective := .inr ⟨_, _, rfl, rfl, by simp, by decide, by unfold KnownSigns; decide,
    .inl (.inl ⟨1, 2, 1, 2, by norm_num, by norm_num, positive_nat le_rfl, positive_nat (by norm_num), rfl⟩), fun x _ => ⟨_, rfl, rfl⟩⟩
  arith := .inl rfl

set_option maxRecDepth 100000 in
/-- Runs with admissible parameters do finish when there are enough draws. -/
example : succeeded (exBinary { tape := exTape }) = true ∧
    ((SingleFacade.categorical [.range 0 9 1, .values [.num 1, .str "a"]]).optimize exBoundedCfg none
      { tape := exTape, conds := some [.le, .optimize, .le] }).1 = .ok () := by decide +kernel

set_option maxRecDepth 100000 in
/-- C65: `transfer_parents = 'random'` with less than one child per generation raises `ValueError`; no constructor
checks it. -/
theorem C65_random_without_children : ∃ (f : SingleFacade) (c : Cfg) (s : St ℚ),
    f.Usable ∧ c.transfer = "random" ∧ 0 < c.childrenPercent ∧ (f.optimize c none s).1 = .error .valueError :=
  ⟨exFacade, { exCfg with transfer := "random", childrenPercent := 1 / 10 }, { tape := exTape }, by
    intro g hg
    simp only [List.mem_cons, List.not_mem_nil, or_false] at hg
    rcases hg with rfl | rfl | rfl <;>
      exact ⟨⟨.num 0, 0, by norm_num, .inl (by norm_num)⟩, fun l h => by cases h⟩, rfl, by norm_num,
    by decide +kernel⟩

set_option maxRecDepth 100000 in
/-- C65: a single binary gene with two grid points passes all checks, and the one-point crossover raises `ValueError`. -/
theorem C65_single_bit : ∃ (gens : List BinGene) (c : Cfg) (s : St ℚ), Proper gens ∧ (∀ g ∈ gens, ¬ Degenerate g) ∧
    (binaryGA c false gens none s).1 = .error .valueError :=
  ⟨[⟨0, 1, 1⟩], exCfg, { tape := exTape }, by
    intro g hg
    rw [List.mem_singleton] at hg
    subst hg
    norm_num, by
    intro g hg
    unfold Degenerate
    rw [List.mem_singleton] at hg
    subst hg
    norm_num, by decide +kernel⟩

set_option maxRecDepth 100000 in
/-- C65: a categorical gene whose pool repeats one value passes all checks, and mutation raises `IndexError`. -/
theorem C65_repeated_value : ∃ (gens : List CatGene) (c : Cfg) (s : St ℚ), (∀ g ∈ gens, ∃ v, InPool g v) ∧
    (categoricalGA c gens none s).1 = .error .indexError :=
  ⟨[.values [.num 1, .num 1], .range 0 9 1], { exSumCfg with mutationLvl := .float 1 }, { tape := exTape }, by
    intro g hg
    simp only [List.mem_cons, List.not_mem_nil, or_false] at hg
    rcases hg with rfl | rfl
    · exact ⟨.num 1, by simp [InPool]⟩
    · exact ⟨.num 0, 0, by norm_num, .inl (by norm_num)⟩, by decide +kernel⟩

set_option maxRecDepth 100000 in
/-- C65: the default mutation level `'normal'` raises in `CategoricalGA`. -/
theorem C65_categorical_default_level : ∀ (gens : List CatGene) (c : Cfg) (x : String) (s : St ℚ), c.mutationLvl = .str x →
    (c.input.getD []).length ≤ c.numIndivid → (c.penalty = none ∨ (s.conds.getD [.optimize]).length ≤ 1) →
    (categoricalGA c gens none s).1 = .error .attributeError := by
  intro gens c x s hx hlen hun
  unfold categoricalGA facade newGaData newPopulation setParams newMutation
  rw [bind_of_ok (modifyS_run _ _)]
  obtain ⟨s2, h2, _⟩ := reseed_drew (σ := ℚ) { s with
    ga := { numGenerations := c.numGenerations, childrenPercent := c.childrenPercent, earlyStop := some c.stop, attrs := { arith := c.arith } }
    snaps := [] }
  have hc2 : s2.conds = s.conds := by obtain ⟨t, e⟩ := reseed_ok h2; rw [e]
  rw [bind_of_ok h2, if_neg (by omega), bind_of_ok (modGa_run _ _)]
  have hf : ∀ s3 : St ℚ, s3.conds = s.conds →
      ∃ fit, newFitness (hyperbolaTask c.obj1 c.obj2 c.inputTruthy c.penalty none c.arith) s3 = (.ok fit, s3) := by
    intro s3 e3
    unfold newFitness
    rw [bind_of_ok (getS_run s3), e3]
    simp only [hyperbolaTask]
    cases hp : c.penalty with
    | none => exact ⟨_, rfl⟩
    | some p =>
      simp only
      rw [if_pos (by rw [hp] at hun; simpa using hun)]
      exact ⟨_, rfl⟩
  have key : ∀ (s3 : St ℚ) (k : Fit ℚ → M ℚ Unit), s3.conds = s.conds → (∀ fit s4, (k fit s4).1 = .error .attributeError) →
      ((newFitness (hyperbolaTask c.obj1 c.obj2 c.inputTruthy c.penalty none c.arith) >>= k) s3).1 = .error .attributeError := by
    intro s3 k e hk
    obtain ⟨fit, h3⟩ := hf s3 e
    rw [bind_of_ok h3]
    exact hk fit s3
  refine key _ _ (by simpa using hc2) ?_
  intro fit s4
  rw [hx]
  rfl

end BaumEva
