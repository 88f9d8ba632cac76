import Verif.Proofs.Fill
import Verif.Proofs.Safe
import Verif.Model.Fitness
/-!
# Lemmas about fitness evaluation
-/
namespace BaumEva
variable {σ : Type}

/-! ## one individual -/

theorem callObj_ok {f : List Val → Except PyErr Ret} {g : List Val} {s s' : St σ} {v : Ret} :
    callObj f g s = (.ok v, s') ↔ f g = .ok v ∧ s' = { s with calls := s.calls ++ [g] } := by
  unfold callObj
  rw [bind_of_ok (modifyS_run _ s), liftE_ok]

theorem markFeas_run (r : Nat) (c : Cond) (v : ℚ) (s : St σ) :
    markFeas r c v s = (.ok (), { s with heap := upd s.heap r { s.heap r with
      feasible := (s.heap r).feasible && condHolds c v } }) := by
  unfold markFeas
  rw [ite_run]
  split
  · rename_i h
    rw [pure_run, h, Bool.and_true]
    have : upd s.heap r (s.heap r) = s.heap := by
      funext x
      by_cases e : x = r
      · subst e; simp [upd]
      · simp [upd, e]
    show (Except.ok (), s) = (Except.ok (), { s with heap := upd s.heap r (s.heap r) })
    rw [this]
  · rename_i h
    rw [modInd_run]
    simp only [Bool.not_eq_true] at h
    rw [h, Bool.and_false]

theorem feasLoop_ok {r : Nat} : ∀ {cs : List Cond} {vs : List ℚ} {s s' : St σ} {u : Unit},
    feasLoop r cs vs s = (.ok u, s') → vs.length ≤ cs.length ∧
      s' = { s with heap := upd s.heap r { s.heap r with
        feasible := (s.heap r).feasible && (cs.zip vs).all (fun p => condHolds p.1 p.2) } } := by
  intro cs
  induction cs with
  | nil =>
    intro vs s s' u h
    cases vs with
    | nil =>
      rw [feasLoop] at h
      obtain ⟨_, rfl⟩ := pure_ok.mp h
      refine ⟨by simp, ?_⟩
      have : upd s'.heap r (s'.heap r) = s'.heap := by
        funext x
        by_cases e : x = r
        · subst e; simp [upd]
        · simp [upd, e]
      simp [this]
    | cons v vs => rw [feasLoop, throwE_ok] at h; exact h.elim
  | cons c cs ih =>
    intro vs s s' u h
    cases vs with
    | nil =>
      rw [feasLoop] at h
      obtain ⟨_, rfl⟩ := pure_ok.mp h
      refine ⟨by simp, ?_⟩
      have : upd s'.heap r (s'.heap r) = s'.heap := by
        funext x
        by_cases e : x = r
        · subst e; simp [upd]
        · simp [upd, e]
      simp [this]
    | cons v vs =>
      rw [feasLoop, bind_of_ok (markFeas_run r c v s)] at h
      obtain ⟨hl, rfl⟩ := ih h
      refine ⟨by simpa using hl, ?_⟩
      have hu : ∀ (h : Nat → Ind σ) (a b : Ind σ), upd (upd h r a) r b = upd h r b := by
        intro h a b; funext x; by_cases e : x = r <;> simp [upd, e]
      simp only [upd_same, hu, List.zip_cons_cons, List.all_cons, Bool.and_assoc]

/-- Individual `a` with argument `g` is evaluated to `b` in generation `gen` with best solution `best`. -/
def EvalTo (fit : Fit σ) (gen : Nat) (best : BestArg) (g : List Val) (a b : Ind σ) : Prop :=
  ∃ ret vals os feas pen sc,
    (if fit.task.inputTruthy then fit.task.obj2 else fit.task.obj1) g = .ok ret ∧
    checkInput fit.task.multi fit.isCond fit.conditions ret = .ok vals ∧
    b = { a with objScore := os, feasible := feas, score := some sc } ∧
    fit.task.score { a with objScore := os, feasible := feas } pen = .ok sc ∧
    ((fit.isCond = false ∧ os = vals ∧ feas = a.feasible ∧ pen = 0) ∨
     (fit.isCond = true ∧ ∃ vs pr p, vals = some (.tup vs) ∧ popAll fit.idxOpt vs = .ok pr ∧
        os = some (if fit.task.multi then .tup pr.1 else .sc (pr.1.headD 0)) ∧ pr.2.length ≤ fit.conditions.length ∧
        feas = (a.feasible && (fit.conditions.zip pr.2).all (fun p => condHolds p.1 p.2)) ∧
        fit.task.penalty = some p ∧ p.value fit.task.arith fit.conditions pr.2 gen best = .ok pen))

/-- `best` is what the penalty is told about `best_solution` while the individuals `l` are evaluated, unless
`best_solution` is itself one of them. -/
def BestIs (s : St σ) (l : List Nat) (best : BestArg) : Prop :=
  (∀ r g, s.ga.best = some (.single r g) → r ∉ l) → best = bestArg s

theorem bestArg_congr {s s' : St σ} (hga : s'.ga.best = s.ga.best)
    (hh : ∀ r g, s.ga.best = some (.single r g) → (s'.heap r).feasible = (s.heap r).feasible) : bestArg s' = bestArg s := by
  unfold bestArg
  rw [hga]
  cases hb : s.ga.best with
  | none => rfl
  | some b =>
    cases b with
    | single r g => simp only [hh r g hb]
    | pareto _ _ => rfl

theorem evalValues_ok {fit : Fit σ} {r : Nat} {vals : Option Ret} {s s' : St σ} {pen : ℚ}
    (h : evalValues fit r vals s = (.ok pen, s')) :
    ∃ os feas ba, BestIs s [r] ba ∧ s' = { s with heap := upd s.heap r { s.heap r with objScore := os, feasible := feas } } ∧
    ((fit.isCond = false ∧ os = vals ∧ feas = (s.heap r).feasible ∧ pen = 0) ∨
     (fit.isCond = true ∧ ∃ vs pr p, vals = some (.tup vs) ∧ popAll fit.idxOpt vs = .ok pr ∧
        os = some (if fit.task.multi then .tup pr.1 else .sc (pr.1.headD 0)) ∧ pr.2.length ≤ fit.conditions.length ∧
        feas = ((s.heap r).feasible && (fit.conditions.zip pr.2).all (fun p => condHolds p.1 p.2)) ∧
        fit.task.penalty = some p ∧ p.value fit.task.arith fit.conditions pr.2 s.ga.idxGeneration ba = .ok pen)) := by
  unfold evalValues at h
  rw [ite_run] at h
  split at h
  · rename_i hc
    rcases vals with _ | (v | vs)
    · simp only [throwE_ok] at h
    · simp only [throwE_ok] at h
    · unfold evalCond at h
      obtain ⟨pr, s1, h1, h2⟩ := bind_ok.mp h
      obtain ⟨e1, rfl⟩ := liftE_ok.mp h1
      rw [bind_of_ok (modInd_run _ _ _)] at h2
      obtain ⟨_, s2, h3, h4⟩ := bind_ok.mp h2
      obtain ⟨hl, rfl⟩ := feasLoop_ok h3
      rw [bind_of_ok (getS_run _)] at h4
      cases hp : fit.task.penalty with
      | none => simp only [hp, throwE_ok] at h4
      | some p =>
        simp only [hp] at h4
        obtain ⟨e2, rfl⟩ := liftE_ok.mp h4
        have hu : ∀ (h : Nat → Ind σ) (a b : Ind σ), upd (upd h r a) r b = upd h r b := by
          intro h a b; funext x; by_cases e : x = r <;> simp [upd, e]
        refine ⟨_, _, _, ?_, ?_, Or.inr ⟨hc, vs, pr, p, rfl, e1, rfl, hl, rfl, rfl, e2⟩⟩
        · intro hap
          refine bestArg_congr rfl ?_
          intro b g hb
          have : b ≠ r := by simpa using hap b g hb
          simp only [upd_ne this]
        · simp only [upd_same, hu]
  · rename_i hc
    rw [bind_of_ok (modInd_run _ _ _)] at h
    obtain ⟨rfl, rfl⟩ := pure_ok.mp h
    refine ⟨vals, (s.heap r).feasible, bestArg s, fun _ => rfl, rfl, Or.inl ⟨by simpa using hc, rfl, rfl, rfl⟩⟩

theorem evalInd_ok {fit : Fit σ} {r : Nat} {s s' : St σ} {u : Unit} (h : evalInd fit r s = (.ok u, s')) :
    ((s.heap r).score.isSome ∧ s' = s) ∨
    ((s.heap r).score = none ∧ ∃ g b ba, (s.heap r).genotype = some g ∧ BestIs s [r] ba ∧
      EvalTo fit s.ga.idxGeneration ba g (s.heap r) b ∧
      s' = { s with heap := upd s.heap r b, calls := s.calls ++ [g] }) := by
  unfold evalInd at h
  rw [bind_of_ok (getInd_run r s)] at h
  cases hsc : (s.heap r).score with
  | some v =>
    rw [hsc] at h
    obtain ⟨_, rfl⟩ := pure_ok.mp h
    exact Or.inl ⟨rfl, rfl⟩
  | none =>
    right
    rw [hsc] at h
    simp only at h
    obtain ⟨g, s1, h1, h2⟩ := bind_ok.mp h
    obtain ⟨hg, rfl⟩ := genoOf_ok.mp h1
    obtain ⟨vals, s2, h3, h4⟩ := bind_ok.mp h2
    unfold calcObj at h3
    obtain ⟨ret, s3, h5, h6⟩ := bind_ok.mp h3
    obtain ⟨e1, rfl⟩ := callObj_ok.mp h5
    obtain ⟨e2, rfl⟩ := liftE_ok.mp h6
    obtain ⟨pen, s4, h7, h8⟩ := bind_ok.mp h4
    obtain ⟨os, feas, ba, hba, rfl, hcase⟩ := evalValues_ok h7
    rw [bind_of_ok (getInd_run r _)] at h8
    obtain ⟨sc, s5, h9, h10⟩ := bind_ok.mp h8
    obtain ⟨e3, rfl⟩ := liftE_ok.mp h9
    rw [modInd_ok] at h10
    subst h10
    simp only [upd_same] at e3
    have hu : ∀ (h : Nat → Ind σ) (a b : Ind σ), upd (upd h r a) r b = upd h r b := by
      intro h a b; funext x; by_cases e : x = r <;> simp [upd, e]
    refine ⟨rfl, g, { s1.heap r with objScore := os, feasible := feas, score := some sc }, ba, hg, hba, ?_, ?_⟩
    · exact ⟨ret, vals, os, feas, pen, sc, e1, e2, rfl, e3, hcase⟩
    · simp only [upd_same, hu]

theorem EvalTo.scored {fit : Fit σ} {gen : Nat} {best : BestArg} {g : List Val} {a b : Ind σ}
    (h : EvalTo fit gen best g a b) : b.score.isSome ∧ b.genotype = a.genotype ∧ b.phenotype = a.phenotype ∧
      b.idx = a.idx ∧ b.rank = a.rank := by
  obtain ⟨_, _, _, _, _, _, _, _, rfl, _⟩ := h
  exact ⟨rfl, rfl, rfl, rfl, rfl⟩

/-! ## the loop over the population -/

/-- Individuals of a list that have no score yet. -/
def unscored (h : Nat → Ind σ) (l : List Nat) : List Nat := l.filter fun r => (h r).score.isNone

/-- `s'` is `s` with heap and call trace changed. -/
def HeapCalls (s s' : St σ) : Prop := s' = { s with heap := s'.heap, calls := s'.calls }

theorem evalLoop_ok {fit : Fit σ} : ∀ {l : List Nat} {s s' : St σ} {u : Unit},
    forEach l (evalInd fit) s = (.ok u, s') → (unscored s.heap l).Nodup →
    HeapCalls s s' ∧
    (∃ gs, List.Forall₂ (fun r g => (s.heap r).genotype = some g) (unscored s.heap l) gs ∧ s'.calls = s.calls ++ gs) ∧
    (∀ r, r ∉ unscored s.heap l → s'.heap r = s.heap r) ∧
    (∀ r ∈ unscored s.heap l, ∃ g ba, (s.heap r).genotype = some g ∧ BestIs s l ba ∧
      EvalTo fit s.ga.idxGeneration ba g (s.heap r) (s'.heap r)) := by
  intro l
  induction l with
  | nil =>
    intro s s' u h _
    rw [forEach_nil] at h
    simp at h; subst h
    exact ⟨rfl, ⟨[], .nil, by simp⟩, fun _ _ => rfl, by simp [unscored]⟩
  | cons x xs ih =>
    intro s s' u h hnd
    obtain ⟨s1, h1, h2⟩ := forEach_cons_ok.mp h
    rcases evalInd_ok h1 with ⟨hs, rfl⟩ | ⟨hs, g, b, ba, hg, hba, hev, rfl⟩
    · have e : unscored s1.heap (x :: xs) = unscored s1.heap xs := by
        unfold unscored
        rw [List.filter_cons_of_neg]
        cases hx : (s1.heap x).score <;> simp_all
      rw [e] at hnd ⊢
      obtain ⟨a1, a2, a3, a4⟩ := ih h2 hnd
      refine ⟨a1, a2, a3, fun r hr => ?_⟩
      obtain ⟨g, ba, b1, b2, b3⟩ := a4 r hr
      exact ⟨g, ba, b1, fun hap => b2 fun r g hb hr => hap r g hb (List.mem_cons_of_mem _ hr), b3⟩
    · have e : unscored s.heap (x :: xs) = x :: unscored s.heap xs := by
        unfold unscored
        rw [List.filter_cons_of_pos]
        simp [hs]
      rw [e] at hnd ⊢
      obtain ⟨hx, hnd⟩ := List.nodup_cons.mp hnd
      have hbs := hev.scored.1
      have e1 : unscored (upd s.heap x b) xs = unscored s.heap xs := by
        unfold unscored at hx ⊢
        apply List.filter_congr
        intro y hy
        by_cases hxy : y = x
        · subst hxy
          exfalso
          apply hx
          rw [List.mem_filter]
          exact ⟨hy, by simp [hs]⟩
        · rw [upd_ne hxy]
      obtain ⟨a1, ⟨gs, a2, a3⟩, a4, a5⟩ := ih h2 (by simp only; rw [e1]; exact hnd)
      simp only at a2 a3 a4 a5
      rw [e1] at a2 a4 a5
      have hne : ∀ r ∈ unscored s.heap xs, r ≠ x := fun r hr e => hx (e ▸ hr)
      refine ⟨?_, ⟨g :: gs, ?_, ?_⟩, ?_, ?_⟩
      · unfold HeapCalls at a1 ⊢
        rw [a1]
      · refine .cons hg ?_
        rw [List.forall₂_iff_get] at a2 ⊢
        refine ⟨a2.1, fun i h1 h2 => ?_⟩
        have := a2.2 i h1 h2
        rw [upd_ne (hne _ (List.get_mem _ _))] at this
        exact this
      · rw [a3]; simp
      · intro r hr
        rw [List.mem_cons, not_or] at hr
        rw [a4 r hr.2, upd_ne hr.1]
      · intro r hr
        rcases List.mem_cons.mp hr with rfl | hr
        · refine ⟨g, ba, hg, fun hap => hba fun r g hb hr => hap r g hb (by simp at hr; simp [hr]), ?_⟩
          rw [a4 r hx, upd_same]
          exact hev
        · obtain ⟨g', ba', e2, e4, e3⟩ := a5 r hr
          rw [upd_ne (hne r hr)] at e2 e3
          refine ⟨g', ba', e2, fun hap => ?_, e3⟩
          rw [e4 fun r g hb hr => hap r g hb (List.mem_cons_of_mem _ hr)]
          refine bestArg_congr rfl fun r0 g0 hb => ?_
          have : r0 ≠ x := fun e => hap r0 g0 hb (by simp [e])
          simp only [upd_ne this]

/-! ## swapping -/

/-- Exchange genotype and phenotype. -/
def swapInd (a : Ind σ) : Ind σ := { a with genotype := a.phenotype, phenotype := a.genotype }

@[simp] theorem swapInd_swapInd (a : Ind σ) : swapInd (swapInd a) = a := rfl

theorem swapLoop_run : ∀ (l : List Nat) (s : St σ), ∃ s',
    forEach l (fun r => modInd r fun ind => { ind with genotype := ind.phenotype, phenotype := ind.genotype }) s = (.ok (), s') ∧
    s' = { s with heap := s'.heap } ∧ ∀ r, s'.heap r = swapInd^[l.count r] (s.heap r) := by
  intro l
  induction l with
  | nil => intro s; exact ⟨s, rfl, rfl, fun _ => rfl⟩
  | cons x xs ih =>
    intro s
    obtain ⟨s', e, h1, h2⟩ := ih { s with heap := upd s.heap x (swapInd (s.heap x)) }
    refine ⟨s', ?_, ?_, ?_⟩
    · rw [forEach]; exact (bind_of_ok (modInd_run _ _ _)).trans e
    · rw [h1]
    · intro r
      rw [h2 r]
      simp only
      by_cases hr : r = x
      · subst hr
        rw [upd_same, List.count_cons_self, Function.iterate_succ_apply]
      · rw [upd_ne hr, List.count_cons_of_ne (Ne.symm hr)]

theorem swapPop_run (s : St σ) : ∃ s', swapPop s = (.ok (), s') ∧ s' = { s with heap := s'.heap } ∧
    ∀ r, s'.heap r = swapInd^[s.ga.population.count r] (s.heap r) := by
  obtain ⟨s', e, h1, h2⟩ := swapLoop_run s.ga.population s
  refine ⟨s', ?_, h1, h2⟩
  unfold swapPop
  rw [bind_of_ok (getGa_run s)]
  exact e

theorem swap_iter (n : Nat) (a : Ind σ) : swapInd^[n] (swapInd^[n] a) = a := by
  rw [← Function.iterate_add_apply]
  have : ∀ m, swapInd^[m + m] a = a := by
    intro m
    induction m generalizing a with
    | zero => rfl
    | succ m ih =>
      rw [show m + 1 + (m + 1) = (m + m) + 1 + 1 by omega, Function.iterate_succ_apply, Function.iterate_succ_apply,
        swapInd_swapInd]
      exact ih a
  exact this n

theorem swap_iter_fields (n : Nat) (a : Ind σ) : (swapInd^[n] a).score = a.score ∧ (swapInd^[n] a).objScore = a.objScore ∧
    (swapInd^[n] a).rank = a.rank ∧ (swapInd^[n] a).feasible = a.feasible ∧ (swapInd^[n] a).idx = a.idx := by
  induction n generalizing a with
  | zero => exact ⟨rfl, rfl, rfl, rfl, rfl⟩
  | succ n ih => rw [Function.iterate_succ_apply]; exact ih (swapInd a)

/-! ## the whole execution -/

/-- What the objective is called with: the phenotype for binary populations, the genotype otherwise. -/
def seen (ga : GaData σ) (a : Ind σ) : Option (List Val) := if ga.attrs.isPhenotype then a.phenotype else a.genotype

/-- `EvalTo` for the representation used during evaluation (swapped for binary populations). -/
def Evaluated (fit : Fit σ) (ga : GaData σ) (best : BestArg) (a b : Ind σ) : Prop :=
  ∃ g, seen ga a = some g ∧
    if ga.attrs.isPhenotype then EvalTo fit ga.idxGeneration best g (swapInd a) (swapInd b)
    else EvalTo fit ga.idxGeneration best g a b

theorem Evaluated.keeps {fit : Fit σ} {ga : GaData σ} {best : BestArg} {a b : Ind σ} (h : Evaluated fit ga best a b) :
    b.score.isSome ∧ b.genotype = a.genotype ∧ b.phenotype = a.phenotype ∧ b.idx = a.idx ∧ b.rank = a.rank := by
  obtain ⟨g, _, h⟩ := h
  split at h
  · obtain ⟨h1, h2, h3, h4, h5⟩ := h.scored
    exact ⟨h1, h3, h2, h4, h5⟩
  · exact h.scored

/-- After `get_phenotype` (if the population has phenotypes). -/
def Decoded (ga : GaData σ) (a b : Ind σ) : Prop := if ga.attrs.isPhenotype then Phenotyped ga.attrs a b else b = a

theorem Phenotyped.keeps {at_ : Attrs} {a b : Ind σ} (h : Phenotyped at_ a b) :
    b = { a with phenotype := b.phenotype } := by
  rcases h with ⟨_, rfl⟩ | ⟨_, _, p, _, _, rfl⟩ <;> rfl

theorem Decoded.keeps {ga : GaData σ} {a b : Ind σ} (h : Decoded ga a b) : b = { a with phenotype := b.phenotype } := by
  unfold Decoded at h
  split at h
  · exact h.keeps
  · rw [h]

/-- Complete description of `BaseFitness.execute`: individuals without score are decoded and evaluated, one call
each in population order; members with score are only decoded; nothing else changes. -/
theorem baseFitness_ok {fit : Fit σ} {s s' : St σ} {u : Unit} (h : baseFitnessExec fit s = (.ok u, s'))
    (hnd : (unscored s.heap s.ga.population).Nodup) :
    HeapCalls s s' ∧
    (∃ gs, s'.calls = s.calls ++ gs ∧
      List.Forall₂ (fun r g => ∃ m, Decoded s.ga (s.heap r) m ∧ seen s.ga m = some g) (unscored s.heap s.ga.population) gs) ∧
    (∀ r, r ∉ s.ga.population → s'.heap r = s.heap r) ∧
    (∀ r ∈ s.ga.population, (s.heap r).score.isSome → Decoded s.ga (s.heap r) (s'.heap r)) ∧
    (∀ r ∈ unscored s.heap s.ga.population, ∃ m best, Decoded s.ga (s.heap r) m ∧
      BestIs s s.ga.population best ∧ Evaluated fit s.ga best m (s'.heap r)) := by
  have honce : ∀ r ∈ unscored s.heap s.ga.population, s.ga.population.count r = 1 := by
    intro r hr
    have h1 := List.count_eq_one_of_mem hnd hr
    unfold unscored at h1
    rwa [List.count_filter (l := s.ga.population) (p := fun r => (s.heap r).score.isNone)
      (List.mem_filter.mp hr).2] at h1
  unfold baseFitnessExec at h
  rw [bind_of_ok (getGa_run s), ite_run] at h
  by_cases hph : s.ga.attrs.isPhenotype = true
  · rw [if_pos hph] at h
    obtain ⟨_, s1, h1, h2⟩ := bind_ok.mp h
    obtain ⟨⟨hp1, rfl⟩, p2, p3⟩ := getPhenotype_ok h1
    simp only at p2 p3
    obtain ⟨s2, e2, f2, g2⟩ := swapPop_run { s with heap := hp1 }
    rw [bind_of_ok e2] at h2
    obtain ⟨_, s3, h3, h4⟩ := bind_ok.mp h2
    simp only at g2
    have hga2 : s2.ga = s.ga := by rw [f2]
    have hcalls2 : s2.calls = s.calls := by rw [f2]
    have hsc1 : ∀ r, (hp1 r).score = (s.heap r).score := by
      intro r
      by_cases hr : r ∈ s.ga.population
      · rw [(p2 r hr).keeps]
      · rw [p3 r hr]
    have hfe1 : ∀ r, (hp1 r).feasible = (s.heap r).feasible := by
      intro r
      by_cases hr : r ∈ s.ga.population
      · rw [(p2 r hr).keeps]
      · rw [p3 r hr]
    have hus : unscored s2.heap s.ga.population = unscored s.heap s.ga.population := by
      unfold unscored
      apply List.filter_congr
      intro r _
      rw [g2 r, (swap_iter_fields _ _).1, hsc1]
    obtain ⟨a1, ⟨gs, a2, a3⟩, a4, a5⟩ := evalLoop_ok h3 (by rw [hus]; exact hnd)
    rw [hus] at a2 a4 a5
    rw [hga2] at a5
    have hga3 : s3.ga = s.ga := by rw [a1, hga2]
    obtain ⟨s4, e4, f4, g4⟩ := swapPop_run s3
    rw [h4] at e4
    have hs4 : s' = s4 := (Prod.mk.inj e4).2
    subst hs4
    rw [hga3] at g4
    have hmem : ∀ r ∈ unscored s.heap s.ga.population, r ∈ s.ga.population := fun r hr => (List.mem_filter.mp hr).1
    have h2u : ∀ r ∈ unscored s.heap s.ga.population, s2.heap r = swapInd (hp1 r) := by
      intro r hr
      rw [g2 r, honce r hr]; rfl
    refine ⟨?_, ⟨gs, ?_, ?_⟩, ?_, ?_, ?_⟩
    · unfold HeapCalls at a1 ⊢
      rw [f4, a1, f2]
    · rw [f4]; simp only; rw [a3, hcalls2]
    · rw [List.forall₂_iff_get] at a2 ⊢
      refine ⟨a2.1, fun i i1 i2 => ?_⟩
      have hm := List.get_mem (unscored s.heap s.ga.population) ⟨i, i1⟩
      have := a2.2 i i1 i2
      rw [h2u _ hm] at this
      refine ⟨hp1 ((unscored s.heap s.ga.population).get ⟨i, i1⟩), ?_, ?_⟩
      · unfold Decoded; rw [if_pos hph]; exact p2 _ (hmem _ hm)
      · unfold seen; rw [if_pos hph]; exact this
    · intro r hr
      have hu : r ∉ unscored s.heap s.ga.population := fun h => hr (hmem r h)
      rw [g4, a4 r hu, g2, List.count_eq_zero_of_not_mem hr]
      simp only [Function.iterate_zero, id_eq]
      exact p3 r hr
    · intro r hr hs
      have hu : r ∉ unscored s.heap s.ga.population := by
        intro h
        have := (List.mem_filter.mp h).2
        rw [Option.isNone_iff_eq_none] at this
        rw [this] at hs; exact absurd hs (by simp)
      rw [g4, a4 r hu, g2, swap_iter]
      unfold Decoded; rw [if_pos hph]; exact p2 r hr
    · intro r hr
      obtain ⟨g, ba, e1, e3, e2⟩ := a5 r hr
      refine ⟨hp1 r, ba, ?_, ?_, g, ?_, ?_⟩
      rotate_left
      · intro hap
        rw [e3 (by rw [hga2]; exact hap)]
        refine bestArg_congr (by rw [hga2]) fun r0 g0 _ => ?_
        rw [g2, (swap_iter_fields _ _).2.2.2.1, hfe1]
      rotate_right
      · unfold Decoded; rw [if_pos hph]; exact p2 r (hmem r hr)
      · rw [h2u r hr] at e1
        unfold seen; rw [if_pos hph]; exact e1
      · rw [if_pos hph]
        rw [h2u r hr] at e2
        rw [g4, honce r hr]
        exact e2
  · rw [if_neg hph] at h
    have hs : ∀ a b : Ind σ, Decoded s.ga a b ↔ b = a := by
      intro a b; unfold Decoded; rw [if_neg hph]
    obtain ⟨a1, ⟨gs, a2, a3⟩, a4, a5⟩ := evalLoop_ok h hnd
    refine ⟨a1, ⟨gs, a3, ?_⟩, ?_, ?_, ?_⟩
    · refine a2.imp ?_
      intro r g e
      refine ⟨_, (hs _ _).mpr rfl, ?_⟩
      unfold seen; rw [if_neg hph]; exact e
    · intro r hr
      exact a4 r (fun h => hr (List.mem_filter.mp h).1)
    · intro r hr hsome
      rw [hs]
      refine a4 r ?_
      intro h
      have := (List.mem_filter.mp h).2
      cases hx : (s.heap r).score <;> simp_all
    · intro r hr
      obtain ⟨g, ba, e1, e3, e2⟩ := a5 r hr
      refine ⟨_, ba, (hs _ _).mpr rfl, e3, g, ?_, ?_⟩
      · unfold seen; rw [if_neg hph]; exact e1
      · rw [if_neg hph]; exact e2

end BaumEva
