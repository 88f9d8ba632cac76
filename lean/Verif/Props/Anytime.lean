import Verif.Props.Invariance
import Verif.Props.Ledger
/-!
# C78: a longer run extends a shorter one
-/
namespace BaumEva
open Spec

section
variable {σ : Type}

/-- The same call with at least as many generations and at least as much patience. -/
structure Cfg.Longer (c c' : Cfg) : Prop where
  same : ∃ n e, c' = { c with numGenerations := n, earlyStop := e }
  gens : c.numGenerations ≤ c'.numGenerations
  stop : c.stop ≤ c'.stop

/-- The second outcome continues the first one. -/
structure Extends (o o' : Outcome σ) : Prop where
  generations : o.generations <+: o'.generations
  calls : o.calls <+: o'.calls
  histBest : o.histBest <+: o'.histBest
  histMed : o.histMed <+: o'.histMed
  histWorst : o.histWorst <+: o'.histWorst
  idxGeneration : o.idxGeneration ≤ o'.idxGeneration

/-! ## Records only grow -/

/-- Records of the run are only added to. -/
structure Grows (a b : St σ) : Prop where
  snaps : a.snaps <+: b.snaps
  calls : a.calls <+: b.calls
  histBest : a.ga.histBest <+: b.ga.histBest
  histMed : a.ga.histMed <+: b.ga.histMed
  histWorst : a.ga.histWorst <+: b.ga.histWorst
  histFronts : a.ga.histFronts <+: b.ga.histFronts
  idxGeneration : a.ga.idxGeneration ≤ b.ga.idxGeneration

theorem Grows.refl (s : St σ) : Grows s s :=
  ⟨List.prefix_rfl, List.prefix_rfl, List.prefix_rfl, List.prefix_rfl, List.prefix_rfl, List.prefix_rfl, le_rfl⟩

theorem Grows.trans {a b c : St σ} (h1 : Grows a b) (h2 : Grows b c) : Grows a c :=
  ⟨h1.1.trans h2.1, h1.2.trans h2.2, h1.3.trans h2.3, h1.4.trans h2.4, h1.5.trans h2.5, h1.6.trans h2.6, h1.7.trans h2.7⟩

theorem grows_steady : Steady (Grows (σ := σ)) where
  step := ⟨Grows.refl, Grows.trans⟩
  tape := fun s _ _ _ => Grows.refl s |> fun h => ⟨h.1, h.2, h.3, h.4, h.5, h.6, h.7⟩
  seeded := fun s _ _ => Grows.refl s |> fun h => ⟨h.1, h.2, h.3, h.4, h.5, h.6, h.7⟩
  heap := fun s _ _ => Grows.refl s |> fun h => ⟨h.1, h.2, h.3, h.4, h.5, h.6, h.7⟩
  ga := fun s g h => by
    refine ⟨List.prefix_rfl, List.prefix_rfl, ?_, ?_, ?_, ?_, ?_⟩
    · exact h.histBest ▸ List.prefix_rfl
    · exact h.histMed ▸ List.prefix_rfl
    · exact h.histWorst ▸ List.prefix_rfl
    · exact h.histFronts ▸ List.prefix_rfl
    · exact h.idxGeneration.ge
  mutLvl := fun s _ => Grows.refl s |> fun h => ⟨h.1, h.2, h.3, h.4, h.5, h.6, h.7⟩
  calls := fun s _ => ⟨List.prefix_rfl, List.prefix_append _ _, List.prefix_rfl, List.prefix_rfl, List.prefix_rfl, List.prefix_rfl, le_rfl⟩

theorem snapshot_grows : Keeps Grows (snapshot : M σ Unit) := fun _ =>
  ⟨List.prefix_append _ _, List.prefix_rfl, List.prefix_rfl, List.prefix_rfl, List.prefix_rfl, List.prefix_rfl, le_rfl⟩

theorem gaUpdate_grows [LinearOrder σ] : Keeps Grows (gaUpdate : M σ Unit) := by
  have hR := (grows_steady (σ := σ)).toStill
  have hmod : ∀ f : GaData σ → GaData σ, (∀ g, (f g).histBest = g.histBest ∧ (f g).histMed = g.histMed ∧
      (f g).histWorst = g.histWorst ∧ (f g).histFronts = g.histFronts ∧ g.idxGeneration ≤ (f g).idxGeneration) → Keeps Grows (modGa f) := by
    intro f h s
    obtain ⟨h1, h2, h3, h4, h5⟩ := h s.ga
    exact ⟨List.prefix_rfl, List.prefix_rfl, h1.symm ▸ List.prefix_rfl, h2.symm ▸ List.prefix_rfl, h3.symm ▸ List.prefix_rfl,
      h4.symm ▸ List.prefix_rfl, h5⟩
  have hrec : Keeps Grows (recordScores : M σ Unit) := by
    unfold recordScores
    refine hR.bind hR.getGa fun ga => ?_
    split
    · refine hR.bind (hR.calm.scoreOf _) fun b => hR.bind (hR.calm.scoreOf _) fun m => hR.bind (hR.calm.scoreOf _) fun w => fun s => ?_
      exact ⟨List.prefix_rfl, List.prefix_rfl, List.prefix_append _ _, List.prefix_append _ _, List.prefix_append _ _, List.prefix_rfl, le_rfl⟩
    · exact hR.throwE _
  have hrep : ∀ r, Keeps Grows (replaceBest r : M σ Unit) := fun r =>
    hR.bind (hR.getInd r) fun _ => hR.bind (hR.alloc _) fun _ => hmod _ fun g => ⟨rfl, rfl, rfl, rfl, le_rfl⟩
  have hdec : ∀ r, Keeps Grows (decideBest r : M σ Unit) := by
    intro r
    unfold decideBest
    refine hR.bind hR.getGa fun ga => ?_
    split
    · exact hrep r
    · refine hR.bind (hR.calm.scoreOf _) fun b => hR.bind (hR.calm.scoreOf _) fun m => Keeps.ite (hR.bind (hrep r) fun _ => ?_) ?_
      · exact hmod _ fun g => ⟨rfl, rfl, rfl, rfl, le_rfl⟩
      · exact hmod _ fun g => ⟨rfl, rfl, rfl, rfl, le_rfl⟩
    · exact hR.throwE _
  unfold gaUpdate
  refine hR.bind (ensureSorted_frame hR.moving) fun _ => hR.bind hrec fun _ => hR.bind hR.getGa fun ga => ?_
  split
  · exact hR.throwE _
  · exact hR.bind (hdec _) fun _ => hR.bind (hmod _ fun g => ⟨rfl, rfl, rfl, rfl, Nat.le_succ _⟩) fun _ => snapshot_grows

theorem multiUpdate_grows [DecidableEq σ] : Keeps Grows (multiUpdate : M σ Unit) := by
  have hR := (grows_steady (σ := σ)).toStill
  have hmod : ∀ f : GaData σ → GaData σ, (∀ g, (f g).histBest = g.histBest ∧ (f g).histMed = g.histMed ∧
      (f g).histWorst = g.histWorst ∧ g.histFronts <+: (f g).histFronts ∧ g.idxGeneration ≤ (f g).idxGeneration) → Keeps Grows (modGa f) := by
    intro f h s
    obtain ⟨h1, h2, h3, h4, h5⟩ := h s.ga
    exact ⟨List.prefix_rfl, List.prefix_rfl, h1.symm ▸ List.prefix_rfl, h2.symm ▸ List.prefix_rfl, h3.symm ▸ List.prefix_rfl,
      h4, h5⟩
  have hini : Keeps Grows (initFront : M σ Unit) := by
    unfold initFront
    refine hR.bind hR.getGa fun ga => ?_
    split
    · exact hmod _ fun g => ⟨rfl, rfl, rfl, List.prefix_rfl, le_rfl⟩
    · exact hR.pure _
  have hdec : ∀ l, Keeps Grows (decideFront l : M σ Unit) := by
    intro l
    unfold decideFront
    refine hR.bind hR.getS fun s => ?_
    split
    · refine Keeps.ite (hmod _ fun g => ⟨rfl, rfl, rfl, List.prefix_rfl, le_rfl⟩) ?_
      exact hR.bind (copyAll_frame hR.calm _) fun _ => hmod _ fun g => ⟨rfl, rfl, rfl, List.prefix_rfl, le_rfl⟩
    · exact hR.throwE _
  unfold multiUpdate
  exact hR.bind (ensureRankSorted_frame hR.moving) fun _ => hR.bind hR.getGa fun ga => hR.bind (hR.calm.frontPrefix _) fun l =>
    hR.bind (hmod _ fun g => ⟨rfl, rfl, rfl, List.prefix_append _ _, le_rfl⟩) fun _ => hR.bind hini fun _ =>
    hR.bind (hdec l) fun _ => hR.bind (hmod _ fun g => ⟨rfl, rfl, rfl, List.prefix_rfl, Nat.le_succ _⟩) fun _ => snapshot_grows

theorem generation_keeps {R : St σ → St σ → Prop} (hR : Step R) {ops : Ops σ} (h : OpsKeep R ops) : Keeps R (generation ops) :=
  Keeps.bind hR h.selection fun _ => Keeps.bind hR h.crossover fun _ => Keeps.bind hR h.mutation fun _ =>
    Keeps.bind hR h.newGen fun _ => Keeps.bind hR h.fitness fun _ => h.update

theorem mainLoop_keeps {R : St σ → St σ → Prop} (hR : Step R) {ops : Ops σ} (h : OpsKeep R ops) : ∀ n, Keeps R (mainLoop ops n)
  | 0 => Keeps.pure hR _
  | n + 1 => by
    rw [mainLoop]
    refine Keeps.bind hR (generation_keeps hR h) fun _ => Keeps.bind hR (Keeps.getGa hR) fun ga => ?_
    split
    · exact Keeps.throwE hR _
    · exact Keeps.ite (Keeps.pure hR _) (mainLoop_keeps hR h n)

/-! ## The same run with other limits -/

/-- Everything stays, except for the number of generations and the stop limit. -/
def Ren.limits (spec : PopSpec) (ar : Arith) (n : Nat) (e : Int) : Ren σ :=
  { source := spec, target := spec, arith := ar, rounds := fun _ => n, stop := fun _ => some e }

section
variable (spec : PopSpec) (ar : Arith) (n : Nat) (e : Int)

theorem Ren.limits_ind (x : Ind σ) : (Ren.limits (σ := σ) spec ar n e).ind x = x := by
  have hg : (Ren.limits (σ := σ) spec ar n e).geno = id := by funext g; exact List.map_id _
  unfold Ren.ind
  rw [hg]
  cases x
  simp [Ren.limits]

theorem Ren.limits_st {s : St σ} (hs : s.ga.attrs.tag = (spec, ar)) :
    (Ren.limits (σ := σ) spec ar n e).st s = { s with ga := { s.ga with numGenerations := n, earlyStop := some e } } := by
  have hg : (Ren.limits (σ := σ) spec ar n e).geno = id := by funext g; exact List.map_id _
  have hp : (Ren.limits (σ := σ) spec ar n e).par = id := by funext p; simp [Ren.par, Ren.limits]
  have hi : (Ren.limits (σ := σ) spec ar n e).ind = id := by funext x; exact Ren.limits_ind spec ar n e x
  have ha : (Ren.limits (σ := σ) spec ar n e).attrs s.ga.attrs = s.ga.attrs := by
    unfold Ren.attrs
    rw [hp, List.map_id]
    show ({ s.ga.attrs with spec := spec } : Attrs) = _
    rw [← show s.ga.attrs.spec = spec from congrArg Prod.fst hs]
  unfold Ren.st Ren.ga Ren.heap
  rw [hg, hi, ha]
  simp [Ren.limits]

theorem Ren.limits_coding : (Ren.limits (σ := σ) spec ar n e).Coding := Ren.coding_same rfl rfl rfl

theorem Ren.limits_fits (fit : Fit σ) : (Ren.limits (σ := σ) spec ar n e).Fits id fit fit := by
  have hg : ∀ g, (Ren.limits (σ := σ) spec ar n e).geno g = g := fun g => List.map_id _
  have hid : ∀ {α : Type} (x : Except PyErr α), x.map id = x := fun x => by cases x <;> rfl
  refine ⟨rfl, rfl, rfl, rfl, rfl, rfl, fun g => by rw [hg, hid], fun v => by rw [Option.map_id, hid]; rfl, fun _ => rfl, fun _ => ⟨fun q => ⟨q, rfl⟩, fun vs => ⟨vs, rfl, id, ?_, fun r _ => rfl⟩⟩, ?_⟩
  · cases popAll fit.idxOpt vs <;> rfl
  · intro x pen _
    rw [Ren.limits_ind]
    exact (hid _).symm

theorem Ren.limits_ranks (t : Task σ) : (Ren.limits (σ := σ) spec ar n e).Ranks id t t := by
  have hg : ∀ g, (Ren.limits (σ := σ) spec ar n e).geno g = g := fun g => List.map_id _
  have hid : ∀ {α : Type} (x : Except PyErr α), x.map id = x := fun x => by cases x <;> rfl
  exact ⟨fun g => by rw [hg, hid], ⟨id, fun _ => rfl, fun _ _ _ _ _ _ => rfl⟩, fun q => ⟨q, rfl⟩⟩

end

/-- The main loop with more rounds and more patience goes on where the other one stops. -/
theorem mainLoop_longer {spec : PopSpec} {ar : Arith} {N : Nat} {e e' : Int} (he : e ≤ e') {ops : Ops σ}
    (hi : ops.Imgs (Ren.limits spec ar N e') ops) (ho : OpsKeep SameSetup ops) :
    ∀ {n n' : Nat}, n ≤ n' → ∀ {s : St σ}, s.ga.attrs.tag = (spec, ar) → s.ga.earlyStop = some e →
      (mainLoop ops n s).2.ga.attrs.tag = (spec, ar) ∧
      (∀ x, (mainLoop ops n s).1 = .error x → (mainLoop ops n' ((Ren.limits spec ar N e').st s)).1 = .error x) ∧
      ((mainLoop ops n s).1 = .ok () → ∃ m, mainLoop ops n' ((Ren.limits spec ar N e').st s) =
        mainLoop ops m ((Ren.limits spec ar N e').st (mainLoop ops n s).2)) := by
  intro n
  induction n with
  | zero => intro n' _ s hs _; exact ⟨hs, fun x h => by (cases h), fun _ => ⟨n', rfl⟩⟩
  | succ n ih =>
    intro n' hn s hs hes
    obtain ⟨k, rfl⟩ : ∃ k, n' = k + 1 := ⟨n' - 1, by omega⟩
    obtain ⟨h1, h2⟩ := Img.generation hi s hs
    rcases hg : generation ops s with ⟨x | u, s1⟩
    · rw [hg] at h1 h2
      have e1 : mainLoop ops (n + 1) s = (.error x, s1) := by rw [mainLoop]; exact bind_of_err hg
      have e2 : mainLoop ops (k + 1) ((Ren.limits spec ar N e').st s) = (.error x, (Ren.limits spec ar N e').st s1) := by
        rw [mainLoop]; exact bind_of_err h1
      rw [e1, e2]
      exact ⟨h2, fun y h => h, fun h => by cases h⟩
    · rw [hg] at h1 h2
      have hes1 : s1.ga.earlyStop = some e := by
        obtain ⟨⟨_, _, p⟩, _⟩ := (generation_frame sameSetup_frame ho).ok hg
        exact p.trans hes
      have e1 : mainLoop ops (n + 1) s = (if e < s1.ga.noImprove then pure () else mainLoop ops n : M σ Unit) s1 := by
        rw [mainLoop, bind_of_ok hg, bind_of_ok (getGa_run s1), hes1]
      have e2 : mainLoop ops (k + 1) ((Ren.limits spec ar N e').st s) =
          (if e' < s1.ga.noImprove then pure () else mainLoop ops k : M σ Unit) ((Ren.limits spec ar N e').st s1) := by
        rw [mainLoop, bind_of_ok h1, bind_of_ok (getGa_run _)]; rfl
      rw [e1, e2]
      by_cases hc : e < s1.ga.noImprove
      · rw [if_pos hc]
        refine ⟨h2, fun y h => by (cases h), fun _ => ?_⟩
        by_cases hc' : e' < s1.ga.noImprove
        · rw [if_pos hc']; exact ⟨0, rfl⟩
        · rw [if_neg hc']; exact ⟨k, rfl⟩
      · rw [if_neg hc, if_neg (by omega)]
        exact ih (by omega) h2 hes1

/-- `evolve` with more rounds and more patience. -/
theorem evolve_longer {spec : PopSpec} {ar : Arith} {N N' : Nat} (hN : N ≤ N') {e e' : Int} (he : e ≤ e') {ops : Ops σ}
    (hi : ops.Imgs (Ren.limits spec ar N' e') ops) (ho : OpsKeep SameSetup ops) {s : St σ} (hs : s.ga.attrs.tag = (spec, ar))
    (hgen : s.ga.numGenerations = N) (hes : s.ga.earlyStop = some e) :
    (∀ x, (evolve ops s).1 = .error x → (evolve ops ((Ren.limits spec ar N' e').st s)).1 = .error x) ∧
    ((evolve ops s).1 = .ok () → ∃ m, evolve ops ((Ren.limits spec ar N' e').st s) =
      mainLoop ops m ((Ren.limits spec ar N' e').st (evolve ops s).2) ∧ (evolve ops s).2.ga.attrs.tag = (spec, ar)) := by
  obtain ⟨h1, h2⟩ := hi.fitness s hs
  rcases hf : ops.fitness s with ⟨x | u, s1⟩
  · rw [hf] at h1
    have e1 : evolve ops s = (.error x, s1) := by rw [evolve]; exact bind_of_err hf
    have e2 : evolve ops ((Ren.limits spec ar N' e').st s) = (.error x, (Ren.limits spec ar N' e').st s1) := by
      rw [evolve]; exact bind_of_err h1
    rw [e1, e2]
    exact ⟨fun y h => h, fun h => by cases h⟩
  · rw [hf] at h1 h2
    obtain ⟨h3, h4⟩ := hi.update s1 h2
    rcases hu : ops.update s1 with ⟨x | u', s2⟩
    · rw [hu] at h3
      have e1 : evolve ops s = (.error x, s2) := by rw [evolve, bind_of_ok hf]; exact bind_of_err hu
      have e2 : evolve ops ((Ren.limits spec ar N' e').st s) = (.error x, (Ren.limits spec ar N' e').st s2) := by
        rw [evolve, bind_of_ok h1]; exact bind_of_err h3
      rw [e1, e2]
      exact ⟨fun y h => h, fun h => by cases h⟩
    · rw [hu] at h3 h4
      obtain ⟨⟨q1, _, q3⟩, _⟩ := sameSetup_frame.step.trans (ho.fitness.ok hf) (ho.update.ok hu)
      have e1 : evolve ops s = mainLoop ops (N - 1) s2 := by
        rw [evolve, bind_of_ok hf, bind_of_ok hu, bind_of_ok (getGa_run s2), q1, hgen]
      have e2 : evolve ops ((Ren.limits spec ar N' e').st s) = mainLoop ops (N' - 1) ((Ren.limits spec ar N' e').st s2) := by
        rw [evolve, bind_of_ok h1, bind_of_ok h3, bind_of_ok (getGa_run _)]; rfl
      rw [e1, e2]
      obtain ⟨r1, r2, r3⟩ := mainLoop_longer he hi ho (show N - 1 ≤ N' - 1 by omega) h4 (q3.trans hes)
      exact ⟨r2, fun h => by obtain ⟨m, hm⟩ := r3 h; exact ⟨m, hm, r1⟩⟩

/-- The preparation with other limits. -/
theorem startUp_longer {c c' : Cfg} (h : c.Longer c') (spec : PopSpec) (task : Task σ) (mutOp : MutOp) (s : St σ) :
    (∀ x, (startUp c spec task mutOp s).1 = .error x → (startUp c' spec task mutOp s).1 = .error x) ∧
    (∀ p s0, startUp c spec task mutOp s = (.ok p, s0) → s0.ga.attrs.tag = (spec, c.arith) ∧
      startUp c' spec task mutOp s = (.ok p, (Ren.limits spec c.arith c'.numGenerations c'.stop).st s0)) := by
  let R : Ren σ := Ren.limits spec c.arith c'.numGenerations c'.stop
  have hC : R.Coding := Ren.limits_coding _ _ _ _
  obtain ⟨n, e, hc'⟩ := h.same
  have k1 : c'.childrenPercent = c.childrenPercent := by rw [hc']
  have k2 : c'.numIndivid = c.numIndivid := by rw [hc']
  have k3 : c'.input = c.input := by rw [hc']
  have k4 : c'.mutationLvl = c.mutationLvl := by rw [hc']
  have k5 : c'.transfer = c.transfer := by rw [hc']
  have k6 : c'.arith = c.arith := by rw [hc']
  have hinp : R.input c.input = c.input := by
    have hg : R.geno = id := by funext g; exact List.map_id _
    unfold Ren.input; rw [hg]
    cases c.input <;> simp
  let g0 : Cfg → GaData σ := fun c => { numGenerations := c.numGenerations, childrenPercent := c.childrenPercent, earlyStop := some c.stop, attrs := { arith := c.arith } }
  have hpop : ∃ t, ∀ g, newPopulation { s with ga := g, snaps := [] } = (.ok (), { s with ga := g, snaps := [], tape := t }) := by
    unfold newPopulation reseed
    cases hsd : s.seed with
    | none => exact ⟨s.tape, fun g => rfl⟩
    | some t => exact ⟨t, fun g => rfl⟩
  obtain ⟨t, ht⟩ := hpop
  have hrest : Img R id (newFitness task >>= fun fit => newMutation mutOp c.mutationLvl >>= fun _ => liftE (checkTransfer c.transfer) >>= fun tr =>
      fill c.input >>= fun _ => pure (fit, tr))
      (newFitness task >>= fun fit => newMutation mutOp c.mutationLvl >>= fun _ => liftE (checkTransfer c.transfer) >>= fun tr =>
      fill c.input >>= fun _ => pure (fit, tr)) := by
    refine Img.bind_of (P := fun fit => fit.task = task) (Img.newFitness (t := task) (t' := task) rfl rfl) ?_ fun fit hfit => ?_
    · intro s a s' ha; exact (newFitness_ok ha).1
    · have hft : ({ fit with task := task } : Fit σ) = fit := by rw [← hfit]
      rw [hft]
      refine Img.bind (Img.newMutation _ _) fun _ => Img.bind (v := id) Img.liftE_id fun tr => Img.bind (v := id) ?_ fun _ => Img.pure rfl
      have := Img.fill hC c.input
      rwa [hinp] at this
  have hstart : ∀ d : Cfg, d.childrenPercent = c.childrenPercent → d.numIndivid = c.numIndivid → d.input = c.input →
      d.mutationLvl = c.mutationLvl → d.transfer = c.transfer → startUp d spec task mutOp s =
      (setParams spec c.numIndivid c.input >>= fun _ => newFitness task >>= fun fit => newMutation mutOp c.mutationLvl >>= fun _ => liftE (checkTransfer c.transfer) >>= fun tr =>
      fill c.input >>= fun _ => pure (fit, tr)) { s with ga := g0 d, snaps := [], tape := t } := by
    intro d d1 d2 d3 d4 d5
    unfold startUp newGaData
    rw [bind_of_ok (modifyS_run _ _), bind_of_ok (ht _), d2, d3, d4, d5]
  rw [hstart c rfl rfl rfl rfl rfl, hstart c' k1 k2 k3 k4 k5]
  by_cases hl : c.numIndivid < (c.input.getD []).length
  · have h1 : ∀ x : St σ, setParams spec c.numIndivid c.input x = (.error .exception, x) := by
      intro x
      unfold setParams
      rw [ite_run, if_pos hl]; rfl
    rw [bind_of_err (h1 _), bind_of_err (h1 _)]
    exact ⟨fun x h => h, fun p s0 h => by cases h⟩
  · let s3 : St σ := { s with ga := { g0 c with population := [], attrs := { numIndivid := c.numIndivid, spec := spec, isPhenotype := spec.hasPhenotype, arith := c.arith } }, snaps := [], tape := t }
    have h1 : setParams spec c.numIndivid c.input { s with ga := g0 c, snaps := [], tape := t } = (.ok (), s3) := by
      unfold setParams
      rw [ite_run, if_neg hl]; rfl
    have h2 : setParams spec c.numIndivid c.input { s with ga := g0 c', snaps := [], tape := t } = (.ok (), R.st s3) := by
      unfold setParams
      rw [ite_run, if_neg hl, Ren.limits_st _ _ _ _ (show s3.ga.attrs.tag = (spec, c.arith) from rfl)]
      show (Except.ok (), ({ s with ga := { g0 c' with population := [], attrs := { numIndivid := c.numIndivid, spec := spec, isPhenotype := spec.hasPhenotype, arith := c'.arith } }, snaps := [], tape := t } : St σ)) = _
      simp only [g0, k1, k6, s3]
    rw [bind_of_ok h1, bind_of_ok h2]
    obtain ⟨r1, r2⟩ := hrest s3 rfl
    rw [r1]
    refine ⟨fun x h => ?_, fun p s0 h => ?_⟩
    · simp only [] at h ⊢; rw [h]; rfl
    · rw [h] at r2 ⊢
      exact ⟨r2, rfl⟩

/-- A whole call with other limits. -/
theorem facade_longer {c c' : Cfg} (h : c.Longer c') (spec : PopSpec) (task : Task σ) (fitExec : Fit σ → M σ Unit)
    (update selection : M σ Unit) (cross : CrossOp) (mutOp : MutOp) (newGen : Transfer → M σ Unit)
    (hi : ∀ fit tr, Ops.Imgs (Ren.limits spec c.arith c'.numGenerations c'.stop) (facadeOps fitExec update selection cross mutOp newGen fit tr)
      (facadeOps fitExec update selection cross mutOp newGen fit tr))
    (ho : ∀ fit tr, OpsKeep SameSetup (facadeOps fitExec update selection cross mutOp newGen fit tr))
    (hg : ∀ fit tr, OpsKeep Grows (facadeOps fitExec update selection cross mutOp newGen fit tr)) (s sx : St σ) :
    ((facade c spec task fitExec update selection cross mutOp newGen s).1 = .ok () →
      Extends (observe sx (facade c spec task fitExec update selection cross mutOp newGen s))
        (observe sx (facade c' spec task fitExec update selection cross mutOp newGen s))) ∧
    ((c.isPrint = false ∨ ∀ fit tr s0 s', Fresh s0 → evolve (facadeOps fitExec update selection cross mutOp newGen fit tr) s0 = (.ok (), s') →
        (printBest s').1 = .ok ()) → ∀ x, (facade c spec task fitExec update selection cross mutOp newGen s).1 = .error x →
      (facade c' spec task fitExec update selection cross mutOp newGen s).1 = .error x) := by
  have hprint : ∀ (b : Bool) (s : St σ), ((if b then printBest else pure () : M σ Unit) s).2 = s := by
    intro b s
    cases b
    · rfl
    · exact printBest_state (Prod.mk.eta (p := printBest s)).symm
  obtain ⟨u1, u2⟩ := startUp_longer h spec task mutOp s
  rw [facade_eq, facade_eq]
  rcases hst : startUp c spec task mutOp s with ⟨x | p, s0⟩
  · have h1 := u1 x (by rw [hst])
    have h1' : startUp c' spec task mutOp s = (.error x, (startUp c' spec task mutOp s).2) := Prod.ext h1 rfl
    rw [bind_of_err hst, bind_of_err h1']
    exact ⟨fun h => (by cases h), fun _ y h => h⟩
  · obtain ⟨hs0, h1⟩ := u2 p s0 hst
    rw [bind_of_ok hst, bind_of_ok h1]
    obtain ⟨_, _, _, _, _, _, _, _, hst0⟩ := startUp_ok hst
    obtain ⟨l1, l2⟩ := evolve_longer h.gens h.stop (hi p.1 p.2) (ho p.1 p.2) hs0 hst0.gens hst0.stop
    have hrun : ∀ (d : Cfg) (t : St σ), (evolve { fitness := fitExec p.1, update := update, selection := selection, crossover := crossExec cross, mutation := mutExec mutOp, newGen := newGen p.2 } >>=
        fun _ => if d.isPrint then printBest else pure ()) t =
        (evolve (facadeOps fitExec update selection cross mutOp newGen p.1 p.2) >>= fun _ => if d.isPrint then printBest else pure ()) t := fun _ _ => rfl
    rw [hrun, hrun]
    have hg' := hg p.1 p.2
    have hpr := fun s' => fun h : (∀ fit tr s0 s', Fresh s0 → evolve (facadeOps fitExec update selection cross mutOp newGen fit tr) s0 = (.ok (), s') →
        (printBest s').1 = .ok ()) => h p.1 p.2 s0 s' hst0.fresh
    generalize facadeOps fitExec update selection cross mutOp newGen p.1 p.2 = ops at *
    have hend : ∀ (d : Cfg) (t : St σ), ((evolve ops >>= fun _ => if d.isPrint then printBest else pure ()) t).2 = (evolve ops t).2 := by
      intro d t
      rcases he : evolve ops t with ⟨x | u, t'⟩
      · rw [bind_of_err he]
      · rw [bind_of_ok he]; exact hprint _ _
    rcases he : evolve ops s0 with ⟨x | u, s1⟩
    · have e1 := l1 x (by rw [he])
      have e2 : evolve ops ((Ren.limits spec c.arith c'.numGenerations c'.stop).st s0) = (.error x, _) := Prod.ext e1 rfl
      rw [bind_of_err he, bind_of_err e2]
      exact ⟨fun h => (by cases h), fun _ y h => h⟩
    · obtain ⟨m, e1, e2⟩ := l2 (by rw [he])
      rw [he] at e1 e2
      refine ⟨fun _ => ?_, fun hq x hx => ?_⟩
      · have k := mainLoop_keeps grows_steady.step hg' m ((Ren.limits spec c.arith c'.numGenerations c'.stop).st s1)
        rw [← e1, Ren.limits_st _ _ _ _ e2] at k
        have q1 := hend c s0
        have q2 := hend c' ((Ren.limits spec c.arith c'.numGenerations c'.stop).st s0)
        rw [he] at q1
        generalize (evolve ops >>= fun _ => if c.isPrint then printBest else pure ()) s0 = r1 at *
        generalize (evolve ops >>= fun _ => if c'.isPrint then printBest else pure ()) ((Ren.limits spec c.arith c'.numGenerations c'.stop).st s0) = r2 at *
        obtain ⟨x1, x2⟩ := r1
        obtain ⟨y1, y2⟩ := r2
        subst q1 q2
        exact ⟨k.snaps, k.calls.drop _, k.histBest, k.histMed, k.histWorst, k.idxGeneration⟩
      · rw [bind_of_ok he] at hx
        rcases hq with hq | hq
        · rw [hq] at hx; cases hx
        · have := hpr s1 hq he
          cases hb : c.isPrint
          · rw [hb] at hx; cases hx
          · rw [hb] at hx
            rw [show (if true = true then printBest else pure () : M σ Unit) = printBest from rfl, this] at hx
            cases hx

theorem single_grows (fit : Fit ℚ) (sel : SelOp) (op : CrossOp) (mop : MutOp) (tr : Transfer) :
    OpsKeep Grows (singleOps fit sel op mop tr) :=
  have hR := grows_steady.toStill
  ⟨baseFitnessExec_frame grows_steady fit, gaUpdate_grows, selExec_frame hR sel, crossExec_frame hR.calm op, mutExec_frame hR mop,
    newGenExec_frame hR.moving tr⟩

theorem single_limits (spec : PopSpec) (ar : Arith) (n : Nat) (e : Int) (fit : Fit ℚ) (size : Int) (op : CrossOp) (mop : MutOp) (tr : Transfer) :
    Ops.Imgs (Ren.limits spec ar n e) (singleOps fit (.tournament size) op mop tr) (singleOps fit (.tournament size) op mop tr) :=
  have hC := Ren.limits_coding (σ := ℚ) spec ar n e
  ⟨Img.baseFitnessExec hC (Ren.limits_fits spec ar n e fit), Img.gaUpdate strictMono_id, Img.tournamentExec strictMono_id size,
    Img.crossExec hC op, Img.mutExec hC mop, Img.newGenExec hC strictMono_id tr⟩

/-- C78 for the single-objective facades: with the same draws, the run with more generations and more patience first does
what the other run does.  This holds also if the longer run ends with an exception. -/
theorem C78_single {c c' : Cfg} (h : c.Longer c') (f : SingleFacade) (ov : Option ℚ) (s : St ℚ) :
    ((f.optimize c ov s).1 = .ok () → Extends (observe s (f.optimize c ov s)) (observe s (f.optimize c' ov s))) ∧
    (∀ x, (f.optimize c ov s).1 = .error x → (f.optimize c' ov s).1 = .error x) := by
  have hc : c'.obj1 = c.obj1 ∧ c'.obj2 = c.obj2 ∧ c'.inputTruthy = c.inputTruthy ∧ c'.penalty = c.penalty ∧
      c'.tournamentSize = c.tournamentSize ∧ c'.arith = c.arith := by
    obtain ⟨n, e, rfl⟩ := h.same
    exact ⟨rfl, rfl, rfl, rfl, rfl, rfl⟩
  obtain ⟨h1, h2, h3, h4, h5, h6⟩ := hc
  have e1 : f.optimize c ov s = facade c f.spec (hyperbolaTask c.obj1 c.obj2 c.inputTruthy c.penalty ov c.arith)
      baseFitnessExec gaUpdate (tournamentExec c.tournamentSize) f.cross f.mutOp newGenExec s := by cases f <;> rfl
  have e2 : f.optimize c' ov s = facade c' f.spec (hyperbolaTask c.obj1 c.obj2 c.inputTruthy c.penalty ov c.arith)
      baseFitnessExec gaUpdate (tournamentExec c.tournamentSize) f.cross f.mutOp newGenExec s := by
    rw [← h1, ← h2, ← h3, ← h4, ← h5, ← h6]
    cases f <;> rfl
  rw [e1, e2]
  have := facade_longer h f.spec (hyperbolaTask c.obj1 c.obj2 c.inputTruthy c.penalty ov c.arith) baseFitnessExec gaUpdate
    (tournamentExec c.tournamentSize) f.cross f.mutOp newGenExec
    (fun fit tr => single_limits _ _ _ _ fit c.tournamentSize f.cross f.mutOp tr)
    (fun fit tr => singleOps_keep fit (.tournament c.tournamentSize) f.cross f.mutOp tr)
    (fun fit tr => single_grows fit (.tournament c.tournamentSize) f.cross f.mutOp tr) s s
  refine ⟨this.1, this.2 (.inr ?_)⟩
  intro fit tr s0 s' hf he
  obtain ⟨_, k, _, _, _, hk, _⟩ := evolve_after he
  obtain ⟨b, g, v, r, t1, _⟩ := (hk.inv (singleOps_run fit (.tournament c.tournamentSize) f.cross f.mutOp tr) hf).top
  unfold printBest
  rw [bind_of_ok (getS_run s'), t1]
  rfl

/-- C78, consequence: the answer of the longer run is at least as good. -/
theorem C78_better {c c' : Cfg} (h : c.Longer c') (f : SingleFacade) (ov : Option ℚ) {s s' : St ℚ}
    (hl : f.optimize c' ov s = (.ok (), s')) :
    ∃ s1, f.optimize c ov s = (.ok (), s1) ∧ ∃ b g v b' g' v', s1.ga.best = some (.single b g) ∧ (s1.heap b).score = some v ∧
      s'.ga.best = some (.single b' g') ∧ (s'.heap b').score = some v' ∧ v ≤ v' := by
  obtain ⟨k1, k2⟩ := C78_single h f ov s
  rcases ho : f.optimize c ov s with ⟨x | u, s1⟩
  · have := k2 x (by rw [ho])
    rw [hl] at this
    cases this
  · refine ⟨s1, rfl, ?_⟩
    have k := (k1 (by rw [ho])).histBest
    rw [ho, hl] at k
    change s1.ga.histBest <+: s'.ga.histBest at k
    obtain ⟨fit, tr, s0, n, a1, _, a3, _⟩ := SingleFacade.run ho
    obtain ⟨fit', tr', s0', n', a1', _, a3', _⟩ := SingleFacade.run hl
    obtain ⟨_, _, _, _, _, ⟨b, g, v, b1, b2, b3⟩, _⟩ := C44_histories a1.fresh a3
    obtain ⟨_, _, _, _, hm, ⟨b', g', v', b1', b2', b3'⟩, _⟩ := C44_histories a1'.fresh a3'
    refine ⟨b, g, v, b', g', v', b1, b2, b1', b2', ?_⟩
    have hv : v ∈ s'.ga.histBest := k.subset (List.mem_of_getLast? b3)
    obtain ⟨l, hl'⟩ := List.getLast?_eq_some_iff.mp b3'
    rw [hl'] at hm hv
    rcases List.mem_append.mp hv with hv | hv
    · exact (List.pairwise_append.mp hm).2.2 v hv v' (by simp)
    · simp at hv; exact hv.le

/-- C78 for `FFGA`. -/
theorem C78_ffga {c c' : Cfg} (h : c.Longer c') (gray : Bool) (gens : List BinGene) (s : St ℚ) :
    ((ffga c gray gens s).1 = .ok () → Extends (observe s (ffga c gray gens s)) (observe s (ffga c' gray gens s))) ∧
    (c.isPrint = false → ∀ x, (ffga c gray gens s).1 = .error x → (ffga c' gray gens s).1 = .error x) := by
  have e2 : ffga c' gray gens = facade c' (.binary gray gens) (ffgaTask c.obj1 c.obj2 c.inputTruthy c.penalty c.arith)
      multiFitnessExec multiUpdate balancedExec .onePoint .binString multiNewGenExec := by
    obtain ⟨n, e, rfl⟩ := h.same
    rfl
  rw [e2]
  have hC := Ren.limits_coding (σ := ℚ) (.binary gray gens) c.arith c'.numGenerations c'.stop
  have hR := (grows_steady (σ := ℚ)).toStill
  have := facade_longer h (.binary gray gens) (ffgaTask c.obj1 c.obj2 c.inputTruthy c.penalty c.arith) multiFitnessExec multiUpdate balancedExec
    .onePoint .binString multiNewGenExec
    (fun fit tr => ⟨Img.multiFitnessExec hC (Ren.limits_fits _ _ _ _ fit) (Ren.limits_ranks _ _ _ _ fit.task),
      Img.multiUpdate hC Function.injective_id Function.injective_id,
      Img.balancedWith Img.unit (v := id) (fun x => Img.scoreKey x) (fun ws => by rw [List.map_id]) 1,
      Img.crossExec hC .onePoint, Img.mutExec hC .binString, Img.multiNewGenExec hC tr⟩)
    (fun fit tr => ffgaOps_frame sameSetup_frame fit .balanced .onePoint .binString tr)
    (fun fit tr => ⟨multiFitnessExec_frame grows_steady fit, multiUpdate_grows, selExec_frame hR .balanced, crossExec_frame hR.calm .onePoint,
      mutExec_frame hR .binString, multiNewGenExec_frame hR tr⟩) s s
  exact ⟨this.1, fun hq => this.2 (.inl hq)⟩

/-- C78 for `VEGA`. -/
theorem C78_vega {c c' : Cfg} (h : c.Longer c') (gray : Bool) (gens : List BinGene) (ov : Option (List ℚ)) (s : St (List ℚ)) :
    ((vega c gray gens ov s).1 = .ok () → Extends (observe s (vega c gray gens ov s)) (observe s (vega c' gray gens ov s))) ∧
    (c.isPrint = false → ∀ x, (vega c gray gens ov s).1 = .error x → (vega c' gray gens ov s).1 = .error x) := by
  have e2 : vega c' gray gens ov = vegaNumObjectives c gens.length >>= fun m => facade c' (.binary gray gens) (vegaTask c.obj1 c.obj2 c.inputTruthy c.penalty ov c.arith)
      multiFitnessExec multiUpdate (vegaTournamentExec m 3) .onePoint .binString newGenExec := by
    obtain ⟨n, e, rfl⟩ := h.same
    rfl
  rw [e2]
  unfold vega
  rcases hn : vegaNumObjectives c gens.length s with ⟨x | m, s1⟩
  · rw [bind_of_err hn, bind_of_err hn]
    exact ⟨fun h => (by cases h), fun _ y h => h⟩
  rw [bind_of_ok hn, bind_of_ok hn]
  have hC := Ren.limits_coding (σ := List ℚ) (.binary gray gens) c.arith c'.numGenerations c'.stop
  have hR := (grows_steady (σ := List ℚ)).toStill
  have hkey : ∀ i x, scoreAt i ((Ren.limits (σ := List ℚ) (.binary gray gens) c.arith c'.numGenerations c'.stop).ind x) = (scoreAt i x).map id := by
    intro i x
    rw [Ren.limits_ind]
    cases scoreAt i x <;> rfl
  have := facade_longer h (.binary gray gens) (vegaTask c.obj1 c.obj2 c.inputTruthy c.penalty ov c.arith) multiFitnessExec multiUpdate
    (vegaTournamentExec m 3) .onePoint .binString newGenExec
    (fun fit tr => ⟨Img.multiFitnessExec hC (Ren.limits_fits _ _ _ _ fit) (Ren.limits_ranks _ _ _ _ fit.task),
      Img.multiUpdate hC Function.injective_id Function.injective_id,
      Img.vegaTournamentExec m 3 (w := fun _ => id) (fun _ => strictMono_id) hkey,
      Img.crossExec hC .onePoint, Img.mutExec hC .binString, Img.newGenExec hC strictMono_id tr⟩)
    (fun fit tr => vegaOps_frame sameSetup_frame fit m (.tournament 3) .onePoint .binString tr)
    (fun fit tr => ⟨multiFitnessExec_frame grows_steady fit, multiUpdate_grows, vegaTournamentExec_frame hR m 3, crossExec_frame hR.calm .onePoint,
      mutExec_frame hR .binString, newGenExec_frame hR.moving tr⟩) s1 s
  exact ⟨this.1, fun hq => this.2 (.inl hq)⟩

/-! ## A concrete case -/

/-- The run of Props/Run.lean with one generation less. -/
theorem exCfg_longer : Cfg.Longer { exCfg with numGenerations := 2 } exCfg := ⟨⟨3, exCfg.earlyStop, rfl⟩, by decide, by decide⟩

theorem exShort_ok : (exFacade.optimize { exCfg with numGenerations := 2 } none { tape := exTape }).1 = .ok () := by decide +kernel

example : Extends (observe { tape := exTape } (exFacade.optimize { exCfg with numGenerations := 2 } none { tape := exTape }))
    (observe { tape := exTape } exRun) := (C78_single exCfg_longer exFacade none { tape := exTape }).1 exShort_ok

example : (exFacade.optimize { exCfg with numGenerations := 2 } none { tape := exTape }).2.ga.histBest = [-7, -7] ∧
    exRun.2.ga.histBest = [-7, -7, -7] := by decide +kernel

end
end BaumEva
