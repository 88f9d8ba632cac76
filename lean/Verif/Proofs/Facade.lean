import Verif.Proofs.Frame
import Verif.Proofs.Run
import Verif.Props.Fitness
/-!
# `optimize` of the facades and of the collector
-/
namespace BaumEva
variable {σ : Type}

/-! ## what stays constant -/

/-- Printing changes nothing. -/
theorem printBest_state {σ : Type} {s s' : St σ} {u : Except PyErr Unit} (h : printBest s = (u, s')) : s' = s := by
  unfold printBest at h
  rw [bind_of_ok (getS_run s)] at h
  cases hb : s.ga.best with
  | none => simp only [hb, throwE_run] at h; exact (Prod.mk.inj h).2.symm
  | some b =>
    cases b with
    | single r g => simp only [hb, pure_run] at h; exact (Prod.mk.inj h).2.symm
    | pareto f g =>
      cases g with
      | none => simp only [hb, throwE_run] at h; exact (Prod.mk.inj h).2.symm
      | some g =>
        simp only [hb, ite_run, throwE_run, pure_run] at h
        split at h <;> exact (Prod.mk.inj h).2.symm

/-- Parameters, seed and user conditions are the same. -/
def SameSetup (s s' : St σ) : Prop := SameParams s.ga s'.ga ∧ s'.seed = s.seed ∧ s'.conds = s.conds

theorem sameSetup_frame : Frame (SameSetup (σ := σ)) where
  step := ⟨fun s => ⟨SameParams.refl _, rfl, rfl⟩, fun {a b c} h1 h2 => by
    obtain ⟨⟨p1, p2, p3⟩, q1, r1⟩ := h1
    obtain ⟨⟨x1, x2, x3⟩, q2, r2⟩ := h2
    exact ⟨⟨x1.trans p1, x2.trans p2, x3.trans p3⟩, q2.trans q1, r2.trans r1⟩⟩
  tape := fun s x t _ => ⟨SameParams.refl _, rfl, rfl⟩
  seeded := fun s t _ => ⟨SameParams.refl _, rfl, rfl⟩
  heap := fun s h n => ⟨SameParams.refl _, rfl, rfl⟩
  ga := fun s g h => ⟨h, rfl, rfl⟩
  mutLvl := fun s l => ⟨SameParams.refl _, rfl, rfl⟩
  calls := fun s l => ⟨SameParams.refl _, rfl, rfl⟩
  snaps := fun s l => ⟨SameParams.refl _, rfl, rfl⟩

theorem Keeps.ok {R : St σ → St σ → Prop} {α : Type} {m : M σ α} (h : Keeps R m) {s s' : St σ} {x : Except PyErr α}
    (hm : m s = (x, s')) : R s s' := by have := h s; rwa [hm] at this

theorem After.keeps {R : St σ → St σ → Prop} (hR : Frame R) {ops : Ops σ} (ho : OpsKeep R ops) {s0 s : St σ} {k : Nat}
    (h : After ops s0 k s) : R s0 s := by
  induction h with
  | first h1 h2 => exact hR.step.trans (ho.fitness.ok h1) (ho.update.ok h2)
  | next _ h2 ih => exact hR.step.trans ih ((generation_frame hR ho).ok h2)

/-! ## facades -/

/-- The state in which a facade or the collector starts its first generation. -/
structure Started (spec : PopSpec) (numIndivid numGenerations : Nat) (input : Option (List (List Val)))
    (childrenPercent : ℚ) (earlyStop : Option Int) (ar : Arith) (s0 : St σ) : Prop where
  fresh : Fresh s0
  created : ∃ s1 : St σ, createPopulation spec numIndivid input s1 = (.ok (), s0)
  gens : s0.ga.numGenerations = numGenerations
  percent : s0.ga.childrenPercent = childrenPercent
  stop : s0.ga.earlyStop = earlyStop
  arith : s0.ga.attrs.arith = ar

theorem started_of_fill {spec : PopSpec} {n N : Nat} {input : Option (List (List Val))} {cp : ℚ} {es : Option Int} {ar : Arith} {s s0 : St σ}
    {u : Unit} (hlen : ¬ n < (input.getD []).length)
    (hga : s.ga = { numGenerations := N, childrenPercent := cp, earlyStop := es
                    attrs := { numIndivid := n, spec := spec, isPhenotype := spec.hasPhenotype, arith := ar } })
    (hsn : s.snaps = []) (h : fill input s = (.ok u, s0)) : Started spec n N input cp es ar s0 := by
  have hc : createPopulation spec n input s = (.ok (), s0) := by
    unfold createPopulation setParams
    rw [bind_run, ite_run, if_neg hlen, modGa_run]
    simp only
    rw [← h]
    congr 1
    cases s
    simp only at hga
    rw [hga]
  have hemp : s.ga.population = [] := by rw [hga]
  have hnum : s.ga.attrs.numIndivid = n := by rw [hga]
  obtain ⟨a1, a2, a3, a4, a5, a6, a7, a8, a9, b1, b2, b3, b4, b5, gs, c1, c2, c3, c4⟩ := fill_ok hemp (by rw [hnum]; omega) h
  have hgeq : s0.ga = { numGenerations := N, childrenPercent := cp, earlyStop := es, population := s0.ga.population,
                        attrs := s0.ga.attrs } := by rw [a8, hga]
  refine ⟨⟨?_, ?_, ?_, ?_, ?_, ?_, ?_, ?_, ?_, ?_, ?_, ?_⟩, ⟨s, hc⟩, ?_, ?_, ?_, ?_⟩
  · intro r hr
    rw [a6, List.mem_range'_1] at hr
    omega
  · rw [a6]; exact List.nodup_range'
  · intro r hr
    rw [a6, List.mem_range'_1] at hr
    obtain ⟨p, e, _⟩ := c4 (r - s.next) _ (List.getElem?_eq_getElem (by omega))
    rw [show s.next + (r - s.next) = r by omega] at e
    rw [e]
  · rw [a4, hga]
  · rw [hgeq]
  · rw [hgeq]
  · rw [hgeq]
  · rw [hgeq]
  · rw [hgeq]
  · rw [hgeq]
  · rw [hgeq]
  · rw [b5]; exact hsn
  · rw [hgeq]
  · rw [hgeq]
  · rw [hgeq]
  · rw [fill_arith h, hga]

/-- A successful `optimize` of a facade is a run from a started state. -/
theorem facade_ok {c : Cfg} {spec : PopSpec} {task : Task σ} {fitExec : Fit σ → M σ Unit} {update selection : M σ Unit}
    {cross : CrossOp} {mutOp : MutOp} {newGen : Transfer → M σ Unit} {s s' : St σ} {u : Unit}
    (h : facade c spec task fitExec update selection cross mutOp newGen s = (.ok u, s')) :
    ∃ fit tr s0 sa sb, newFitness task sa = (.ok fit, sb) ∧ sa.conds = s.conds ∧ sb.conds = s0.conds ∧
      checkTransfer c.transfer = .ok tr ∧ s0.seed = s.seed ∧ (∃ l, checkMutation mutOp c.mutationLvl = .ok l ∧ s0.mutLvl = l.stored c.arith) ∧
      Started spec c.numIndivid c.numGenerations c.input c.childrenPercent (some c.stop) c.arith s0 ∧
      evolve { fitness := fitExec fit, update := update, selection := selection, crossover := crossExec cross,
               mutation := mutExec mutOp, newGen := newGen tr } s0 = (.ok (), s') ∧
      (c.isPrint = true → printBest s' = (.ok (), s')) := by
  unfold facade at h
  unfold newGaData at h
  rw [bind_of_ok (modifyS_run _ _)] at h
  obtain ⟨_, s2, h2, h3⟩ := bind_ok.mp h
  obtain ⟨t, e2⟩ : ∃ t, s2 = { s with
      ga := { numGenerations := c.numGenerations, childrenPercent := c.childrenPercent, earlyStop := some c.stop
              attrs := { arith := c.arith } }
      snaps := []
      tape := t } := by
    unfold newPopulation at h2
    obtain ⟨t, ht⟩ := reseed_ok h2
    exact ⟨t, ht⟩
  obtain ⟨_, s3, h4, h5⟩ := bind_ok.mp h3
  unfold setParams at h4
  rw [ite_run] at h4
  split at h4
  · rw [throwE_ok] at h4; exact h4.elim
  rename_i hlen
  rw [modGa_ok] at h4
  obtain ⟨fit, s4, h6, h7⟩ := bind_ok.mp h5
  have e4 : s4 = { s3 with conds := s4.conds } := by
    rcases (newFitness_ok h6).2 with ⟨_, _, e, _⟩ | ⟨_, _, cs, _, _, ⟨_, _, _, e⟩ | ⟨_, _, _, _, e⟩⟩
    · rw [e]
    · rw [e]
    · rw [e]
  obtain ⟨_, s5, h8, h9⟩ := bind_ok.mp h7
  unfold newMutation at h8
  obtain ⟨l, s5', g1, g2⟩ := bind_ok.mp h8
  obtain ⟨g3, rfl⟩ := liftE_ok.mp g1
  rw [bind_of_ok (getGa_run _), modifyS_ok] at g2
  obtain ⟨tr, s6, h10, h11⟩ := bind_ok.mp h9
  obtain ⟨htr, rfl⟩ := liftE_ok.mp h10
  obtain ⟨_, s0, h12, h13⟩ := bind_ok.mp h11
  obtain ⟨_, s7, h14, h15⟩ := bind_ok.mp h13
  have hst : Started spec c.numIndivid c.numGenerations c.input c.childrenPercent (some c.stop) c.arith s0 := by
    refine started_of_fill hlen ?_ ?_ h12
    · rw [g2, e4, h4, e2]
    · rw [g2, e4, h4, e2]
  have hs6 : s6.ga.population = [] ∧ s6.ga.attrs.numIndivid = c.numIndivid := by
    rw [g2, e4, h4, e2]; exact ⟨rfl, rfl⟩
  obtain ⟨_, _, _, _, _, _, _, _, _, b1, b2, b3, b4, b5, _⟩ := fill_ok hs6.1 (by rw [hs6.2]; omega) h12
  have hend : s7 = s' ∧ (c.isPrint = true → printBest s' = (.ok (), s')) := by
    rw [ite_run] at h15
    split at h15
    · rename_i hp
      have hs : ∀ x : Except PyErr Unit, printBest s7 = (x, s') → s7 = s' := by
        intro x hx
        exact (printBest_state hx).symm
      have e := hs _ h15
      exact ⟨e, fun _ => by rw [← e]; rw [← e] at h15; exact h15⟩
    · rename_i hp
      obtain ⟨_, rfl⟩ := pure_ok.mp h15
      exact ⟨rfl, fun hc => absurd hc hp⟩
  obtain ⟨rfl, hpr⟩ := hend
  refine ⟨fit, tr, s0, s3, s5', h6, by rw [h4, e2], ?_, htr, ?_, ?_, hst, h14, hpr⟩
  · rw [b3, g2]
  · rw [b1, g2, e4, h4, e2]
  · refine ⟨l, g3, ?_⟩
    rw [b2, g2]
    simp only
    rw [e4, h4, e2]

/-- A successful `set_population` of the collector. -/
theorem collectorSetPopulation_ok {spec : PopSpec} {n N : Nat} {input : Option (List (List Val))} {cp : ℚ} {es : Option Int} {ar : Arith}
    {s s0 : St σ} {u : Unit} (h : collectorSetPopulation spec n N input cp es ar s = (.ok u, s0)) :
    Started spec n N input cp es ar s0 := by
  unfold collectorSetPopulation newGaData at h
  rw [bind_of_ok (modifyS_run _ _)] at h
  obtain ⟨_, s2, h2, h3⟩ := bind_ok.mp h
  unfold newPopulation at h2
  obtain ⟨t, ht⟩ := reseed_ok h2
  obtain ⟨_, s3, h4, h5⟩ := bind_ok.mp h3
  unfold setParams at h4
  rw [ite_run] at h4
  split at h4
  · rw [throwE_ok] at h4; exact h4.elim
  rename_i hlen
  rw [modGa_ok] at h4
  refine started_of_fill hlen ?_ ?_ h5
  · rw [h4, ht]
  · rw [h4, ht]

end BaumEva
