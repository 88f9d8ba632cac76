import Verif.Spec.Own
import Verif.Proofs.History
/-!
# Runs with components the user has written
-/
namespace BaumEva
open Spec
variable {σ : Type}

/-- Selection, crossover, mutation and replacement of one generation. -/
def turnover (ops : Ops σ) : M σ Unit := do
  ops.selection
  ops.crossover
  ops.mutation
  ops.newGen

/-- Components that follow the rules; the storage is `GaData`. -/
structure OwnRun [LinearOrder σ] (ops : Ops σ) : Prop where
  fitness : ∀ s s' : St σ, (∀ r ∈ s.ga.population, r < s.next) → Distinct s → ops.fitness s = (.ok (), s') → Evaluates s s'
  update : ops.update = gaUpdate
  turnover : ∀ s s' : St σ, Between s → turnover ops s = (.ok (), s') → Replaces s s'

theorem Settled.between [LinearOrder σ] {s : St σ} (h : Settled s) : Between s := ⟨h.alive, h.asc.1, h.asc.2, h.sorted, h.best⟩

theorem generation_turnover {ops : Ops σ} {s s' : St σ} (h : generation ops s = (.ok (), s')) :
    ∃ s2 s3, turnover ops s = (.ok (), s2) ∧ ops.fitness s2 = (.ok (), s3) ∧ ops.update s3 = (.ok (), s') := by
  unfold generation at h
  obtain ⟨_, a1, h1, k1⟩ := bind_ok.mp h
  obtain ⟨_, a2, h2, k2⟩ := bind_ok.mp k1
  obtain ⟨_, a3, h3, k3⟩ := bind_ok.mp k2
  obtain ⟨_, a4, h4, k4⟩ := bind_ok.mp k3
  obtain ⟨_, a5, h5, k5⟩ := bind_ok.mp k4
  refine ⟨a4, a5, ?_, h5, k5⟩
  unfold turnover
  rw [bind_of_ok h1, bind_of_ok h2, bind_of_ok h3]
  exact h4

theorem own_first [LinearOrder σ] {ops : Ops σ} (hops : OwnRun ops) {s0 s1 s : St σ} (h0 : Fresh s0)
    (h1 : ops.fitness s0 = (.ok (), s1)) (h2 : ops.update s1 = (.ok (), s)) :
    RunInv s 1 ∧ s.ga.numGenerations = s0.ga.numGenerations ∧ s.ga.earlyStop = s0.ga.earlyStop := by
  rw [hops.update] at h2
  have hS := hops.fitness s0 s1 h0.alive (h0.distinct.filter _) h1
  have hga := hS.ga
  have hu : s1.ga.attrs.isSorted = false := by rw [hga]; exact h0.unsorted
  obtain ⟨a1, a2, a3, a4, a5, a6, a7, a8⟩ := gaUpdate_step (k := 0) (h0.hist.frame (by rw [hga]) hS.snaps (by rw [hga]) (by rw [hga])
    (by rw [hga]) (by rw [hga]) (by rw [hga]) hS.next (by intro b g e; rw [h0.best] at e; simp at e))
    (by rw [hga]; intro r hr; exact (h0.alive r hr).trans_le hS.next) (by intro e; rw [hu] at e; simp at e)
    (by intro b g e; rw [hga, h0.best] at e; simp at e) h2
  refine ⟨⟨Nat.one_pos, a1, a2, a3⟩, ?_⟩
  rw [← hga]
  obtain ⟨pop, rb, rm, rw', b, m, w, _, _, _, _, _, _, _, _, _, s4, hdec, rfl⟩ := gaUpdate_ok h2
  cases hdec <;> exact ⟨rfl, rfl⟩

theorem own_next [LinearOrder σ] {ops : Ops σ} (hops : OwnRun ops) {s s' : St σ} {k : Nat} (hs : RunInv s k)
    (h : generation ops s = (.ok (), s')) :
    RunInv s' (k + 1) ∧ s'.snaps = s.snaps ++ [s'.ga.population.map s'.heap] ∧
      s'.ga.numGenerations = s.ga.numGenerations ∧ s'.ga.earlyStop = s.ga.earlyStop ∧
      ∃ s2 s3, Replaces s s2 ∧ Evaluates s2 s3 ∧ gaUpdate s3 = (.ok (), s') := by
  obtain ⟨s2, s3, h1, h2, h3⟩ := generation_turnover h
  rw [hops.update] at h3
  have hR := hops.turnover s s2 hs.settled.between h1
  have hF := hops.fitness s2 s3 hR.alive hR.distinct h2
  obtain ⟨b, g, v, r, t1, t2, t3, t4, t5⟩ := hs.top
  have hb := hs.settled.best b g t1
  have hb2 := hR.best b g t1
  have hbh : s3.heap b = s.heap b := by rw [hF.others b (hb.1.trans_le hR.next) hb2.2]; exact hb2.1
  have g1 : s3.ga.idxGeneration = s.ga.idxGeneration := by rw [hF.ga, hR.ga]
  have g2 : s3.ga.histBest = s.ga.histBest := by rw [hF.ga, hR.ga]
  have g3 : s3.ga.histMed = s.ga.histMed := by rw [hF.ga, hR.ga]
  have g4 : s3.ga.histWorst = s.ga.histWorst := by rw [hF.ga, hR.ga]
  have g5 : s3.ga.best = s.ga.best := by rw [hF.ga, hR.ga]
  have g6 : s3.ga.noImprove = s.ga.noImprove := by rw [hF.ga, hR.ga]
  have hn : s.next ≤ s3.next := hR.next.trans hF.next
  have hsn : s3.snaps = s.snaps := by rw [hF.snaps, hR.snaps]
  have hH3 : Hist s3 k := hs.hist.frame g1 hsn g2 g3 g4 g5 g6 hn
    (by intro b' g' e; rw [t1] at e; simp at e; rw [← e.1]; exact hbh)
  have hu3 : s3.ga.attrs.isSorted = false := by rw [hF.ga]; exact hR.unsorted
  obtain ⟨x, hx, hxs⟩ := hR.elite r t3
  have hx3 : (s3.heap x).score = some v := hF.kept x v hx (by rw [hxs]; exact t4)
  obtain ⟨a1, a2, a3, a4, a5, a6, a7, a8⟩ := gaUpdate_step hH3
    (by rw [hF.ga]; intro y hy; exact (hR.alive y hy).trans_le hF.next)
    (by intro e; rw [hu3] at e; simp at e)
    (by
      intro b' g' e
      rw [g5, t1] at e
      simp at e
      rw [← e.1, hF.ga]
      refine ⟨hb2.2, fun v' hv' => ⟨x, hx, ?_⟩⟩
      rw [hbh, t2] at hv'
      rw [hx3]; exact hv') h3
  refine ⟨⟨Nat.succ_pos _, a1, a2, a3⟩, by rw [gaUpdate_snaps h3, hsn], ?_, ?_, s2, s3, hR, hF, h3⟩
  · have : s3.ga.numGenerations = s.ga.numGenerations := by rw [hF.ga, hR.ga]
    rw [← this]
    obtain ⟨pop, rb, rm, rw', b, m, w, _, _, _, _, _, _, _, _, _, s4, hdec, rfl⟩ := gaUpdate_ok h3
    cases hdec <;> rfl
  · have : s3.ga.earlyStop = s.ga.earlyStop := by rw [hF.ga, hR.ga]
    rw [← this]
    obtain ⟨pop, rb, rm, rw', b, m, w, _, _, _, _, _, _, _, _, _, s4, hdec, rfl⟩ := gaUpdate_ok h3
    cases hdec <;> rfl

theorem After.own [LinearOrder σ] {ops : Ops σ} (hops : OwnRun ops) {s0 s : St σ} {k : Nat} (h0 : Fresh s0) (h : After ops s0 k s) :
    RunInv s k ∧ s.ga.numGenerations = s0.ga.numGenerations ∧ s.ga.earlyStop = s0.ga.earlyStop := by
  induction h with
  | first h1 h2 => exact own_first hops h0 h1 h2
  | next _ h2 ih =>
    obtain ⟨a, _, b, c, _⟩ := own_next hops ih.1 h2
    exact ⟨a, b.trans ih.2.1, c.trans ih.2.2⟩

theorem After.own_earlier [LinearOrder σ] {ops : Ops σ} (hops : OwnRun ops) {s0 s : St σ} {k : Nat} (h0 : Fresh s0) (h : After ops s0 k s) :
    ∀ i, i < k → ∃ si, After ops s0 (i + 1) si ∧ s.snaps[i]? = some (si.ga.population.map si.heap) := by
  induction h with
  | @first s1 s h1 h2 =>
    intro i hi
    obtain rfl : i = 0 := by omega
    have ha : After ops s0 1 s := .first h1 h2
    refine ⟨s, ha, ?_⟩
    have hi := (ha.own hops h0).1
    have hl := hi.last
    rwa [List.getLast?_eq_getElem?, hi.hist.snaps] at hl
  | @next k s s' h1 h2 ih =>
    intro i hi
    have hinv := (h1.own hops h0).1
    have hsn := (own_next hops hinv h2).2.1
    by_cases hik : i < k
    · obtain ⟨si, a, b⟩ := ih i hik
      exact ⟨si, a, by rw [hsn, List.getElem?_append_left (by rw [hinv.hist.snaps]; exact hik)]; exact b⟩
    · obtain rfl : i = k := by omega
      exact ⟨s', .next h1 h2, by rw [hsn, List.getElem?_append_right (by rw [hinv.hist.snaps])]; simp [hinv.hist.snaps]⟩

/-- Own selection, crossover and mutation with `NewGeneration`. -/
theorem replaces_of_breeds [LinearOrder σ] {tr : Transfer} {s s1 s2 : St σ} (hs : Between s) (hB : Breeds s s1)
    (h : newGenExec tr s1 = (.ok (), s2)) : Replaces s s2 := by
  obtain ⟨pop, es, t, _, e1, _, hel, e2, _, _⟩ := newGenExec_ok h
  have hpop : s1.ga.population = s.ga.population := by rw [hB.ga]
  have e1 := e1 (by rw [hB.ga]; exact hs.sorted)
  rw [e1, hpop] at hel
  have hp2 : s2.ga.population = s1.ga.children ++ es := by rw [e2]
  have hh : s2.heap = s1.heap := by rw [e2]
  have hn : s2.next = s1.next := by rw [e2]
  refine ⟨⟨?_, by rw [e2], by rw [e2]; exact hB.snaps, by rw [hn]; exact hB.next, ?_, ?_, ?_⟩, ?_⟩
  · rw [e2]; simp only; rw [hB.ga]
  · rw [hp2, hn]
    intro r hr
    rcases List.mem_append.mp hr with hr | hr
    · exact hB.alive r hr
    · exact (hs.alive r (hel.mem r hr)).trans_le hB.next
  · unfold Distinct
    have : es.filter (fun r => (s1.heap r).score.isNone) = [] := by
      rw [List.filter_eq_nil_iff]
      intro r hr
      have h1 := hs.scored r (hel.mem r hr)
      rw [← hB.kept r (hel.mem r hr)] at h1
      simpa using Option.isSome_iff_ne_none.mp h1
    rw [hp2, hh, List.filter_append, this, List.append_nil]
    exact hB.distinct.filter _
  · intro b g e
    obtain ⟨c1, c2⟩ := hB.best b g e
    refine ⟨by rw [hh]; exact c1, ?_⟩
    rw [hp2, List.mem_append]
    rintro (hc | hc)
    · exact c2 hc
    · exact (hs.best b g e).2 (hel.mem b hc)
  · intro r hr
    have := hel.last
    rw [hr] at this
    have hm := List.mem_of_getLast? this
    exact ⟨r, by rw [hp2]; exact List.mem_append_right _ hm, by rw [hh]; exact hB.kept r (hel.mem r hm)⟩

end BaumEva
