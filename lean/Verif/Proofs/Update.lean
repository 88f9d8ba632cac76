import Verif.Model.Data
import Verif.Proofs.NewGeneration
/-!
# `GaData.update`
-/
namespace BaumEva
variable {σ : Type}

theorem recordScores_ok {s s' : St σ} {u : Unit} (h : recordScores s = (.ok u, s')) :
    ∃ rb rm rw b m w, s.ga.population.getLast? = some rb ∧ s.ga.population[s.ga.population.length / 2]? = some rm ∧
      s.ga.population.head? = some rw ∧ (s.heap rb).score = some b ∧ (s.heap rm).score = some m ∧ (s.heap rw).score = some w ∧
      s' = { s with ga := { s.ga with
        histBest := s.ga.histBest ++ [b], histMed := s.ga.histMed ++ [m], histWorst := s.ga.histWorst ++ [w] } } := by
  unfold recordScores at h
  rw [bind_of_ok (getGa_run s)] at h
  cases h1 : s.ga.population.getLast? with
  | none => simp only [h1, throwE_ok] at h
  | some rb =>
  cases h2 : s.ga.population[s.ga.population.length / 2]? with
  | none => simp only [h1, h2, throwE_ok] at h
  | some rm =>
  cases h3 : s.ga.population.head? with
  | none => simp only [h1, h2, h3, throwE_ok] at h
  | some rw =>
  simp only [h1, h2, h3] at h
  obtain ⟨b, s1, f1, k1⟩ := bind_ok.mp h
  obtain ⟨e1, rfl⟩ := scoreOf_ok.mp f1
  obtain ⟨m, s2, f2, k2⟩ := bind_ok.mp k1
  obtain ⟨e2, rfl⟩ := scoreOf_ok.mp f2
  obtain ⟨w, s3, f3, k3⟩ := bind_ok.mp k2
  obtain ⟨e3, rfl⟩ := scoreOf_ok.mp f3
  rw [modGa_ok] at k3
  exact ⟨rb, rm, rw, b, m, w, rfl, rfl, rfl, e1, e2, e3, k3⟩

theorem replaceBest_run (r : Nat) (s : St σ) : replaceBest r s = (.ok (), { s with
    heap := upd s.heap s.next (s.heap r)
    next := s.next + 1
    ga := { s.ga with best := some (.single s.next s.ga.idxGeneration) } }) := rfl

/-- What `update` does to `best_solution` and the counter. -/
inductive Decided [LinearOrder σ] (s : St σ) (r : Nat) : St σ → Prop
  | first : s.ga.best = none → Decided s r { s with
      heap := upd s.heap s.next (s.heap r)
      next := s.next + 1
      ga := { s.ga with best := some (.single s.next s.ga.idxGeneration) } }
  | better {b g : Nat} {bs sc : σ} : s.ga.best = some (.single b g) → (s.heap b).score = some bs →
      (s.heap r).score = some sc → bs < sc → Decided s r { s with
      heap := upd s.heap s.next (s.heap r)
      next := s.next + 1
      ga := { s.ga with best := some (.single s.next s.ga.idxGeneration), noImprove := 0 } }
  | same {b g : Nat} {bs sc : σ} : s.ga.best = some (.single b g) → (s.heap b).score = some bs →
      (s.heap r).score = some sc → ¬ bs < sc → Decided s r { s with
      ga := { s.ga with noImprove := s.ga.noImprove + 1 } }

theorem decideBest_ok [LinearOrder σ] {r : Nat} {s s' : St σ} {u : Unit} (h : decideBest r s = (.ok u, s')) :
    Decided s r s' := by
  unfold decideBest at h
  rw [bind_of_ok (getGa_run s)] at h
  cases hb : s.ga.best with
  | none =>
    simp only [hb, replaceBest_run] at h
    obtain rfl := (Prod.mk.inj h).2.symm
    exact .first hb
  | some bst =>
    cases bst with
    | pareto _ _ => simp only [hb, throwE_ok] at h
    | single b g =>
      simp only [hb] at h
      obtain ⟨bs, s1, f1, k1⟩ := bind_ok.mp h
      obtain ⟨e1, rfl⟩ := scoreOf_ok.mp f1
      obtain ⟨sc, s2, f2, k2⟩ := bind_ok.mp k1
      obtain ⟨e2, rfl⟩ := scoreOf_ok.mp f2
      clear h k1 f1 f2
      rename' k2 => h
      rw [ite_run] at h
      split at h
      · rename_i hlt
        rw [bind_of_ok (replaceBest_run _ _), modGa_ok] at h
        subst h
        exact .better hb e1 e2 hlt
      · rename_i hlt
        rw [modGa_ok] at h
        subst h
        exact .same hb e1 e2 hlt

/-- Complete description of `GaData.update`. -/
theorem gaUpdate_ok [LinearOrder σ] {s s' : St σ} {u : Unit} (h : gaUpdate s = (.ok u, s')) :
    ∃ pop rb rm rw b m w, pop.Perm s.ga.population ∧ (s.ga.attrs.isSorted = true → pop = s.ga.population) ∧
      (s.ga.attrs.isSorted = false → SortedBy (fun r => (s.heap r).score) s.ga.population pop) ∧
      pop.getLast? = some rb ∧ pop[pop.length / 2]? = some rm ∧ pop.head? = some rw ∧
      (s.heap rb).score = some b ∧ (s.heap rm).score = some m ∧ (s.heap rw).score = some w ∧
      ∃ s1, Decided { s with
          ga := { s.ga with
            population := pop, attrs := { s.ga.attrs with isSorted := true }
            histBest := s.ga.histBest ++ [b], histMed := s.ga.histMed ++ [m], histWorst := s.ga.histWorst ++ [w] } } rb s1 ∧
        s' = { s1 with
          ga := { s1.ga with idxGeneration := s1.ga.idxGeneration + 1 }
          snaps := s1.snaps ++ [s1.ga.population.map s1.heap] } := by
  unfold gaUpdate at h
  obtain ⟨_, s1, h1, k⟩ := bind_ok.mp h
  obtain ⟨pop, rfl, hperm, hs1, hs2⟩ := ensureSorted_ok h1
  clear h
  obtain ⟨_, s2, h2, h⟩ := bind_ok.mp k
  clear k
  obtain ⟨rb, rm, rw', b, m, w, r1, r2, r3, r4, r5, r6, rfl⟩ := recordScores_ok h2
  simp only at r1 r2 r3 r4 r5 r6 h
  rw [bind_of_ok (getGa_run _)] at h
  simp only [r1] at h
  obtain ⟨_, s3, h3, k⟩ := bind_ok.mp h
  clear h
  rename' k => h
  have hd := decideBest_ok h3
  rw [bind_of_ok (modGa_run _ _)] at h
  unfold snapshot at h
  rw [modifyS_ok] at h
  exact ⟨pop, rb, rm, rw', b, m, w, hperm, hs1, hs2, r1, r2, r3, r4, r5, r6, s3, hd, h⟩

end BaumEva
