import Verif.Proofs.Sort
import Verif.Proofs.Safe
import Verif.Model.Selection
/-!
# Lemmas about selections
-/
namespace BaumEva
variable {σ α : Type}

/-! ## positions -/

theorem pyGet?_nat (l : List α) (i : Nat) : pyGet? l (i : Int) = l[i]? := by
  unfold pyGet?
  rw [if_pos (by omega)]
  simp

theorem pyGet?_mem {l : List α} {i : Int} {x : α} (h : pyGet? l i = some x) : x ∈ l := by
  unfold pyGet? at h
  split at h
  · exact List.mem_of_getElem? h
  · split at h
    · exact List.mem_of_getElem? h
    · simp at h

theorem popAt_ok {i : Int} {s s' : St σ} {r : Nat} :
    popAt i s = (.ok r, s') ↔ pyGet? s.ga.population i = some r ∧ s' = s := by
  unfold popAt
  rw [bind_of_ok (getGa_run s)]
  cases h : pyGet? s.ga.population i with
  | none => simp only [throwE_ok]; simp
  | some x => simp only [pure_ok]; simp [eq_comm]

theorem popAt_run {i : Nat} {s : St σ} {r : Nat} (h : s.ga.population[i]? = some r) :
    popAt (i : Int) s = (.ok r, s) := popAt_ok.mpr ⟨by rw [pyGet?_nat]; exact h, rfl⟩

/-! ## frames -/

/-- Equal but for the bookkeeping entries `idx_individ` and `rank`. -/
def SameCore (a b : Ind σ) : Prop := b = { a with idx := b.idx, rank := b.rank }

theorem SameCore.refl (a : Ind σ) : SameCore a a := rfl
theorem SameCore.trans {a b c : Ind σ} (h1 : SameCore a b) (h2 : SameCore b c) : SameCore a c := by
  unfold SameCore at *
  rw [h2, h1]
theorem SameCore.genotype {a b : Ind σ} (h : SameCore a b) : b.genotype = a.genotype := by rw [h]
theorem SameCore.phenotype {a b : Ind σ} (h : SameCore a b) : b.phenotype = a.phenotype := by rw [h]
theorem SameCore.score {a b : Ind σ} (h : SameCore a b) : b.score = a.score := by rw [h]
theorem SameCore.objScore {a b : Ind σ} (h : SameCore a b) : b.objScore = a.objScore := by rw [h]
theorem SameCore.feasible {a b : Ind σ} (h : SameCore a b) : b.feasible = a.feasible := by rw [h]

/-- `s'` is `s` after appending copies of the individuals `ps` to the parents (and drawing). -/
structure Copied (s s' : St σ) (ps : List Nat) : Prop where
  ga : s'.ga = { s.ga with parents := s.ga.parents ++ List.range' s.next ps.length }
  next : s'.next = s.next + ps.length
  new : ∀ i p, ps[i]? = some p → s'.heap (s.next + i) = s.heap p
  old : ∀ r, r < s.next → s'.heap r = s.heap r
  seed : s'.seed = s.seed
  mutLvl : s'.mutLvl = s.mutLvl
  conds : s'.conds = s.conds
  calls : s'.calls = s.calls
  snaps : s'.snaps = s.snaps

theorem Copied.nil_of_drew {s s' : St σ} (h : Drew s s') : Copied s s' [] := by
  obtain ⟨t, rfl⟩ := h
  exact ⟨by simp, by simp, by intro i g h; simp at h, fun _ _ => rfl, rfl, rfl, rfl, rfl, rfl⟩

theorem Copied.trans {a b c : St σ} {p1 p2 : List Nat} (h1 : Copied a b p1) (h2 : Copied b c p2)
    (hp : ∀ p ∈ p2, p < a.next) : Copied a c (p1 ++ p2) := by
  refine ⟨?_, ?_, ?_, ?_, h2.seed.trans h1.seed, h2.mutLvl.trans h1.mutLvl, h2.conds.trans h1.conds,
    h2.calls.trans h1.calls, h2.snaps.trans h1.snaps⟩
  · rw [h2.ga, h1.ga, h1.next]
    simp only [List.append_assoc, List.length_append]
    rw [List.range'_append_1]
  · rw [h2.next, h1.next]; simp; omega
  · intro i g hg
    by_cases hi : i < p1.length
    · rw [List.getElem?_append_left hi] at hg
      rw [h2.old _ (by rw [h1.next]; omega)]
      exact h1.new i g hg
    · rw [List.getElem?_append_right (by omega)] at hg
      have := h2.new _ g hg
      rw [h1.next, h1.old g (hp g (List.mem_of_getElem? hg))] at this
      rw [← this]
      congr 1
      omega
  · intro r hr
    rw [h2.old r (by rw [h1.next]; omega), h1.old r hr]

theorem addParent_copied {r : Nat} {s s' : St σ} {u : Unit} (h : addParent r s = (.ok u, s')) : Copied s s' [r] := by
  unfold addParent at h
  rw [bind_of_ok (getInd_run r s), bind_of_ok (alloc_run _ s), modGa_ok] at h
  subst h
  refine ⟨by simp, by simp, ?_, ?_, rfl, rfl, rfl, rfl, rfl⟩
  · intro i g hg
    cases i with
    | zero => simp only [List.getElem?_cons_zero, Option.some.injEq] at hg; subst hg; simp [upd]
    | succ i => simp at hg
  · intro x hx
    have : x ≠ s.next := Nat.ne_of_lt hx
    exact upd_ne this

theorem addTwo_copied {a b : Nat} {s s' : St σ} {u : Unit} (hb : b < s.next)
    (h : (do addParent a; addParent b) s = (.ok u, s')) : Copied s s' [a, b] := by
  obtain ⟨_, s1, h1, h2⟩ := bind_ok.mp h
  exact (addParent_copied h1).trans (addParent_copied h2) (by simpa using hb)

/-! ## tournaments -/

section
variable {κ : Type} [LinearOrder κ] {key : Ind σ → Except PyErr κ}

theorem getBestLoop_ok : ∀ {is : List Nat} {best : Nat} {s s' : St σ} {r : Nat},
    getBestLoop key best is s = (.ok r, s') → s' = s ∧
      (r = best ∨ ∃ i ∈ is, s.ga.population[i]? = some r) ∧
      (is ≠ [] → ∃ kb, key (s.heap best) = .ok kb) ∧
      (∀ i ∈ is, ∃ p kp kr, s.ga.population[i]? = some p ∧ key (s.heap p) = .ok kp ∧ key (s.heap r) = .ok kr ∧ kp ≤ kr) ∧
      (∀ kb, key (s.heap best) = .ok kb → ∃ kr, key (s.heap r) = .ok kr ∧ kb ≤ kr) := by
  intro is
  induction is with
  | nil =>
    intro best s s' r h
    rw [getBestLoop] at h
    obtain ⟨rfl, rfl⟩ := pure_ok.mp h
    exact ⟨rfl, Or.inl rfl, fun h => absurd rfl h, by simp, fun kb h => ⟨kb, h, le_rfl⟩⟩
  | cons i is ih =>
    intro best s s' r h
    rw [getBestLoop] at h
    obtain ⟨p, s1, h1, h2⟩ := bind_ok.mp h
    obtain ⟨e1, rfl⟩ := popAt_ok.mp h1
    rw [pyGet?_nat] at e1
    rw [bind_of_ok (getInd_run p s1), bind_of_ok (getInd_run best s1)] at h2
    obtain ⟨kx, s2, h3, h4⟩ := bind_ok.mp h2
    obtain ⟨e2, rfl⟩ := liftE_ok.mp h3
    obtain ⟨kb, s3, h5, h6⟩ := bind_ok.mp h4
    obtain ⟨e3, rfl⟩ := liftE_ok.mp h5
    obtain ⟨rfl, a, _, c, d⟩ := ih h6
    have hk : key (s'.heap (if kb < kx then p else best)) = .ok (if kb < kx then kx else kb) := by
      split
      · exact e2
      · exact e3
    obtain ⟨kr, f1, f2⟩ := d _ hk
    refine ⟨rfl, ?_, fun _ => ⟨kb, e3⟩, ?_, ?_⟩
    · rcases a with a | ⟨j, hj, a⟩
      · split at a
        · right; exact ⟨i, List.mem_cons_self, by rw [a]; exact e1⟩
        · left; exact a
      · right; exact ⟨j, List.mem_cons_of_mem _ hj, a⟩
    · intro j hj
      rcases List.mem_cons.mp hj with rfl | hj
      · refine ⟨p, kx, kr, e1, e2, f1, ?_⟩
        split at f2
        · exact f2
        · rename_i hlt; exact (not_lt.mp hlt).trans f2
      · exact c j hj
    · intro kb' hkb
      rw [e3] at hkb
      injection hkb with hkb
      subst hkb
      refine ⟨kr, f1, ?_⟩
      split at f2
      · rename_i hlt; exact hlt.le.trans f2
      · exact f2

/-- `r` is a best participant of the tournament with the positions `t`. -/
def Wins (key : Ind σ → Except PyErr κ) (s : St σ) (t : List Nat) (r : Nat) : Prop :=
  (∃ i ∈ t, s.ga.population[i]? = some r) ∧
  ∀ i ∈ t, ∃ p, s.ga.population[i]? = some p ∧
    (p = r ∨ ∃ kp kr, key (s.heap p) = .ok kp ∧ key (s.heap r) = .ok kr ∧ kp ≤ kr)

theorem getBest_ok {t : List Nat} {s s' : St σ} {r : Nat} (h : getBest key t s = (.ok r, s')) :
    s' = s ∧ Wins key s t r := by
  cases t with
  | nil => rw [getBest, throwE_ok] at h; exact h.elim
  | cons i is =>
    rw [getBest] at h
    obtain ⟨p, s1, h1, h2⟩ := bind_ok.mp h
    obtain ⟨e1, rfl⟩ := popAt_ok.mp h1
    rw [pyGet?_nat] at e1
    obtain ⟨rfl, a, b, c, d⟩ := getBestLoop_ok h2
    refine ⟨rfl, ?_, ?_⟩
    · rcases a with rfl | ⟨j, hj, a⟩
      · exact ⟨i, List.mem_cons_self, e1⟩
      · exact ⟨j, List.mem_cons_of_mem _ hj, a⟩
    · intro j hj
      rcases List.mem_cons.mp hj with rfl | hj
      · refine ⟨p, e1, ?_⟩
        by_cases his : is = []
        · subst his
          rcases a with a | ⟨j, hj, _⟩
          · left; exact a.symm
          · simp at hj
        · obtain ⟨kb, hkb⟩ := b his
          obtain ⟨kr, f1, f2⟩ := d kb hkb
          right; exact ⟨kb, kr, hkb, f1, f2⟩
      · obtain ⟨p', kp, kr, f1, f2, f3, f4⟩ := c j hj
        exact ⟨p', f1, Or.inr ⟨kp, kr, f2, f3, f4⟩⟩

/-- `r` won a tournament of `size` different positions of the population. -/
def WonTournament (key : Ind σ → Except PyErr κ) (size : Int) (s : St σ) (r : Nat) : Prop :=
  ∃ t : List Nat, (t.length : Int) = size ∧ t.Nodup ∧ (∀ i ∈ t, i < s.ga.population.length) ∧ Wins key s t r

theorem oneTournament_ok {size : Int} {s s' : St σ} {r : Nat} (h : oneTournament key size s = (.ok r, s')) :
    Drew s s' ∧ WonTournament key size s r := by
  unfold oneTournament at h
  rw [bind_of_ok (getGa_run s)] at h
  obtain ⟨t, s1, h1, h2⟩ := bind_ok.mp h
  obtain ⟨_, _, _, hl, hd⟩ := sample_ok h1
  obtain ⟨rfl, hw⟩ := getBest_ok h2
  obtain ⟨tp, rfl⟩ := hd
  refine ⟨⟨tp, rfl⟩, t, hl, sample_nodup h1 List.nodup_range, fun i hi => ?_, hw⟩
  simpa using sample_mem h1 i hi

theorem WonTournament.mem {size : Int} {s : St σ} {r : Nat} (h : WonTournament key size s r) :
    r ∈ s.ga.population := by
  obtain ⟨_, _, _, _, ⟨i, _, h⟩, _⟩ := h
  exact List.mem_of_getElem? h

theorem WonTournament.of_drew {size : Int} {s s' : St σ} {r : Nat} (hd : Drew s s')
    (h : WonTournament key size s' r) : WonTournament key size s r := by
  obtain ⟨t, rfl⟩ := hd; exact h

theorem secondParent_ok {size : Int} {first : Nat} : ∀ {f : Nat} {s s' : St σ} {r : Nat},
    secondParent key size first f s = (.ok r, s') → Drew s s' ∧ WonTournament key size s r ∧
      (s.heap r).idx ≠ (s.heap first).idx := by
  intro f
  induction f with
  | zero => intro s s' r h; rw [secondParent, throwE_ok] at h; exact h.elim
  | succ f ih =>
    intro s s' r h
    rw [secondParent] at h
    obtain ⟨b, s1, h1, h2⟩ := bind_ok.mp h
    obtain ⟨hd, hw⟩ := oneTournament_ok h1
    rw [bind_of_ok (getInd_run b s1), bind_of_ok (getInd_run first s1), ite_run] at h2
    split at h2
    · rename_i hne
      obtain ⟨rfl, rfl⟩ := pure_ok.mp h2
      refine ⟨hd, hw, ?_⟩
      obtain ⟨t, rfl⟩ := hd
      exact hne
    · obtain ⟨hd2, hw2, hne⟩ := ih h2
      refine ⟨hd.trans hd2, hw2.of_drew hd, ?_⟩
      obtain ⟨t, rfl⟩ := hd
      exact hne

theorem tournamentPair_ok {size : Int} {s s' : St σ} {u : Unit} (hal : ∀ r ∈ s.ga.population, r < s.next)
    (h : tournamentPair key size s = (.ok u, s')) :
    ∃ a b, Copied s s' [a, b] ∧ WonTournament key size s a ∧ WonTournament key size s b ∧
      (s.heap a).idx ≠ (s.heap b).idx := by
  unfold tournamentPair at h
  obtain ⟨a, s1, h1, h2⟩ := bind_ok.mp h
  rw [bind_of_ok (getS_run s1)] at h2
  obtain ⟨b, s2, h3, h4⟩ := bind_ok.mp h2
  obtain ⟨d1, w1⟩ := oneTournament_ok h1
  obtain ⟨d2, w2, hne⟩ := secondParent_ok h3
  have w2 := w2.of_drew d1
  have hb : b < s2.next := by
    have := hal b w2.mem
    obtain ⟨_, rfl⟩ := d1; obtain ⟨_, rfl⟩ := d2; exact this
  have hc := addTwo_copied hb h4
  have hc' := (Copied.nil_of_drew (d1.trans d2)).trans hc (by
    intro p hp
    simp at hp
    rcases hp with rfl | rfl
    · exact hal _ w1.mem
    · exact hal _ w2.mem)
  refine ⟨a, b, hc', w1, w2, ?_⟩
  obtain ⟨_, rfl⟩ := d1
  exact Ne.symm hne

end

/-! ## a loop of pairs -/

/-- Generic loop: every pass appends copies of two allocated individuals related by `P`. -/
theorem pairLoop {m : M σ Unit} {P : St σ → Nat → Nat → Prop} {pop : List Nat}
    (hP : ∀ s s' ps, Copied s s' ps → (∀ r ∈ s.ga.population, r < s.next) → s.ga.population = pop →
      ∀ a b, P s' a b → P s a b)
    (hm : ∀ s s' u, s.ga.population = pop → (∀ r ∈ s.ga.population, r < s.next) → m s = (.ok u, s') →
      ∃ a b, Copied s s' [a, b] ∧ a ∈ pop ∧ b ∈ pop ∧ P s a b) :
    ∀ {l : List α} {s s' : St σ} {u : Unit}, s.ga.population = pop → (∀ r ∈ s.ga.population, r < s.next) →
      forEach l (fun _ => m) s = (.ok u, s') →
      ∃ ps : List (Nat × Nat), ps.length = l.length ∧ Copied s s' (ps.flatMap fun p => [p.1, p.2]) ∧
        ∀ p ∈ ps, p.1 ∈ pop ∧ p.2 ∈ pop ∧ P s p.1 p.2 := by
  intro l
  induction l with
  | nil =>
    intro s s' u _ _ h
    rw [forEach_nil] at h
    simp at h; subst h
    exact ⟨[], rfl, Copied.nil_of_drew (Drew.refl _), by simp⟩
  | cons x xs ih =>
    intro s s' u hpop hal h
    obtain ⟨s1, h1, h2⟩ := forEach_cons_ok.mp h
    obtain ⟨a, b, c1, ha, hb, hab⟩ := hm s s1 () hpop hal h1
    have hpop1 : s1.ga.population = pop := by rw [c1.ga]; exact hpop
    have hal1 : ∀ r ∈ s1.ga.population, r < s1.next := by
      intro r hr
      rw [hpop1, ← hpop] at hr
      have := hal r hr
      rw [c1.next]; omega
    obtain ⟨ps, hl, c2, hps⟩ := ih hpop1 hal1 h2
    refine ⟨(a, b) :: ps, by simp [hl], ?_, ?_⟩
    · rw [List.flatMap_cons]
      refine c1.trans c2 ?_
      intro p hp
      rw [List.mem_flatMap] at hp
      obtain ⟨q, hq, hp⟩ := hp
      obtain ⟨q1, q2, _⟩ := hps q hq
      rw [← hpop] at q1 q2
      simp at hp
      rcases hp with rfl | rfl
      · exact hal _ q1
      · exact hal _ q2
    · intro p hp
      rcases List.mem_cons.mp hp with rfl | hp
      · exact ⟨ha, hb, hab⟩
      · obtain ⟨q1, q2, q3⟩ := hps p hp
        exact ⟨q1, q2, hP s s1 _ c1 hal hpop _ _ q3⟩

/-- What is read of the population is not changed by adding parents. -/
theorem WonTournament.of_copied {κ : Type} [LinearOrder κ] {key : Ind σ → Except PyErr κ} {size : Int} {s s' : St σ}
    {ps : List Nat} {r : Nat} (hc : Copied s s' ps)
    (hal : ∀ r ∈ s.ga.population, r < s.next) (h : WonTournament key size s' r) : WonTournament key size s r := by
  obtain ⟨t, a, b, c, ⟨i, hi, e⟩, d⟩ := h
  have hp : s'.ga.population = s.ga.population := by rw [hc.ga]
  rw [hp] at c e
  refine ⟨t, a, b, c, ⟨i, hi, e⟩, ?_⟩
  intro j hj
  obtain ⟨p, e1, e2⟩ := d j hj
  rw [hp] at e1
  refine ⟨p, e1, ?_⟩
  rcases e2 with e2 | ⟨kp, kr, f1, f2, f3⟩
  · left; exact e2
  · right
    rw [hc.old p (hal p (List.mem_of_getElem? e1))] at f1
    rw [hc.old r (hal r (List.mem_of_getElem? e))] at f2
    exact ⟨kp, kr, f1, f2, f3⟩

theorem tournament_ok {κ : Type} [LinearOrder κ] {key : Ind σ → Except PyErr κ} {size : Int} {m : Nat}
    {s s' : St σ} {u : Unit} (hal : ∀ r ∈ s.ga.population, r < s.next)
    (h : tournament key size m s = (.ok u, s')) :
    ∃ ps : List (Nat × Nat), ps.length = numPairs s.ga m ∧ Copied s s' (ps.flatMap fun p => [p.1, p.2]) ∧
      ∀ p ∈ ps, p.1 ∈ s.ga.population ∧ p.2 ∈ s.ga.population ∧
        (WonTournament key size s p.1 ∧ WonTournament key size s p.2 ∧ (s.heap p.1).idx ≠ (s.heap p.2).idx) := by
  unfold tournament at h
  rw [bind_of_ok (getGa_run s)] at h
  obtain ⟨ps, hl, hc, hp⟩ := pairLoop (pop := s.ga.population)
    (P := fun s a b => WonTournament key size s a ∧ WonTournament key size s b ∧ (s.heap a).idx ≠ (s.heap b).idx)
    (by
      intro s1 s2 ps hc hal1 _ a b ⟨w1, w2, hne⟩
      have v1 := w1.of_copied hc hal1
      have v2 := w2.of_copied hc hal1
      rw [hc.old a (hal1 a v1.mem), hc.old b (hal1 b v2.mem)] at hne
      exact ⟨v1, v2, hne⟩)
    (by
      intro s1 s2 u hp hal1 h1
      obtain ⟨a, b, hc, w1, w2, hne⟩ := tournamentPair_ok hal1 h1
      exact ⟨a, b, hc, hp ▸ w1.mem, hp ▸ w2.mem, w1, w2, hne⟩) rfl hal h
  exact ⟨ps, by rw [hl, List.length_range], hc, hp⟩

/-! ## BaseSelection -/

theorem baseSelection_ok {s s' : St σ} {u : Unit} (h : baseSelection s = (.ok u, s')) :
    s'.ga = { s.ga with parents := [] } ∧ s'.next = s.next ∧ s'.seed = s.seed ∧ s'.mutLvl = s.mutLvl ∧
    s'.conds = s.conds ∧ s'.calls = s.calls ∧ s'.snaps = s.snaps ∧
    (∀ r, r ∉ s.ga.population → s'.heap r = s.heap r) ∧
    (∀ r, ∃ k, s'.heap r = { s.heap r with idx := k }) ∧
    (s.ga.population.Nodup → ∀ (j r : Nat), s.ga.population[j]? = some r → s'.heap r = { s.heap r with idx := some j }) := by
  unfold baseSelection at h
  obtain ⟨s1, e1, ⟨hp, rfl⟩, e3, e4, e5⟩ := resetIdx_run s
  rw [bind_of_ok e1] at h
  obtain ⟨_, s2, h1, h2⟩ := bind_ok.mp h
  obtain ⟨t, rfl⟩ := reseed_ok h1
  rw [modGa_ok] at h2
  subst h2
  exact ⟨rfl, rfl, rfl, rfl, rfl, rfl, rfl, e3, e4, e5⟩

theorem checkTournament_ok {size : Int} {s s' : St σ} {u : Unit} (h : checkTournament size s = (.ok u, s')) :
    s' = s ∧ 2 ≤ size ∧ size < s.ga.attrs.numIndivid := by
  unfold checkTournament at h
  rw [bind_of_ok (getGa_run s), ite_run] at h
  split at h
  · rw [throwE_ok] at h; exact h.elim
  · rename_i hc
    push Not at hc
    obtain ⟨_, rfl⟩ := pure_ok.mp h
    exact ⟨rfl, hc⟩

/-! ## the common effect of all selections -/

/-- Effect of a selection: new parents, which are copies of members; members change at most in `idx_individ`
and `rank`; everything else is as before. -/
structure Selected (s s' : St σ) : Prop where
  ga : s'.ga = { s.ga with parents := s'.ga.parents }
  fresh : ∀ r ∈ s'.ga.parents, s.next ≤ r ∧ r < s'.next ∧ ∃ p ∈ s.ga.population, SameCore (s.heap p) (s'.heap r)
  next : s.next ≤ s'.next
  core : ∀ r, r < s.next → SameCore (s.heap r) (s'.heap r)
  old : ∀ r, r < s.next → r ∉ s.ga.population → s'.heap r = s.heap r
  seed : s'.seed = s.seed
  mutLvl : s'.mutLvl = s.mutLvl
  conds : s'.conds = s.conds
  calls : s'.calls = s.calls
  snaps : s'.snaps = s.snaps

/-- Selections one after the other. -/
theorem Selected.trans {a b c : St σ} (hal : ∀ r ∈ a.ga.population, r < a.next) (h1 : Selected a b)
    (h2 : Selected b c) : Selected a c := by
  have hp : b.ga.population = a.ga.population := by rw [h1.ga]
  refine ⟨?_, ?_, h1.next.trans h2.next, ?_, ?_, h2.seed.trans h1.seed, h2.mutLvl.trans h1.mutLvl,
    h2.conds.trans h1.conds, h2.calls.trans h1.calls, h2.snaps.trans h1.snaps⟩
  · rw [h2.ga, h1.ga]
  · intro r hr
    obtain ⟨x1, x2, p, hpm, hcore⟩ := h2.fresh r hr
    rw [hp] at hpm
    exact ⟨h1.next.trans x1, x2, p, hpm, (h1.core p (hal p hpm)).trans hcore⟩
  · intro r hr
    exact (h1.core r hr).trans (h2.core r (hr.trans_le h1.next))
  · intro r hr hn
    rw [h2.old r (hr.trans_le h1.next) (by rw [hp]; exact hn), h1.old r hr hn]

/-- Only bookkeeping entries of members changed. -/
structure Relabelled (s s' : St σ) : Prop where
  ga : s'.ga = { s.ga with parents := s'.ga.parents }
  next : s'.next = s.next
  core : ∀ r, SameCore (s.heap r) (s'.heap r)
  old : ∀ r, r ∉ s.ga.population → s'.heap r = s.heap r
  seed : s'.seed = s.seed
  mutLvl : s'.mutLvl = s.mutLvl
  conds : s'.conds = s.conds
  calls : s'.calls = s.calls
  snaps : s'.snaps = s.snaps

theorem Relabelled.trans {a b c : St σ} (h1 : Relabelled a b) (h2 : Relabelled b c) : Relabelled a c := by
  have hp : b.ga.population = a.ga.population := by rw [h1.ga]
  refine ⟨?_, h2.next.trans h1.next, fun r => (h1.core r).trans (h2.core r), ?_, h2.seed.trans h1.seed,
    h2.mutLvl.trans h1.mutLvl, h2.conds.trans h1.conds, h2.calls.trans h1.calls, h2.snaps.trans h1.snaps⟩
  · rw [h2.ga, h1.ga]
  · intro r hr
    rw [h2.old r (by rw [hp]; exact hr), h1.old r hr]

theorem Relabelled.refl (s : St σ) : Relabelled s s :=
  ⟨rfl, rfl, fun _ => SameCore.refl _, fun _ _ => rfl, rfl, rfl, rfl, rfl, rfl⟩

theorem baseSelection_relabelled {s s' : St σ} {u : Unit} (h : baseSelection s = (.ok u, s')) :
    Relabelled s s' ∧ s'.ga.parents = [] := by
  obtain ⟨a1, a2, a3, a4, a5, a6, a7, a8, a9, _⟩ := baseSelection_ok h
  refine ⟨⟨by rw [a1], a2, ?_, a8, a3, a4, a5, a6, a7⟩, by rw [a1]⟩
  intro r
  obtain ⟨k, e⟩ := a9 r
  unfold SameCore
  rw [e]

theorem Selected.of_copied {s s1 s' : St σ} {ps : List Nat} (hr : Relabelled s s1) (hpar : s1.ga.parents = [])
    (hc : Copied s1 s' ps) (hps : ∀ p ∈ ps, p ∈ s.ga.population) :
    Selected s s' := by
  have hn := hr.next
  refine ⟨?_, ?_, by rw [hc.next]; omega, ?_, ?_, hc.seed.trans hr.seed, hc.mutLvl.trans hr.mutLvl,
    hc.conds.trans hr.conds, hc.calls.trans hr.calls, hc.snaps.trans hr.snaps⟩
  · rw [hc.ga, hr.ga]
  · intro r h
    rw [hc.ga] at h
    simp only [hpar, List.nil_append] at h
    rw [List.mem_range'_1] at h
    have hlt : r - s1.next < ps.length := by omega
    refine ⟨by omega, by rw [hc.next]; omega, ps[r - s1.next], hps _ (List.getElem_mem hlt), ?_⟩
    have := hc.new (r - s1.next) _ (List.getElem?_eq_getElem hlt)
    rw [show s1.next + (r - s1.next) = r by omega] at this
    rw [this]
    exact hr.core _
  · intro r h
    rw [hc.old r (by omega)]
    exact hr.core r
  · intro r h hm
    rw [hc.old r (by omega)]
    exact hr.old r hm

/-- Complete description of `TournamentSelection.execute`. -/
theorem tournamentExec_ok [LinearOrder σ] {size : Int} {s s' : St σ} {u : Unit}
    (hal : ∀ r ∈ s.ga.population, r < s.next) (h : tournamentExec size s = (.ok u, s')) :
    2 ≤ size ∧ size < s.ga.attrs.numIndivid ∧
    ∃ (s1 : St σ) (ps : List (Nat × Nat)), Relabelled s s1 ∧ s1.ga.parents = [] ∧
      (s.ga.population.Nodup → ∀ (j r : Nat), s.ga.population[j]? = some r → s1.heap r = { s.heap r with idx := some j }) ∧
      ps.length = numPairs s.ga 1 ∧
      Copied s1 s' (ps.flatMap fun p => [p.1, p.2]) ∧
      ∀ p ∈ ps, p.1 ∈ s.ga.population ∧ p.2 ∈ s.ga.population ∧ (s1.heap p.1).idx ≠ (s1.heap p.2).idx ∧
        WonTournament scoreKey size s1 p.1 ∧ WonTournament scoreKey size s1 p.2 := by
  unfold tournamentExec at h
  obtain ⟨_, s1, h1, h2⟩ := bind_ok.mp h
  obtain ⟨rfl, c1, c2⟩ := checkTournament_ok h1
  obtain ⟨_, s2, h3, h4⟩ := bind_ok.mp h2
  obtain ⟨hr, hpar⟩ := baseSelection_relabelled h3
  obtain ⟨_, _, _, _, _, _, _, _, _, hidx⟩ := baseSelection_ok h3
  have hpop : s2.ga.population = s1.ga.population := by rw [hr.ga]
  obtain ⟨ps, hl, hc, hp⟩ := tournament_ok (by rw [hpop, hr.next]; exact hal) h4
  have hnp : numPairs s2.ga 1 = numPairs s1.ga 1 := by rw [hr.ga]; rfl
  refine ⟨c1, c2, s2, ps, hr, hpar, hidx, hl.trans hnp, hc, ?_⟩
  intro p hpm
  obtain ⟨a, b, c, d, e⟩ := hp p hpm
  rw [hpop] at a b
  exact ⟨a, b, e, c, d⟩

theorem tournamentExec_selected [LinearOrder σ] {size : Int} {s s' : St σ} {u : Unit}
    (hal : ∀ r ∈ s.ga.population, r < s.next) (h : tournamentExec size s = (.ok u, s')) :
    Selected s s' ∧ s'.ga.parents.length = 2 * numPairs s.ga 1 := by
  obtain ⟨_, _, s1, ps, hr, hpar, _, hl, hc, hp⟩ := tournamentExec_ok hal h
  refine ⟨Selected.of_copied hr hpar hc ?_, ?_⟩
  · intro p hpm
    obtain ⟨q, hq, hpm⟩ := List.mem_flatMap.mp hpm
    obtain ⟨a, b, _⟩ := hp q hq
    simp at hpm
    rcases hpm with rfl | rfl
    · exact a
    · exact b
  · rw [hc.ga]
    simp [hpar, List.length_flatMap, hl]
    omega

/-! ## fuel -/

theorem sampleAux_tape : ∀ {k : Nat} {l : List α} {s s' : St σ} {r : List α},
    sampleAux k l s = (.ok r, s') → s.tape.length = s'.tape.length + k := by
  intro k
  induction k with
  | zero => intro l s s' r h; rw [sampleAux, pure_ok] at h; rw [h.2]; omega
  | succ k ih =>
    intro l s s' r h
    rw [sampleAux] at h
    obtain ⟨x, s1, h1, h2⟩ := bind_ok.mp h
    obtain ⟨t, e1, rfl⟩ := draw_ok.mp h1
    cases hx : l[x % l.length]? with
    | none => rw [hx] at h2; simp only [throwE_ok] at h2
    | some w =>
      rw [hx] at h2
      simp only at h2
      obtain ⟨rs, s2, h3, h4⟩ := bind_ok.mp h2
      rw [pure_ok] at h4
      obtain ⟨rfl, rfl⟩ := h4
      have := ih h3
      simp only at this
      rw [e1, List.length_cons, this]; omega

/-- A successful tournament consumes at least one draw. -/
theorem oneTournament_tape {κ : Type} [LinearOrder κ] {key : Ind σ → Except PyErr κ} {size : Int} {s s' : St σ} {r : Nat}
    (h : oneTournament key size s = (.ok r, s')) : s'.tape.length < s.tape.length := by
  unfold oneTournament at h
  rw [bind_of_ok (getGa_run s)] at h
  obtain ⟨t, s1, h1, h2⟩ := bind_ok.mp h
  obtain ⟨rfl, hw⟩ := getBest_ok h2
  obtain ⟨⟨i, hi, _⟩, _⟩ := hw
  have hl : t.length ≠ 0 := by intro e; rw [List.length_eq_zero_iff.mp e] at hi; simp at hi
  obtain ⟨k0, _, _, hk, _⟩ := sample_ok h1
  unfold sample at h1
  split at h1
  · rw [throwE_ok] at h1; exact h1.elim
  · have := sampleAux_tape h1
    omega

/-- The fuel of `secondParent` is irrelevant once it exceeds the number of remaining draws: the `while` loop
of the code ends only by finding a second parent, by an exception or with the tape. -/
theorem secondParent_fuel {κ : Type} [LinearOrder κ] {key : Ind σ → Except PyErr κ} {size : Int} {first : Nat} :
    ∀ {f g : Nat} {s : St σ}, s.tape.length < f → s.tape.length < g →
      secondParent key size first f s = secondParent key size first g s := by
  intro f
  induction f with
  | zero => intro g s h; omega
  | succ f ih =>
    intro g s hf hg
    cases g with
    | zero => omega
    | succ g =>
      rw [secondParent, secondParent, bind_run, bind_run]
      rcases hm : oneTournament key size s with ⟨r, s1⟩
      cases r with
      | error e => rfl
      | ok b =>
        have := oneTournament_tape hm
        simp only
        rw [bind_of_ok (getInd_run b s1), bind_of_ok (getInd_run first s1), bind_of_ok (getInd_run b s1),
          bind_of_ok (getInd_run first s1), ite_run, ite_run]
        split
        · rfl
        · exact ih (by omega) (by omega)

/-! ## The wheel in exact arithmetic -/

theorem sumR_id : ∀ (ws : List ℚ) (acc : ℚ), sumR id ws acc = acc + ws.sum := by
  intro ws
  induction ws with
  | nil => intro acc; simp [sumR]
  | cons w ws ih => intro acc; simp only [sumR, ih, id, List.sum_cons]; ring

theorem cumSharesR_id (total : ℚ) : ∀ (ws : List ℚ) (acc : ℚ), cumSharesR id total ws acc = cumShares total ws acc := by
  intro ws
  induction ws with
  | nil => intro acc; rfl
  | cons w ws ih => intro acc; simp only [cumSharesR, cumShares, ih, id]

theorem selectionScoresR_id (ws : List ℚ) : selectionScoresR id (sumR id ws 0) ws = selectionScores ws := by
  unfold selectionScoresR selectionScores
  rw [sumR_id, zero_add, cumSharesR_id]

theorem argminLoopR_id (r : ℚ) : ∀ (xs : List ℚ) (i best : Nat) (d : ℚ),
    argminLoopR id r xs i best d = argminLoop r xs i best d := by
  intro xs
  induction xs with
  | nil => intro i best d; rfl
  | cons x xs ih => intro i best d; simp only [argminLoopR, argminLoop, ih, id]

theorem rouletteIndexR_id (sel : List ℚ) (r : ℚ) : rouletteIndexR id sel r = rouletteIndex sel r := by
  have : argminDistR id sel r = argminDist sel r := by
    cases sel with
    | nil => rfl
    | cons x xs => simp only [argminDistR, argminDist, argminLoopR_id, id]
  unfold rouletteIndexR rouletteIndex
  rw [this]

theorem random01_tape {s s' : St σ} {q : ℚ} (h : random01 s = (.ok q, s')) :
    ∃ x, s.tape = x :: s'.tape ∧ s' = { s with tape := s'.tape } ∧ q = ((x % 2 ^ 53 : Nat) : ℚ) / ((2 ^ 53 : Nat) : ℚ) := by
  unfold random01 at h
  obtain ⟨x, s1, h1, h2⟩ := bind_ok.mp h
  obtain ⟨t, e1, rfl⟩ := draw_ok.mp h1
  rw [pure_ok] at h2
  obtain ⟨rfl, rfl⟩ := h2
  exact ⟨x, e1, rfl, rfl⟩

theorem getIndex_ok {sel : List ℚ} {s s' : St σ} {i : Int} (h : getIndex sel s = (.ok i, s')) :
    ∃ r, 0 ≤ r ∧ r < 1 ∧ i = rouletteIndexR s.ga.attrs.arith.rnd sel r ∧ Drew s s' ∧ s'.tape.length < s.tape.length := by
  unfold getIndex at h
  rw [bind_of_ok (getGa_run s)] at h
  obtain ⟨r, s1, h1, h2⟩ := bind_ok.mp h
  obtain ⟨rfl, rfl⟩ := pure_ok.mp h2
  obtain ⟨a, b, c⟩ := random01_ok h1
  obtain ⟨x, e, _⟩ := random01_tape h1
  exact ⟨r, a, b, rfl, c, by rw [e]; simp⟩

/-- The fuel of `secondIndex` is irrelevant once it exceeds the number of remaining draws. -/
theorem secondIndex_fuel {sel : List ℚ} {first : Int} : ∀ {f g : Nat} {s : St σ}, s.tape.length < f →
    s.tape.length < g → secondIndex sel first f s = secondIndex sel first g s := by
  intro f
  induction f with
  | zero => intro g s h; omega
  | succ f ih =>
    intro g s hf hg
    cases g with
    | zero => omega
    | succ g =>
      rw [secondIndex, secondIndex, bind_run, bind_run]
      rcases hm : getIndex sel s with ⟨r, s1⟩
      cases r with
      | error e => rfl
      | ok b =>
        obtain ⟨_, _, _, _, _, ht⟩ := getIndex_ok hm
        simp only
        rw [ite_run, ite_run]
        split
        · rfl
        · exact ih (by omega) (by omega)

/-! ## failures of tournaments -/

section
variable {κ : Type} [LinearOrder κ] {key : Ind σ → Except PyErr κ}

/-- Every member has a key. -/
def Keyed (key : Ind σ → Except PyErr κ) (s : St σ) : Prop := ∀ r ∈ s.ga.population, ∃ v, key (s.heap r) = .ok v

theorem getBest_safe {t : List Nat} {s : St σ} (ht : t ≠ []) (hin : ∀ i ∈ t, i < s.ga.population.length)
    (hkey : Keyed key s) : ∃ r, getBest key t s = (.ok r, s) := by
  have aux : ∀ (is : List Nat) (best : Nat), best ∈ s.ga.population → (∀ i ∈ is, i < s.ga.population.length) →
      ∃ r, getBestLoop key best is s = (.ok r, s) := by
    intro is
    induction is with
    | nil => intro best _ _; exact ⟨best, rfl⟩
    | cons i is ih =>
      intro best hb his
      have hi := his i List.mem_cons_self
      have hm := List.getElem_mem hi
      obtain ⟨v, e⟩ := hkey _ hm
      obtain ⟨w, e2⟩ := hkey _ hb
      rw [getBestLoop, bind_of_ok (popAt_run (List.getElem?_eq_getElem hi)), bind_of_ok (getInd_run _ _),
        bind_of_ok (getInd_run _ _), bind_of_ok ((liftE_run _ _).trans (congrArg (·, s) e)),
        bind_of_ok ((liftE_run _ _).trans (congrArg (·, s) e2))]
      refine ih _ ?_ (fun j hj => his j (List.mem_cons_of_mem _ hj))
      split
      · exact hm
      · exact hb
  cases t with
  | nil => exact absurd rfl ht
  | cons i is =>
    have hi := hin i List.mem_cons_self
    rw [getBest, bind_of_ok (popAt_run (List.getElem?_eq_getElem hi))]
    exact aux is _ (List.getElem_mem hi) (fun j hj => hin j (List.mem_cons_of_mem _ hj))

theorem oneTournament_safe {size : Int} {s : St σ} (h1 : 1 ≤ size) (h2 : size ≤ s.ga.population.length)
    (hkey : Keyed key s) : Safe (oneTournament key size) s := by
  unfold oneTournament
  refine Safe.bind_ok (getGa_run s) (Safe.bind (Safe.sample s (by omega) (by simpa using h2)) ?_)
  intro t s1 h
  obtain ⟨_, _, _, hl, ⟨tp, rfl⟩⟩ := sample_ok h
  obtain ⟨r, e⟩ := getBest_safe (s := { s with tape := tp }) (key := key) (t := t)
    (by rintro rfl; simp at hl; omega) (fun i hi => by simpa using sample_mem h i hi) hkey
  exact Safe.of_ok e

theorem secondParent_safe {size : Int} {first : Nat} : ∀ {f : Nat} {s : St σ}, 1 ≤ size → size ≤ s.ga.population.length →
    Keyed key s → s.tape.length < f → Safe (secondParent key size first f) s := by
  intro f
  induction f with
  | zero => intro s _ _ _ hf; omega
  | succ f ih =>
    intro s h1 h2 hk hf
    rw [secondParent]
    refine Safe.bind (oneTournament_safe h1 h2 hk) ?_
    intro b s1 h
    have hlt := oneTournament_tape h
    obtain ⟨⟨t, rfl⟩, _⟩ := oneTournament_ok h
    refine Safe.bind_ok (getInd_run _ _) (Safe.bind_ok (getInd_run _ _) (Safe.ite (fun _ => Safe.pure _ _) (fun _ => ?_)))
    exact ih (s := { s with tape := t }) h1 h2 hk (by simp only at hlt ⊢; omega)

theorem addParent_safe (r : Nat) (s : St σ) : Safe (addParent r) s :=
  Safe.of_ok (s' := _) (a := ()) rfl

theorem tournament_safe {size : Int} {m : Nat} {s : St σ} (h1 : 1 ≤ size) (h2 : size ≤ s.ga.population.length)
    (hk : Keyed key s) (hal : ∀ r ∈ s.ga.population, r < s.next) : Safe (tournament key size m) s := by
  unfold tournament
  refine Safe.bind_ok (getGa_run s) ?_
  refine Safe.forEach (fun s => size ≤ s.ga.population.length ∧ Keyed key s ∧ ∀ r ∈ s.ga.population, r < s.next) ?_ ?_
    ⟨h2, hk, hal⟩
  · rintro _ _ s1 ⟨a, b, c⟩
    unfold tournamentPair
    refine Safe.bind (oneTournament_safe h1 a b) ?_
    intro r s2 h
    obtain ⟨⟨t, rfl⟩, _⟩ := oneTournament_ok h
    refine Safe.bind_ok (getS_run _) (Safe.bind (secondParent_safe (s := { s1 with tape := t }) h1 a b (Nat.lt_succ_self _)) ?_)
    intro r2 s3 _
    exact Safe.bind (addParent_safe _ _) (fun _ _ _ => addParent_safe _ _)
  · rintro _ _ s1 s2 ⟨a, b, c⟩ h
    obtain ⟨_, _, hc, _⟩ := tournamentPair_ok c h
    have hp : s2.ga.population = s1.ga.population := by rw [hc.ga]
    refine ⟨by rw [hp]; exact a, ?_, ?_⟩
    · intro r hr
      rw [hp] at hr
      rw [hc.old r (c r hr)]
      exact b r hr
    · intro r hr
      rw [hp] at hr
      have := c r hr
      rw [hc.next]; omega

end

theorem baseSelection_run (s : St σ) : ∃ s', baseSelection s = (.ok (), s') := by
  unfold baseSelection newPopulation
  obtain ⟨s1, e1, _⟩ := resetIdx_run s
  obtain ⟨s2, e2, _⟩ := reseed_drew s1
  exact ⟨_, by rw [bind_of_ok e1, bind_of_ok e2, modGa_run]⟩

/-- Keys that do not read the bookkeeping entries. -/
theorem Keyed.relabelled {κ : Type} {key : Ind σ → Except PyErr κ} (hkey : ∀ a b, SameCore a b → key b = key a)
    {s s' : St σ} (hr : Relabelled s s') (h : Keyed key s) : Keyed key s' := by
  intro r hm
  rw [hr.ga] at hm
  rw [hkey _ _ (hr.core r)]
  exact h r hm

theorem tournamentExec_safe_of [LinearOrder σ] {size : Int} {s : St σ} (h1 : 2 ≤ size) (h2 : size < s.ga.attrs.numIndivid)
    (h3 : size ≤ s.ga.population.length) (hal : ∀ r ∈ s.ga.population, r < s.next)
    (hk : Keyed scoreKey s) : Safe (tournamentExec size) s := by
  unfold tournamentExec checkTournament
  have hc : (getGa >>= fun ga => if size < 2 ∨ (ga.attrs.numIndivid : Int) ≤ size then throwE .exception else pure ()) s
      = (.ok (), s) := by
    rw [bind_of_ok (getGa_run s), ite_run, if_neg (by omega)]
    rfl
  refine Safe.bind_ok hc ?_
  obtain ⟨s1, e1⟩ := baseSelection_run s
  obtain ⟨hr, _⟩ := baseSelection_relabelled e1
  have hp : s1.ga.population = s.ga.population := by rw [hr.ga]
  refine Safe.bind_ok e1 (tournament_safe (by omega) (by rw [hp]; omega) (hk.relabelled ?_ hr) (by rw [hp, hr.next]; exact hal))
  intro a b h
  unfold scoreKey
  rw [h.score]

theorem tournamentExec_safe [LinearOrder σ] {size : Int} {s : St σ} (h1 : 2 ≤ size) (h2 : size < s.ga.attrs.numIndivid)
    (h3 : s.ga.attrs.numIndivid ≤ s.ga.population.length) (hal : ∀ r ∈ s.ga.population, r < s.next)
    (hk : Keyed scoreKey s) : Safe (tournamentExec size) s := tournamentExec_safe_of h1 h2 (by omega) hal hk

/-! ## roulette -/

theorem secondIndex_ok {sel : List ℚ} {first : Int} : ∀ {f : Nat} {s s' : St σ} {i : Int},
    secondIndex sel first f s = (.ok i, s') → (∃ r, 0 ≤ r ∧ r < 1 ∧ i = rouletteIndexR s.ga.attrs.arith.rnd sel r) ∧ i ≠ first ∧ Drew s s' := by
  intro f
  induction f with
  | zero => intro s s' r h; rw [secondIndex, throwE_ok] at h; exact h.elim
  | succ f ih =>
    intro s s' i h
    rw [secondIndex] at h
    obtain ⟨b, s1, h1, h2⟩ := bind_ok.mp h
    obtain ⟨r, a, b', c, d, _⟩ := getIndex_ok h1
    rw [ite_run] at h2
    split at h2
    · rename_i hne
      obtain ⟨rfl, rfl⟩ := pure_ok.mp h2
      exact ⟨⟨r, a, b', c⟩, hne, d⟩
    · obtain ⟨x, y, z⟩ := ih h2
      have e : s1.ga = s.ga := by obtain ⟨_, rfl⟩ := d; rfl
      rw [e] at x
      exact ⟨x, y, d.trans z⟩

/-- Two different indices produced by the wheel, and the members at them. -/
def SpunPair (rnd : ℚ → ℚ) (sel : List ℚ) (pop : List Nat) (a b : Nat) : Prop :=
  ∃ (i j : Int) (q r : ℚ), 0 ≤ q ∧ q < 1 ∧ 0 ≤ r ∧ r < 1 ∧ i = rouletteIndexR rnd sel q ∧ j = rouletteIndexR rnd sel r ∧ i ≠ j ∧
    pyGet? pop i = some a ∧ pyGet? pop j = some b

theorem roulettePair_ok {sel : List ℚ} {s s' : St σ} {u : Unit} (hal : ∀ r ∈ s.ga.population, r < s.next)
    (h : roulettePair sel s = (.ok u, s')) :
    ∃ a b, Copied s s' [a, b] ∧ a ∈ s.ga.population ∧ b ∈ s.ga.population ∧ SpunPair s.ga.attrs.arith.rnd sel s.ga.population a b := by
  unfold roulettePair at h
  obtain ⟨i, s1, h1, h2⟩ := bind_ok.mp h
  obtain ⟨q, q0, q1, hi, d1, _⟩ := getIndex_ok h1
  rw [bind_of_ok (getS_run s1)] at h2
  obtain ⟨j, s2, h3, h4⟩ := bind_ok.mp h2
  obtain ⟨⟨r, r0, r1, hj⟩, hne, d2⟩ := secondIndex_ok h3
  rw [show s1.ga = s.ga by obtain ⟨_, rfl⟩ := d1; rfl] at hj
  obtain ⟨a, s3, h5, h6⟩ := bind_ok.mp h4
  obtain ⟨e1, rfl⟩ := popAt_ok.mp h5
  obtain ⟨_, s4, h7, h8⟩ := bind_ok.mp h6
  have c1 := addParent_copied h7
  obtain ⟨b, s5, h9, h10⟩ := bind_ok.mp h8
  obtain ⟨e2, rfl⟩ := popAt_ok.mp h9
  have c2 := addParent_copied h10
  have d := d1.trans d2
  have hp3 : s3.ga.population = s.ga.population := by obtain ⟨_, rfl⟩ := d; rfl
  have hp5 : s5.ga.population = s.ga.population := by rw [c1.ga]; exact hp3
  have hn : s3.next = s.next := by obtain ⟨_, rfl⟩ := d; rfl
  rw [hp3] at e1
  rw [hp5] at e2
  have ha := pyGet?_mem e1
  have hb := pyGet?_mem e2
  refine ⟨a, b, ?_, ha, hb, i, j, q, r, q0, q1, r0, r1, hi, hj, Ne.symm hne, e1, e2⟩
  have c12 := c1.trans c2 (by simp; rw [hn]; exact hal b hb)
  exact (Copied.nil_of_drew d).trans c12 (by
    intro p hp
    simp at hp
    rcases hp with rfl | rfl
    · exact hal _ ha
    · exact hal _ hb)

theorem roulette_ok {sel : List ℚ} {m : Nat} {s s' : St σ} {u : Unit} (hal : ∀ r ∈ s.ga.population, r < s.next)
    (h : roulette sel m s = (.ok u, s')) :
    ∃ ps : List (Nat × Nat), ps.length = numPairs s.ga m ∧ Copied s s' (ps.flatMap fun p => [p.1, p.2]) ∧
      ∀ p ∈ ps, p.1 ∈ s.ga.population ∧ p.2 ∈ s.ga.population ∧ SpunPair s.ga.attrs.arith.rnd sel s.ga.population p.1 p.2 := by
  unfold roulette at h
  rw [bind_of_ok (getGa_run s)] at h
  obtain ⟨ps, hl, hc, hp⟩ := pairLoop (pop := s.ga.population)
    (P := fun x a b => SpunPair x.ga.attrs.arith.rnd sel s.ga.population a b)
    (by intro s1 s2 ps hc _ _ a b h; rw [hc.ga] at h; exact h)
    (by
      intro s1 s2 u hp hal1 h1
      obtain ⟨a, b, hc, w1, w2, hne⟩ := roulettePair_ok hal1 h1
      rw [hp] at w1 w2 hne
      exact ⟨a, b, hc, w1, w2, hne⟩) rfl hal h
  exact ⟨ps, by rw [hl, List.length_range], hc, hp⟩

theorem weights_ok {w : Ind σ → Except PyErr ℚ} {s s' : St σ} {ws : List ℚ} (h : weights w s = (.ok ws, s')) :
    s' = s ∧ List.Forall₂ (fun r q => w (s.heap r) = .ok q) s.ga.population ws := by
  unfold weights at h
  rw [bind_of_ok (getGa_run s)] at h
  refine mapEach_reads ?_ h
  intro r s1 q hq
  rw [bind_of_ok (getInd_run r s)] at hq
  obtain ⟨e, rfl⟩ := liftE_ok.mp hq
  exact ⟨rfl, e⟩

/-- Complete description of the roulette selections; `pre` may relabel members. -/
theorem balancedWith_ok {pre : M σ Unit} {w : Ind σ → Except PyErr ℚ} {m : Nat} {s s' : St σ} {u : Unit}
    (hpre : ∀ s s' u, pre s = (.ok u, s') → Relabelled s s' ∧ s'.ga.parents = s.ga.parents)
    (hal : ∀ r ∈ s.ga.population, r < s.next) (h : balancedWith pre w m s = (.ok u, s')) :
    ∃ (s1 s2 : St σ) (ws sel : List ℚ) (ps : List (Nat × Nat)), baseSelection s = (.ok (), s1) ∧ pre s1 = (.ok (), s2) ∧
      Relabelled s s2 ∧ s2.ga.parents = [] ∧
      List.Forall₂ (fun r q => w (s2.heap r) = .ok q) s.ga.population ws ∧
      selectionScoresR s.ga.attrs.arith.rnd (sumR s.ga.attrs.arith.rnd ws 0) ws = .ok sel ∧
      ps.length = numPairs s.ga m ∧ Copied s2 s' (ps.flatMap fun p => [p.1, p.2]) ∧
      ∀ p ∈ ps, p.1 ∈ s.ga.population ∧ p.2 ∈ s.ga.population ∧ SpunPair s.ga.attrs.arith.rnd sel s.ga.population p.1 p.2 := by
  unfold balancedWith at h
  obtain ⟨_, s1, h1, h2⟩ := bind_ok.mp h
  obtain ⟨r1, p1⟩ := baseSelection_relabelled h1
  obtain ⟨_, s2, h3, h4⟩ := bind_ok.mp h2
  obtain ⟨r2, p2⟩ := hpre _ _ _ h3
  have r12 := r1.trans r2
  have hpop : s2.ga.population = s.ga.population := by rw [r12.ga]
  obtain ⟨ws, s3, h5, h6⟩ := bind_ok.mp h4
  obtain ⟨rfl, hw⟩ := weights_ok h5
  rw [bind_of_ok (getGa_run s3)] at h6
  obtain ⟨sel, s4, h7, h8⟩ := bind_ok.mp h6
  obtain ⟨hs, rfl⟩ := liftE_ok.mp h7
  obtain ⟨ps, hl, hc, hp⟩ := roulette_ok (by rw [hpop, r12.next]; exact hal) h8
  have hnp : numPairs s4.ga m = numPairs s.ga m := by rw [r12.ga]; rfl
  have har : s4.ga.attrs.arith = s.ga.attrs.arith := by rw [r12.ga]
  rw [hpop] at hw hp
  rw [har] at hs hp
  exact ⟨s1, s4, ws, sel, ps, h1, h3, r12, p2.trans p1, hw, hs, hl.trans hnp, hc, hp⟩

theorem balancedWith_selected {pre : M σ Unit} {w : Ind σ → Except PyErr ℚ} {m : Nat} {s s' : St σ} {u : Unit}
    (hpre : ∀ s s' u, pre s = (.ok u, s') → Relabelled s s' ∧ s'.ga.parents = s.ga.parents)
    (hal : ∀ r ∈ s.ga.population, r < s.next) (h : balancedWith pre w m s = (.ok u, s')) :
    Selected s s' ∧ s'.ga.parents.length = 2 * numPairs s.ga m := by
  obtain ⟨_, s1, _, _, ps, _, _, hr, hpar, _, _, hl, hc, hp⟩ := balancedWith_ok hpre hal h
  refine ⟨Selected.of_copied hr hpar hc ?_, ?_⟩
  · intro p hpm
    obtain ⟨q, hq, hpm⟩ := List.mem_flatMap.mp hpm
    obtain ⟨a, b, _⟩ := hp q hq
    simp at hpm
    rcases hpm with rfl | rfl
    · exact a
    · exact b
  · rw [hc.ga]
    simp [hpar, List.length_flatMap, hl]
    omega

/-! ## number of pairs -/

theorem pyInt_toNat (q : ℚ) : (pyInt q).toNat = ⌊q⌋.toNat := by
  unfold pyInt
  split
  · rfl
  · rename_i h
    push Not at h
    have h1 : ⌊q⌋ ≤ 0 := by
      have : ⌊q⌋ < 1 := by rw [Int.floor_lt]; push_cast; linarith
      omega
    rw [Int.toNat_of_nonpos h1]
    apply Int.toNat_of_nonpos
    exact Int.ceil_le.mpr (by push_cast; linarith)

/-- `int(pct * n / m)` in the given arithmetic, as a number of repetitions. -/
def Arith.share (ar : Arith) (pct : ℚ) (n m : Nat) : Nat := ⌊ar.rnd (ar.rnd (pct * n) / m)⌋.toNat

theorem share_exact (pct : ℚ) (n m : Nat) : Arith.exact.share pct n m = ⌊pct * n / m⌋.toNat := rfl

theorem share_exact_one (pct : ℚ) (n : Nat) : Arith.exact.share pct n 1 = ⌊pct * n⌋.toNat := by
  rw [share_exact]; simp

theorem numPairs_share (ga : GaData σ) (m : Nat) :
    numPairs ga m = ga.attrs.arith.share ga.childrenPercent ga.attrs.numIndivid m := by
  unfold numPairs Arith.share
  rw [pyInt_toNat]

end BaumEva
