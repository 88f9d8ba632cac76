import Verif.Proofs.Selection
import Verif.Props.Connected
/-!
# C69: which individuals can become parents in a tournament
-/
namespace BaumEva
open BaumEva.Spec
variable {σ : Type}

theorem countP_range {α : Type} (p : α → Bool) : ∀ l : List α,
    l.countP p = (List.range l.length).countP fun i => (l[i]?).any p := by
  intro l
  induction l with
  | nil => rfl
  | cons a l ih =>
    rw [List.length_cons, List.range_succ_eq_map, List.countP_cons, List.countP_cons, List.countP_map, ih]
    have : ((fun i => ((a :: l)[i]?).any p) ∘ Nat.succ) = fun i => (l[i]?).any p := by
      funext i; simp
    rw [this]
    simp

/-- The positions whose individual is no better than `r`. -/
private theorem length_le_countP {pop : List Nat} {q : Nat → Bool} {t : List Nat} (hd : t.Nodup)
    (h : ∀ i ∈ t, ∃ p, pop[i]? = some p ∧ q p = true) : t.length ≤ pop.countP q := by
  rw [countP_range, List.countP_eq_length_filter]
  refine (List.subperm_of_subset hd ?_).length_le
  intro i hi
  obtain ⟨p, e, hq⟩ := h i hi
  rw [List.mem_filter, List.mem_range]
  exact ⟨(List.getElem?_eq_some_iff.mp e).1, by rw [e]; exact hq⟩

section
variable {κ : Type} [LinearOrder κ] {key : Ind σ → Except PyErr κ}

theorem getBestLoop_keeps {s : St σ} {r : Nat} {kr : κ} (hr : key (s.heap r) = .ok kr) : ∀ {is : List Nat},
    (∀ i ∈ is, ∃ p kp, s.ga.population[i]? = some p ∧ key (s.heap p) = .ok kp ∧ kp ≤ kr) →
    getBestLoop key r is s = (.ok r, s) := by
  intro is
  induction is with
  | nil => intro _; rfl
  | cons i is ih =>
    intro h
    obtain ⟨p, kp, e1, e2, e3⟩ := h i List.mem_cons_self
    rw [getBestLoop, bind_of_ok (popAt_run e1), bind_of_ok (getInd_run p s), bind_of_ok (getInd_run r s),
      bind_of_ok (a := kp) (s' := s) (by rw [e2]; rfl), bind_of_ok (a := kr) (s' := s) (by rw [hr]; rfl),
      if_neg (not_lt.mpr e3)]
    exact ih fun j hj => h j (List.mem_cons_of_mem _ hj)

/-- A tournament with the participant `r` and participants that are no better. -/
theorem oneTournament_gives {size : Int} {s : St σ} {v : Nat → κ}
    (hsc : ∀ r ∈ s.ga.population, key (s.heap r) = .ok (v r)) (h1 : 1 ≤ size) {r : Nat} (hr : r ∈ s.ga.population)
    (hc : size ≤ s.ga.population.countP fun p => v p ≤ v r) :
    ∃ t : List Nat, ∀ u, oneTournament key size { s with tape := t ++ u } = (.ok r, { s with tape := u }) := by
  obtain ⟨i, hi, rfl⟩ := List.getElem_of_mem hr
  set pop := s.ga.population with hpop
  -- the other positions
  set L := ((List.range pop.length).filter fun j => (pop[j]?).any fun p => decide (v p ≤ v pop[i])) with hL
  have hLd : L.Nodup := List.nodup_range.filter _
  have hiL : i ∈ L := by
    rw [hL, List.mem_filter, List.mem_range]
    exact ⟨hi, by rw [List.getElem?_eq_getElem hi]; simp⟩
  have hLl : size ≤ L.length := by
    rw [hL, ← List.countP_eq_length_filter, ← countP_range]; exact hc
  set ys := i :: (L.erase i).take (size.toNat - 1) with hys
  have hyd : ys.Nodup := by
    rw [hys, List.nodup_cons]
    refine ⟨fun hm => ?_, (hLd.erase i).sublist (List.take_sublist _ _)⟩
    have := (List.take_sublist _ _).subset hm
    exact (hLd.not_mem_erase) this
  have hsub : ∀ y ∈ ys, y ∈ L := by
    intro y hy
    rw [hys, List.mem_cons] at hy
    rcases hy with rfl | hy
    · exact hiL
    · exact List.mem_of_mem_erase ((List.take_sublist _ _).subset hy)
  have hlen : size = ys.length := by
    rw [hys, List.length_cons, List.length_take, List.length_erase_of_mem hiL]
    have : 0 < L.length := List.length_pos_of_mem hiL
    omega
  obtain ⟨t, ht⟩ := Gives.sample (σ := σ) (l := List.range pop.length) List.nodup_range hyd
    (fun y hy => (List.mem_filter.mp (hsub y hy)).1) hlen
  refine ⟨t, fun u => ?_⟩
  unfold oneTournament
  rw [bind_of_ok (getGa_run _)]
  show ((BaumEva.sample (List.range pop.length) size) >>= _) _ = _
  rw [bind_of_ok (ht s u), hys, getBest, bind_of_ok (popAt_run (s := { s with tape := u }) (r := pop[i]) (List.getElem?_eq_getElem hi))]
  refine getBestLoop_keeps (s := { s with tape := u }) (kr := v pop[i]) (hsc _ (List.getElem_mem hi)) ?_
  intro j hj
  have hm := hsub j (by rw [hys]; exact List.mem_cons_of_mem _ hj)
  rw [hL, List.mem_filter, List.mem_range] at hm
  obtain ⟨hj1, hj2⟩ := hm
  rw [List.getElem?_eq_getElem hj1] at hj2
  exact ⟨pop[j], v pop[j], List.getElem?_eq_getElem hj1, hsc _ (List.getElem_mem hj1), by simpa using hj2⟩

theorem WonTournament.count {size : Int} {s : St σ} {v : Nat → κ}
    (hsc : ∀ r ∈ s.ga.population, key (s.heap r) = .ok (v r)) {r : Nat} (h : WonTournament key size s r) :
    r ∈ s.ga.population ∧ size ≤ s.ga.population.countP fun p => v p ≤ v r := by
  have hm := h.mem
  obtain ⟨t, hl, hd, _, _, hw⟩ := h
  refine ⟨hm, ?_⟩
  rw [← hl]
  have := length_le_countP (q := fun p => decide (v p ≤ v r)) hd (fun i hi => by
    obtain ⟨p, e, hp⟩ := hw i hi
    refine ⟨p, e, ?_⟩
    rcases hp with rfl | ⟨kp, kr, e1, e2, e3⟩
    · simp
    · rw [hsc p (List.mem_of_getElem? e)] at e1
      rw [hsc r hm] at e2
      simp only [Except.ok.injEq] at e1 e2
      subst e1 e2
      simpa using e3)
  exact_mod_cast this

theorem tournamentPair_gives {size : Int} {s : St σ} {v : Nat → κ}
    (hsc : ∀ r ∈ s.ga.population, key (s.heap r) = .ok (v r)) (h1 : 1 ≤ size) {a b : Nat} (ha : a ∈ s.ga.population)
    (hca : size ≤ s.ga.population.countP fun p => v p ≤ v a) (hb : b ∈ s.ga.population)
    (hcb : size ≤ s.ga.population.countP fun p => v p ≤ v b) (hne : (s.heap b).idx ≠ (s.heap a).idx) :
    ∃ t : List Nat, ∀ u, tournamentPair key size { s with tape := t ++ u } =
      (do addParent a; addParent b) { s with tape := u } := by
  obtain ⟨t1, e1⟩ := oneTournament_gives hsc h1 ha hca
  obtain ⟨t2, e2⟩ := oneTournament_gives hsc h1 hb hcb
  refine ⟨t1 ++ t2, fun u => ?_⟩
  unfold tournamentPair
  rw [List.append_assoc, bind_of_ok (e1 (t2 ++ u)), bind_of_ok (getS_run _)]
  refine bind_of_ok (a := b) ?_
  rw [secondParent, bind_of_ok (e2 u), bind_of_ok (getInd_run b _), bind_of_ok (getInd_run a _), ite_run,
    if_pos hne]
  rfl

theorem tournamentPair_safe {size : Int} {s : St σ} (h1 : 1 ≤ size) (h2 : size ≤ s.ga.population.length)
    (hk : Keyed key s) : Safe (tournamentPair key size) s := by
  unfold tournamentPair
  refine Safe.bind (oneTournament_safe h1 h2 hk) ?_
  intro r s2 h
  obtain ⟨⟨t, rfl⟩, _⟩ := oneTournament_ok h
  refine Safe.bind_ok (getS_run _) (Safe.bind (secondParent_safe (s := { s with tape := t }) h1 h2 hk (Nat.lt_succ_self _)) ?_)
  intro r2 s3 _
  exact Safe.bind (addParent_safe _ _) (fun _ _ _ => addParent_safe _ _)

theorem tournamentPair_stuck {size : Int} {s : St σ} {v : Nat → κ} (hal : ∀ r ∈ s.ga.population, r < s.next)
    (hsc : ∀ r ∈ s.ga.population, key (s.heap r) = .ok (v r))
    (hall : ∀ a ∈ s.ga.population, (size ≤ s.ga.population.countP fun p => v p ≤ v a) →
      ∀ b ∈ s.ga.population, (size ≤ s.ga.population.countP fun p => v p ≤ v b) → (s.heap a).idx = (s.heap b).idx)
    (s' : St σ) (u : Unit) : tournamentPair key size s ≠ (.ok u, s') := by
  intro h
  obtain ⟨a, b, _, ha, hb, hne⟩ := tournamentPair_ok hal h
  obtain ⟨a1, a2⟩ := ha.count hsc
  obtain ⟨b1, b2⟩ := hb.count hsc
  exact hne (hall a a1 a2 b b1 b2)

end

/-- C69: in a population of scored individuals, `r` can win a tournament (for some draws) exactly if the number
of members that are no better than `r`, itself included, reaches the tournament size.  So the `size - 1` worst
members never become parents and everybody else can. -/
theorem C69_winners [LinearOrder σ] {size : Int} {s : St σ} {v : Nat → σ}
    (hsc : ∀ r ∈ s.ga.population, (s.heap r).score = some (v r)) (h1 : 1 ≤ size) {r : Nat} :
    (∃ t u : List Nat, oneTournament scoreKey size { s with tape := t ++ u } = (.ok r, { s with tape := u })) ↔
      r ∈ s.ga.population ∧ size ≤ s.ga.population.countP fun p => v p ≤ v r := by
  have hk : ∀ r ∈ s.ga.population, scoreKey (s.heap r) = .ok (v r) := by
    intro r hr; unfold scoreKey; rw [hsc r hr]
  constructor
  · rintro ⟨t, u, h⟩
    exact (oneTournament_ok h).2.count (s := { s with tape := t ++ u }) hk
  · rintro ⟨hr, hc⟩
    obtain ⟨t, ht⟩ := oneTournament_gives hk h1 hr hc
    exact ⟨t, [], ht []⟩

/-- C69: any two winners with different index entries can be drawn as a pair of parents. -/
theorem C69_pairs [LinearOrder σ] {size : Int} {s : St σ} {v : Nat → σ} (hal : ∀ r ∈ s.ga.population, r < s.next)
    (hsc : ∀ r ∈ s.ga.population, (s.heap r).score = some (v r)) (h1 : 1 ≤ size) {a b : Nat}
    (ha : a ∈ s.ga.population) (hca : size ≤ s.ga.population.countP fun p => v p ≤ v a) (hb : b ∈ s.ga.population)
    (hcb : size ≤ s.ga.population.countP fun p => v p ≤ v b) (hne : (s.heap b).idx ≠ (s.heap a).idx) :
    ∃ (t : List Nat) (s' : St σ), tournamentPair scoreKey size { s with tape := t } = (.ok (), s') ∧
      ∃ x y, s'.ga.parents = s.ga.parents ++ [x, y] ∧ s'.heap x = s.heap a ∧ s'.heap y = s.heap b := by
  have hk : ∀ r ∈ s.ga.population, scoreKey (s.heap r) = .ok (v r) := by
    intro r hr; unfold scoreKey; rw [hsc r hr]
  obtain ⟨t, ht⟩ := tournamentPair_gives hk h1 ha hca hb hcb hne
  have := ht []
  rw [List.append_nil] at this
  obtain ⟨s', hx⟩ : ∃ s', (do addParent a; addParent b : M σ Unit) { s with tape := [] } = (.ok (), s') := ⟨_, rfl⟩
  refine ⟨t, s', by rw [this, hx], s.next, s.next + 1, ?_, ?_, ?_⟩
  all_goals have hc := addTwo_copied (s := { s with tape := [] }) (hal b hb) hx
  · rw [hc.ga]; rfl
  · exact hc.new 0 a rfl
  · exact hc.new 1 b rfl

/-- C69: if all possible winners carry the same index entry, no draws whatsoever produce a pair of parents: the
loop that looks for the second parent never ends. -/
theorem C69_stuck [LinearOrder σ] {size : Int} {s : St σ} {v : Nat → σ} (h1 : 1 ≤ size)
    (h2 : size ≤ s.ga.population.length) (hal : ∀ r ∈ s.ga.population, r < s.next)
    (hsc : ∀ r ∈ s.ga.population, (s.heap r).score = some (v r))
    (hall : ∀ a ∈ s.ga.population, (size ≤ s.ga.population.countP fun p => v p ≤ v a) →
      ∀ b ∈ s.ga.population, (size ≤ s.ga.population.countP fun p => v p ≤ v b) → (s.heap a).idx = (s.heap b).idx)
    (t : List Nat) : (tournamentPair scoreKey size { s with tape := t }).1 = .error .exhausted := by
  have hk : ∀ r ∈ s.ga.population, scoreKey (s.heap r) = .ok (v r) := by
    intro r hr; unfold scoreKey; rw [hsc r hr]
  rcases hx : tournamentPair scoreKey size { s with tape := t } with ⟨o, s'⟩
  cases o with
  | ok u => exact (tournamentPair_stuck (s := { s with tape := t }) hal hk hall s' u hx).elim
  | error e =>
    have : e = .exhausted := tournamentPair_safe (s := { s with tape := t }) h1 h2
      (fun r hr => ⟨v r, hk r hr⟩) e s' hx |>.1
    rw [this]

/-! A population of four with the scores 5, 2, 7, 2 and tournaments of three: the members with 2 never win (only
two members score at most 2), the others can.  With one object at three of four places, the pair cannot be
completed. -/

/-- The example population: objects 0, 1, 2, 3 at these places. -/
def exPop (l : List Nat) : St ℚ :=
  { next := 4
    heap := fun r => { score := some ([5, 2, 7, 2].getD r 0), idx := some r }
    ga := { population := l } }

/-- The scores of the example. -/
def exScore (r : Nat) : ℚ := [5, 2, 7, 2].getD r 0

example : (∃ t u : List Nat, oneTournament scoreKey 3 { exPop [0, 1, 2, 3] with tape := t ++ u } =
      (.ok 0, { exPop [0, 1, 2, 3] with tape := u })) ∧
    ¬ ∃ t u : List Nat, oneTournament scoreKey 3 { exPop [0, 1, 2, 3] with tape := t ++ u } =
      (.ok 1, { exPop [0, 1, 2, 3] with tape := u }) := by
  constructor
  · exact (C69_winners (v := exScore) (fun r _ => rfl) (by decide)).mpr (by decide +kernel)
  · intro h
    exact absurd ((C69_winners (v := exScore) (fun r _ => rfl) (by decide)).mp h).2 (by decide +kernel)

example (t : List Nat) : (tournamentPair scoreKey 3 { exPop [1, 0, 0, 0] with tape := t }).1 = .error .exhausted := by
  refine C69_stuck (v := exScore) (s := exPop [1, 0, 0, 0]) (by decide) (by decide) (by decide) (fun r _ => rfl) ?_ t
  decide +kernel

example : ∃ (t : List Nat) (s' : St ℚ), tournamentPair scoreKey 3 { exPop [0, 1, 2, 3] with tape := t } = (.ok (), s') ∧
    ∃ x y, s'.ga.parents = [x, y] ∧ (s'.heap x).score = some 5 ∧ (s'.heap y).score = some 7 := by
  obtain ⟨t, s', e, x, y, h1, h2, h3⟩ := C69_pairs (s := exPop [0, 1, 2, 3]) (v := exScore) (size := 3) (a := 0) (b := 2)
    (by decide) (fun r _ => rfl) (by decide) (by decide) (by decide +kernel) (by decide) (by decide +kernel) (by decide)
  exact ⟨t, s', e, x, y, h1, by rw [h2]; rfl, by rw [h3]; rfl⟩

end BaumEva
