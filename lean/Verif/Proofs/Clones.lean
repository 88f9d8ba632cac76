import Verif.Proofs.Walk
import Verif.Proofs.Sure
import Verif.Proofs.Strike
import Verif.Proofs.TwoBranch
import Verif.Props.Convergence
import Verif.Props.Connected
import Verif.Props.Resume
/-!
# A generation of clones

Draws with which all children of a generation become copies of one tour, and a chosen step of the walk of `Proofs/Walk.lean`
later copies of the next.
-/
namespace BaumEva
open Spec
variable {σ α β : Type}

/-- From `s`, `m` uses exactly the draws `w`, returns `a` and ends in `s'`. -/
def Takes (m : M σ α) (s : St σ) (w : List Nat) (a : α) (s' : St σ) : Prop :=
  ∀ u, m { s with tape := w ++ u } = (.ok a, { s' with tape := u })

theorem Takes.bind {m : M σ α} {f : α → M σ β} {s s1 s2 : St σ} {w w' : List Nat} {a : α} {b : β} (h1 : Takes m s w a s1)
    (h2 : Takes (f a) s1 w' b s2) : Takes (m >>= f) s (w ++ w') b s2 := by
  intro u
  rw [List.append_assoc, bind_of_ok (h1 _)]
  exact h2 u

theorem Takes.of_gives {m : M σ α} {w : List Nat} {a : α} (h : Gives m w a) (s : St σ) : Takes m s w a s := fun u => h s u

theorem Takes.of_trim {m : M σ α} (ht : Trim m) {s s' : St σ} {a : α} (hn : s.seed = none) (h : m { s with tape := [] } = (.ok a, s')) :
    Takes m s [] a s' := by
  obtain ⟨pre, e, k⟩ := ht { s with tape := [] } _ _ hn h
  have : pre = [] := by
    have := congrArg List.length e
    simp only [List.length_nil, List.length_append] at this
    exact List.length_eq_zero_iff.mp (by omega)
  subst this
  exact k

section
variable {κ : Type} [LinearOrder κ] {key : Ind σ → Except PyErr κ}

/-- Two individuals that can win, with different index entries. -/
structure Winners (key : Ind σ → Except PyErr κ) (size : Int) (v : Nat → κ) (a b : Nat) (s : St σ) : Prop where
  keys : ∀ r ∈ s.ga.population, key (s.heap r) = .ok (v r)
  memA : a ∈ s.ga.population
  cntA : size ≤ s.ga.population.countP fun p => v p ≤ v a
  memB : b ∈ s.ga.population
  cntB : size ≤ s.ga.population.countP fun p => v p ≤ v b
  idx : (s.heap a).idx ≠ (s.heap b).idx
  alive : ∀ r ∈ s.ga.population, r < s.next
  seed : s.seed = none

theorem oneTournament_word {size : Int} {s : St σ} {v : Nat → κ} (hn : s.seed = none)
    (hsc : ∀ r ∈ s.ga.population, key (s.heap r) = .ok (v r)) (h1 : 1 ≤ size) {r : Nat} (hr : r ∈ s.ga.population)
    (hc : size ≤ s.ga.population.countP fun p => v p ≤ v r) :
    ∃ w : List Nat, w.length = size.toNat ∧ (∀ x ∈ w, x < s.ga.population.length) ∧ Takes (oneTournament key size) s w r s := by
  obtain ⟨t, ht⟩ := oneTournament_gives hsc h1 hr hc
  obtain ⟨w, w1, w2, w3⟩ := oneTournament_small (s := { s with tape := t ++ [] }) hn (ht [])
  exact ⟨w, w1, w2, w3⟩

theorem tournamentPair_word {size : Int} {s : St σ} {v : Nat → κ} {a b : Nat} (h1 : 1 ≤ size) (hw : Winners key size v a b s) :
    ∃ (w : List Nat) (s' : St σ), w.length = 2 * size.toNat ∧ (∀ x ∈ w, x < s.ga.population.length) ∧
      Takes (tournamentPair key size) s w () s' ∧ Copied s s' [a, b] := by
  obtain ⟨w1, a1, a2, a3⟩ := oneTournament_word hw.seed hw.keys h1 hw.memA hw.cntA
  obtain ⟨w2, b1, b2, b3⟩ := oneTournament_word hw.seed hw.keys h1 hw.memB hw.cntB
  let s' : St σ := ((do addParent a; addParent b : M σ Unit) s).2
  refine ⟨w1 ++ w2, s', by rw [List.length_append]; omega, ?_, ?_, ?_⟩
  · intro x hx
    rcases List.mem_append.mp hx with h | h
    · exact a2 x h
    · exact b2 x h
  · unfold tournamentPair
    refine Takes.bind a3 fun u => ?_
    rw [bind_of_ok (getS_run _), bind_of_ok (secondParent_hit (b3 u) hw.idx.symm)]
    rfl
  · exact addTwo_copied (u := ()) (hw.alive b hw.memB) rfl

theorem Winners.copied {size : Int} {s s' : St σ} {v : Nat → κ} {a b : Nat} {ps : List Nat} (hw : Winners key size v a b s) (hc : Copied s s' ps) :
    Winners key size v a b s' := by
  have hp : s'.ga.population = s.ga.population := by rw [hc.ga]
  refine ⟨?_, by rw [hp]; exact hw.memA, by rw [hp]; exact hw.cntA, by rw [hp]; exact hw.memB, by rw [hp]; exact hw.cntB, ?_, ?_, hc.seed.trans hw.seed⟩
  · rw [hp]; intro r hr; rw [hc.old r (hw.alive r hr)]; exact hw.keys r hr
  · rw [hc.old a (hw.alive a hw.memA), hc.old b (hw.alive b hw.memB)]; exact hw.idx
  · rw [hp, hc.next]; intro r hr; have := hw.alive r hr; omega

theorem tournament_word {size : Int} {v : Nat → κ} {a b : Nat} (h1 : 1 ≤ size) : ∀ (l : List Nat) {s : St σ}, Winners key size v a b s →
    ∃ (w : List Nat) (s' : St σ), w.length = l.length * (2 * size.toNat) ∧ (∀ x ∈ w, x < s.ga.population.length) ∧
      Takes (forEach l fun _ => tournamentPair key size) s w () s' ∧ Copied s s' (l.flatMap fun _ => [a, b]) := by
  intro l
  induction l with
  | nil =>
    intro s hw
    exact ⟨[], s, by simp, by simp, fun u => rfl, Copied.nil_of_drew ⟨s.tape, rfl⟩⟩
  | cons x l ih =>
    intro s hw
    obtain ⟨w1, s1, a1, a2, a3, a4⟩ := tournamentPair_word h1 hw
    obtain ⟨w2, s2, b1, b2, b3, b4⟩ := ih (hw.copied a4)
    have hp : s1.ga.population = s.ga.population := by rw [a4.ga]
    refine ⟨w1 ++ w2, s2, ?_, ?_, ?_, ?_⟩
    · rw [List.length_append, a1, b1, List.length_cons]; ring
    · intro x hx
      rcases List.mem_append.mp hx with h | h
      · exact a2 x h
      · rw [← hp]; exact b2 x h
    · rw [BaumEva.forEach]
      exact a3.bind b3
    · rw [List.flatMap_cons]
      refine a4.trans b4 ?_
      intro p hp
      obtain ⟨_, _, hp⟩ := List.mem_flatMap.mp hp
      simp only [List.mem_cons, List.not_mem_nil, or_false] at hp
      rcases hp with rfl | rfl
      · exact hw.alive _ hw.memA
      · exact hw.alive _ hw.memB

end

theorem flat_pairs {a b : Nat} : ∀ (l : List Nat) {j : Nat}, j < l.length →
    (l.flatMap fun _ => [a, b])[2 * j]? = some a ∧ (l.flatMap fun _ => [a, b])[2 * j + 1]? = some b := by
  intro l
  induction l with
  | nil => intro j hj; simp at hj
  | cons x l ih =>
    intro j hj
    rw [List.flatMap_cons]
    cases j with
    | zero => exact ⟨rfl, rfl⟩
    | succ j =>
      obtain ⟨h1, h2⟩ := ih (j := j) (by simpa using hj)
      rw [show 2 * (j + 1) = 2 * j + 1 + 1 by omega]
      exact ⟨h1, h2⟩

theorem flat_length {a b : Nat} (l : List Nat) : (l.flatMap fun _ => [a, b]).length = 2 * l.length := by
  induction l with
  | nil => rfl
  | cons x l ih => rw [List.flatMap_cons, List.length_append, ih]; simp; omega

/-- Selection: every pair of parents is a copy of `a` and `b`. -/
theorem tournamentExec_word [LinearOrder σ] {size : Int} {s : St σ} {v : Nat → σ} {a b : Nat} (h1 : 2 ≤ size) (h2 : size < s.ga.attrs.numIndivid)
    (hn : s.seed = none) (hal : ∀ r ∈ s.ga.population, r < s.next) (hk : ∀ r ∈ s.ga.population, scoreKey (s.heap r) = .ok (v r))
    (ha : a ∈ s.ga.population) (ca : size ≤ s.ga.population.countP fun p => v p ≤ v a)
    (hb : b ∈ s.ga.population) (cb : size ≤ s.ga.population.countP fun p => v p ≤ v b) (hab : a ≠ b) :
    ∃ (w : List Nat) (s' : St σ), w.length = numPairs s.ga 1 * (2 * size.toNat) ∧ (∀ x ∈ w, x < s.ga.population.length) ∧
      Takes (tournamentExec size) s w () s' ∧ Selected s s' ∧ s'.ga.parents = List.range' s.next (2 * numPairs s.ga 1) ∧
      ∀ j, j < numPairs s.ga 1 → (s'.heap (s.next + 2 * j)).genotype = (s.heap a).genotype ∧
        (s'.heap (s.next + 2 * j + 1)).genotype = (s.heap b).genotype := by
  obtain ⟨s1, e1⟩ := baseSelection_run { s with tape := [] }
  obtain ⟨hr, hpar⟩ := baseSelection_relabelled e1
  have hpop : s1.ga.population = s.ga.population := by rw [hr.ga]
  have hnp : numPairs s1.ga 1 = numPairs s.ga 1 := by rw [hr.ga]; rfl
  have hW : Winners scoreKey size v a b s1 := by
    refine ⟨?_, by rw [hpop]; exact ha, by rw [hpop]; exact ca, by rw [hpop]; exact hb, by rw [hpop]; exact cb, ?_, ?_, hr.seed.trans hn⟩
    · rw [hpop]
      intro r hm
      rw [← hk r hm]
      unfold scoreKey
      rw [(hr.core r).score]
    · exact baseSelection_idx e1 ha hb hab
    · rw [hpop, hr.next]; exact hal
  obtain ⟨w, s', w1, w2, w3, w4⟩ := tournament_word (by omega) (List.range (numPairs s.ga 1)) hW
  rw [List.length_range] at w1
  refine ⟨w, s', w1, by rw [← hpop]; exact w2, ?_, ?_, ?_, ?_⟩
  · have hc : Takes (checkTournament size) s [] () s := by
      intro u
      unfold checkTournament
      rw [bind_of_ok (getGa_run _), ite_run, if_neg (by simp only; omega)]
      rfl
    have hbs : Takes (baseSelection (σ := σ)) s [] () s1 := Takes.of_trim Tame.baseSelection.trim hn e1
    have ht : Takes (tournament scoreKey size 1) s1 w () s' := by
      intro u
      unfold tournament
      rw [bind_of_ok (getGa_run _)]
      show forEach (List.range (numPairs s1.ga 1)) _ _ = _
      rw [hnp]
      exact w3 u
    have := hc.bind (f := fun _ => baseSelection >>= fun _ => tournament scoreKey size 1) (hbs.bind (f := fun _ => tournament scoreKey size 1) ht)
    exact this
  · exact Selected.of_copied (s := s) ⟨hr.ga, hr.next, hr.core, hr.old, hr.seed, hr.mutLvl, hr.conds, hr.calls, hr.snaps⟩ hpar w4 (by
      intro p hp
      obtain ⟨_, _, hp⟩ := List.mem_flatMap.mp hp
      simp only [List.mem_cons, List.not_mem_nil, or_false] at hp
      rcases hp with rfl | rfl
      · exact ha
      · exact hb)
  · rw [w4.ga, hpar, flat_length, List.length_range, hr.next]
    rfl
  · intro j hj
    obtain ⟨f1, f2⟩ := flat_pairs (a := a) (b := b) (List.range (numPairs s.ga 1)) (j := j) (by simpa using hj)
    have g1 := w4.new _ _ f1
    have g2 := w4.new _ _ f2
    rw [show s1.next = s.next from hr.next] at g1 g2
    rw [g1, show s.next + 2 * j + 1 = s.next + (2 * j + 1) by omega, g2]
    exact ⟨((hr.core a).genotype).symm ▸ rfl, ((hr.core b).genotype).symm ▸ rfl⟩

/-! ## crossover -/

theorem sampleAux_next {l : List Nat} {i a b : Nat} {p q : List Nat} (hl : l = p ++ a :: b :: q) (hi : i = p.length) :
    Gives (σ := σ) (sample l 2) [i, i] [a, b] := by
  subst hl hi
  intro s u
  unfold sample
  rw [if_neg (by simp only [List.length_append, List.length_cons]; omega)]
  have e1 : p.length % (p ++ a :: b :: q).length = p.length := Nat.mod_eq_of_lt (by simp)
  have e2 : p.length % (p ++ b :: q).length = p.length := Nat.mod_eq_of_lt (by simp)
  have e3 : (p ++ a :: b :: q).eraseIdx p.length = p ++ b :: q := by
    rw [List.eraseIdx_append_of_length_le (le_refl _), Nat.sub_self, List.eraseIdx_cons_zero]
  show sampleAux 2 _ _ = _
  rw [sampleAux]
  show (draw >>= _) { s with tape := p.length :: ([p.length] ++ u) } = _
  rw [bind_of_ok (show draw { s with tape := p.length :: ([p.length] ++ u) } = (.ok p.length, { s with tape := [p.length] ++ u }) from rfl)]
  simp only [e1, List.getElem?_append_right (le_refl _), Nat.sub_self, List.getElem?_cons_zero, e3]
  rw [sampleAux]
  refine bind_of_ok ?_
  show (draw >>= _) { s with tape := p.length :: u } = _
  rw [bind_of_ok (show draw { s with tape := p.length :: u } = (.ok p.length, { s with tape := u }) from rfl)]
  simp only [e2, List.getElem?_append_right (le_refl _), Nat.sub_self, List.getElem?_cons_zero]
  rfl

theorem crossGeno_word {len : Nat} (h : 3 ≤ len) (p1 p2 : List Val) :
    Gives (σ := σ) (crossGeno .order len p1 p2) [0, 0] (orderCross len 1 2 p1 p2) := by
  obtain ⟨m, rfl⟩ := Nat.exists_eq_add_of_le h
  have hl : (List.range (3 + m)).drop 1 = [] ++ 1 :: 2 :: List.range' 3 m := by
    rw [List.range_eq_range', List.drop_range', show 3 + m - 1 = m + 1 + 1 by omega, List.range'_succ, List.range'_succ]
    rfl
  have h1 : Gives (σ := σ) (segmentPoints 1 (3 + m)) [0, 0] (1, 2) := by
    unfold segmentPoints
    exact Gives.bind (t2 := []) (sampleAux_next hl rfl) (Gives.pure _)
  exact Gives.bind (t2 := []) h1 (Gives.pure _)

theorem addChild_word {len : Nat} (h : 3 ≤ len) (p1 p2 : List Val) (s : St σ) : ∃ s',
    Takes (do let c ← getChild .order len p1 p2
              modGa fun ga => { ga with children := ga.children ++ [c] }) s [0, 0, 0] () s' ∧ Bred s s' [orderChild len 1 2 p1 p2] := by
  have hc : Gives (σ := σ) (randint 1 2) [0] 1 := fun s u => rfl
  refine ⟨{ s with
    heap := upd s.heap s.next { genotype := some (orderChild len 1 2 p1 p2) }
    next := s.next + 1
    ga := { s.ga with children := s.ga.children ++ [s.next] } }, ?_, ?_⟩
  · intro u
    unfold getChild
    have e := crossGeno_word (σ := σ) h p1 p2 s ([0] ++ u)
    have e2 := hc s u
    show ((crossGeno .order len p1 p2 >>= _) >>= _) { s with tape := [0, 0] ++ ([0] ++ u) } = _
    refine bind_of_ok (a := s.next) (s' := { s with
      heap := upd s.heap s.next { genotype := some (orderChild len 1 2 p1 p2) }, next := s.next + 1, tape := u }) ?_ |>.trans rfl
    rw [bind_of_ok e, bind_of_ok e2]
    rfl
  · refine ⟨rfl, rfl, ?_, ?_, rfl, rfl, rfl, rfl, rfl⟩
    · intro i g hg
      match i with
      | 0 =>
        injection hg with hg
        subst hg
        show upd s.heap s.next _ (s.next + 0) = _
        simp [upd]
      | i + 1 => simp at hg
    · intro r hr
      show upd s.heap s.next _ r = _
      unfold upd
      rw [if_neg (by omega)]

theorem genoOf_at {s : St σ} {r : Nat} {g : List Val} (h : (s.heap r).genotype = some g) (u : List Nat) :
    genoOf r { s with tape := u } = (.ok g, { s with tape := u }) := by
  rw [genoOf_ok]
  exact ⟨h, rfl⟩

theorem crossPairs_word {len : Nat} (h : 3 ≤ len) {p1 p2 : List Val} : ∀ (m n : Nat) {s : St σ},
    (∀ j, j < m → n + 2 * j + 1 < s.next ∧ (s.heap (n + 2 * j)).genotype = some p1 ∧ (s.heap (n + 2 * j + 1)).genotype = some p2) →
    ∃ s', Takes (crossPairs .order len (List.range' n (2 * m))) s (List.replicate (3 * m) 0) () s' ∧
      Bred s s' (List.replicate m (orderChild len 1 2 p1 p2)) := by
  intro m
  induction m with
  | zero =>
    intro n s _
    exact ⟨s, fun u => rfl, Bred.nil_of_drew ⟨s.tape, rfl⟩⟩
  | succ m ih =>
    intro n s hs
    obtain ⟨s1, a1, a2⟩ := addChild_word (σ := σ) h p1 p2 s
    obtain ⟨s2, b1, b2⟩ := ih (n + 2) (s := s1) (by
      intro j hj
      obtain ⟨c1, c2, c3⟩ := hs (j + 1) (by omega)
      rw [show n + 2 * (j + 1) = n + 2 + 2 * j by omega] at c1 c2 c3
      refine ⟨by rw [a2.next]; omega, ?_, ?_⟩
      · rw [a2.old _ (by omega)]; exact c2
      · rw [a2.old _ (by omega)]; exact c3)
    refine ⟨s2, ?_, ?_⟩
    · intro u
      rw [show 2 * (m + 1) = 2 * m + 1 + 1 by omega, List.range'_succ, List.range'_succ, crossPairs]
      obtain ⟨c1, c2, c3⟩ := hs 0 (by omega)
      rw [bind_of_ok (genoOf_at (by simpa using c2) _), bind_of_ok (genoOf_at (by simpa using c3) _)]
      have e := a1 (List.replicate (3 * m) 0 ++ u)
      obtain ⟨c, s3, e1, e2⟩ := bind_ok.mp e
      have hw : List.replicate (3 * (m + 1)) 0 ++ u = [0, 0, 0] ++ (List.replicate (3 * m) 0 ++ u) := by
        rw [show 3 * (m + 1) = 3 * m + 1 + 1 + 1 by omega, List.replicate_succ, List.replicate_succ, List.replicate_succ]
        rfl
      rw [hw, bind_of_ok e1, bind_of_ok e2]
      exact b1 u
    · rw [List.replicate_succ]
      exact a2.trans b2

/-- Crossover of pairs that are all alike. -/
theorem crossExec_word {s : St σ} {r0 n m : Nat} {g0 p1 p2 : List Val} (hn : s.seed = none) (hr : s.ga.population.head? = some r0)
    (hg : (s.heap r0).genotype = some g0) (h3 : 3 ≤ g0.length) (hp : s.ga.parents = List.range' n (2 * m))
    (hs : ∀ j, j < m → n + 2 * j + 1 < s.next ∧ (s.heap (n + 2 * j)).genotype = some p1 ∧ (s.heap (n + 2 * j + 1)).genotype = some p2) :
    ∃ s', Takes (crossExec .order) s (List.replicate (3 * m) 0) () s' ∧
      Bred { s with ga := { s.ga with children := [] } } s' (List.replicate m (orderChild g0.length 1 2 p1 p2)) := by
  obtain ⟨s', a1, a2⟩ := crossPairs_word (σ := σ) h3 (p1 := p1) (p2 := p2) m n (s := { s with ga := { s.ga with children := [] } }) hs
  refine ⟨s', ?_, a2⟩
  intro u
  cases hpop : s.ga.population with
  | nil => rw [hpop] at hr; simp at hr
  | cons r rs =>
    rw [hpop] at hr
    simp only [List.head?_cons, Option.some.injEq] at hr
    subst hr
    unfold crossExec newPopulation
    rw [bind_of_ok (getGa_run _)]
    simp only [hpop]
    rw [bind_of_ok (genoOf_at hg _)]
    rw [bind_of_ok (show reseed { s with tape := List.replicate (3 * m) 0 ++ u } = (.ok (), { s with tape := List.replicate (3 * m) 0 ++ u }) by
      unfold reseed; simp only [hn]), bind_of_ok (modGa_run _ _)]
    have hpar : ∀ x : St σ, crossPairs .order g0.length s.ga.parents x = crossPairs .order g0.length (List.range' n (2 * m)) x := by
      intro x; rw [hp]
    exact (hpar _).trans (a1 u)

/-! ## mutation -/

/-- The draws of a mutation that rearranges, with the one that decides whether it does. -/
def mutDraws (mop : MutOp) : Nat := if mop = .shift then 4 else 3

theorem swapGenes_next {g : List Val} {i : Nat} (h : i + 1 < g.length) : swapGenes i (i + 1) g = movement i (i + 1) g := by
  obtain ⟨pre, a, b, l, rfl, rfl⟩ := split_at h
  rw [movement_neighbours]
  simp [swapGenes]

theorem inversion_next {g : List Val} {i : Nat} (h : i + 1 < g.length) : inversion i (i + 1) g = movement i (i + 1) g := by
  obtain ⟨pre, a, b, l, rfl, rfl⟩ := split_at h
  rw [movement_neighbours]
  have e1 : pre.length + 1 + 1 - pre.length = 2 := by omega
  have e2 : (pre ++ a :: b :: l).drop (pre.length + 1 + 1) = l := by
    rw [List.drop_append, List.drop_eq_nil_of_le (by omega), show pre.length + 1 + 1 - pre.length = 2 by omega]
    rfl
  simp [inversion, slice, e1, e2]

theorem shiftGenes_next {g : List Val} {i : Nat} (h : i + 1 < g.length) : shiftGenes i (i + 1) (i + 1) g = movement i (i + 1) g := by
  obtain ⟨pre, a, b, l, rfl, rfl⟩ := split_at h
  rw [movement_neighbours]
  have e : (pre ++ b :: l).take (pre.length + 1) = pre ++ [b] := by
    rw [List.take_append, List.take_of_length_le (by omega), show pre.length + 1 - pre.length = 1 by omega]
    rfl
  simp [shiftGenes, slice, e]

/-- Every rearranging mutation can exchange two neighbours. -/
theorem mutateComb_word {mop : MutOp} (hm : Rearranging mop) {g : List Val} (h3 : 3 ≤ g.length) {i : Nat} (hi : i + 1 < g.length) :
    ∃ w, w.length + 1 = mutDraws mop ∧ (∀ x ∈ w, x < g.length) ∧ Gives (σ := σ) (mutateComb mop g) w (movement i (i + 1) g) := by
  have hr : List.range g.length = List.range i ++ i :: (i + 1) :: List.range' (i + 2) (g.length - (i + 2)) := by
    obtain ⟨k, hk⟩ := Nat.exists_eq_add_of_le (show i + 2 ≤ g.length by omega)
    rw [hk, show i + 2 + k = i + (k + 1 + 1) by omega, List.range_add, show i + (k + 1 + 1) - (i + 2) = k by omega, List.range_succ_eq_map,
      List.range_succ_eq_map]
    simp only [List.map_cons, List.map_map, List.range'_eq_map_range]
    congr 1
    congr 1
    congr 1
    apply List.map_congr_left
    intro x _
    simp only [Function.comp]
    omega
  have hs : Gives (σ := σ) (sample (List.range g.length) 2) [i, i] [i, i + 1] := sampleAux_next hr (by simp)
  have hw : ∀ x ∈ [i, i], x < g.length := by
    intro x hx
    simp only [List.mem_cons, List.not_mem_nil, or_false] at hx
    omega
  rcases hm with rfl | rfl | rfl | rfl
  · refine ⟨[i, i], rfl, hw, ?_⟩
    unfold mutateComb
    rw [← inversion_next hi]
    have h1 : Gives (σ := σ) (segmentPoints 0 g.length) [i, i] (i, i + 1) := by
      unfold segmentPoints
      have hp : Gives (σ := σ) (pure (min i (i + 1), max i (i + 1)) : M σ (Nat × Nat)) [] (i, i + 1) := by
        rw [Nat.min_eq_left (Nat.le_succ i), Nat.max_eq_right (Nat.le_succ i)]
        exact Gives.pure _
      exact Gives.bind (t1 := [i, i]) (t2 := []) (a := [i, i + 1]) hs hp
    exact Gives.bind (t2 := []) h1 (Gives.pure _)
  · refine ⟨[i, i], rfl, hw, ?_⟩
    unfold mutateComb
    exact Gives.bind (t2 := []) hs (Gives.pure _)
  · refine ⟨[0, i, i], rfl, ?_, ?_⟩
    · intro x hx
      simp only [List.mem_cons, List.not_mem_nil, or_false] at hx
      omega
    · unfold mutateComb
      rw [← shiftGenes_next hi]
      have e1 : Gives (σ := σ) (randint 1 ((g.length : Int) - 2)) [0] 1 := by
        intro s u
        unfold randint
        rw [if_neg (by omega)]
        show ((.ok (1 + ((0 : Nat) : Int) % _) : Except PyErr Int), _) = _
        simp
      have e2 : Gives (σ := σ) (randint 0 ((g.length : Int) - 1)) [i] i := by
        intro s u
        unfold randint
        rw [if_neg (by omega)]
        show ((.ok (0 + (i : Int) % _) : Except PyErr Int), _) = _
        rw [Int.emod_eq_of_lt (by omega) (by omega), zero_add]
        rfl
      have hfil : (List.range (g.length - (1 : Int).toNat + 1)).filter (fun x => decide (x ≠ (i : Int).toNat)) =
          List.range i ++ (i + 1) :: List.range' (i + 2) (g.length - (i + 2)) := by
        rw [show g.length - (1 : Int).toNat + 1 = g.length by simp; omega, hr, List.filter_append, List.filter_cons_of_neg (by simp),
          List.filter_cons_of_pos (by simp), List.filter_eq_self.mpr, List.filter_eq_self.mpr]
        · intro x hx
          rw [List.mem_range'_1] at hx
          simp; omega
        · intro x hx
          rw [List.mem_range] at hx
          simp; omega
      have e3 : Gives (σ := σ) (choice ((List.range (g.length - (1 : Int).toNat + 1)).filter fun x => x ≠ (i : Int).toNat)) [i] (i + 1) := by
        intro s u
        rw [hfil]
        unfold choice
        rw [if_neg (by simp)]
        show (draw >>= _) { s with tape := i :: u } = _
        rw [bind_of_ok (show draw { s with tape := i :: u } = (.ok i, { s with tape := u }) from rfl)]
        have : i % (List.range i ++ (i + 1) :: List.range' (i + 2) (g.length - (i + 2))).length = i := Nat.mod_eq_of_lt (by simp)
        rw [this, List.getElem?_append_right (by simp), List.length_range, Nat.sub_self]
        rfl
      refine Gives.bind (t1 := [0]) (t2 := [i, i]) e1 ?_
      refine Gives.bind (t1 := [i]) (t2 := [i]) e2 ?_
      exact Gives.bind (t1 := [i]) (t2 := []) e3 (Gives.pure _)
  · refine ⟨[i, i], rfl, hw, ?_⟩
    unfold mutateComb
    rw [← swapGenes_next hi]
    exact Gives.bind (t2 := []) hs (Gives.pure _)

theorem mutateChild_word {mop : MutOp} (hm : Rearranging mop) {q : ℚ} (h0 : 0 ≤ q) (h1 : q < 999 / 1000) {s : St σ} {r : Nat} {g g' : List Val}
    (hl : s.mutLvl.effective s.ga.attrs.arith = .float q) (hg : (s.heap r).genotype = some g)
    (hs : g' = g ∨ ∃ i, i + 1 < g.length ∧ 3 ≤ g.length ∧ g' = movement i (i + 1) g) : ∃ w s', w.length ≤ mutDraws mop ∧ (∀ x ∈ w, x < 1000 ∨ x < g.length) ∧
      Takes (mutateChild mop r) s w () s' ∧ (s'.heap r).genotype = some g' ∧ (∀ r', r' ≠ r → s'.heap r' = s.heap r') ∧
      s'.ga = s.ga ∧ s'.mutLvl = s.mutLvl := by
  have hrun : ∀ x : St σ, mutateChild mop r x = (determinesMutation (x.mutLvl.effective x.ga.attrs.arith) >>= fun m =>
      if m then genoOf r >>= fun g => mutateComb mop g >>= fun g' => modInd r fun ind => { ind with genotype := some g' } else pure ()) x := by
    intro x
    rcases hm with rfl | rfl | rfl | rfl <;> rfl
  rcases hs with rfl | ⟨i, hi, h3, rfl⟩
  · refine ⟨[999], s, ?_, by simp, ?_, hg, fun _ _ => rfl, rfl, rfl⟩
    · unfold mutDraws; split <;> simp
    · intro u
      rw [hrun]
      show (determinesMutation (s.mutLvl.effective s.ga.attrs.arith) >>= _) _ = _
      rw [hl, bind_of_ok (Gives.spared h1 s u)]
      rfl
  · obtain ⟨w, w1, w2, w3⟩ := mutateComb_word (σ := σ) hm h3 hi
    refine ⟨0 :: w, { s with heap := upd s.heap r { s.heap r with genotype := some (movement i (i + 1) g) } }, by rw [List.length_cons]; omega, ?_, ?_, ?_, ?_, rfl, rfl⟩
    · intro x hx
      rcases List.mem_cons.mp hx with rfl | hx
      · omega
      · exact .inr (w2 x hx)
    · intro u
      rw [hrun]
      show (determinesMutation (s.mutLvl.effective s.ga.attrs.arith) >>= _) _ = _
      rw [hl, show 0 :: w ++ u = [0] ++ (w ++ u) from rfl, bind_of_ok (Gives.triggered h0 s _)]
      simp only [if_true]
      rw [bind_of_ok (genoOf_at hg _), bind_of_ok (w3 s u), modInd_run]
    · show ((upd s.heap r _) r).genotype = _
      simp [upd]
    · intro r' hr'
      show upd s.heap r _ r' = _
      simp [upd, hr']

theorem mutLoop_word {mop : MutOp} (hm : Rearranging mop) {q : ℚ} (h0 : 0 ≤ q) (h1 : q < 999 / 1000) {g g' : List Val}
    (hs : g' = g ∨ ∃ i, i + 1 < g.length ∧ 3 ≤ g.length ∧ g' = movement i (i + 1) g) : ∀ (cs : List Nat) {s : St σ}, cs.Nodup →
    s.mutLvl.effective s.ga.attrs.arith = .float q → (∀ r ∈ cs, (s.heap r).genotype = some g) →
    ∃ w s', w.length ≤ mutDraws mop * cs.length ∧ (∀ x ∈ w, x < 1000 ∨ x < g.length) ∧ Takes (forEach cs (mutateChild mop)) s w () s' ∧
      (∀ r ∈ cs, (s'.heap r).genotype = some g') ∧ ∀ r', r' ∉ cs → s'.heap r' = s.heap r' := by
  intro cs
  induction cs with
  | nil =>
    intro s _ _ _
    exact ⟨[], s, by simp, by simp, fun u => rfl, by simp, fun _ _ => rfl⟩
  | cons c cs ih =>
    intro s hd hl hg
    rw [List.nodup_cons] at hd
    obtain ⟨w1, s1, a1, a2, a3, a4, a5, a6, a7⟩ := mutateChild_word hm h0 h1 hl (hg c List.mem_cons_self) hs
    obtain ⟨w2, s2, b1, b2, b3, b4, b5⟩ := ih (s := s1) hd.2 (by rw [a6, a7]; exact hl) (by
      intro r hr
      rw [a5 r (by rintro rfl; exact hd.1 hr)]
      exact hg r (List.mem_cons_of_mem _ hr))
    refine ⟨w1 ++ w2, s2, by rw [List.length_append, List.length_cons, Nat.mul_succ]; omega, ?_, ?_, ?_, ?_⟩
    · intro x hx
      rcases List.mem_append.mp hx with h | h
      · exact a2 x h
      · exact b2 x h
    · rw [BaumEva.forEach]
      exact a3.bind b3
    · intro r hr
      rcases List.mem_cons.mp hr with rfl | hr
      · rw [b5 _ hd.1]; exact a4
      · exact b4 r hr
    · intro r' hr'
      rw [List.mem_cons, not_or] at hr'
      rw [b5 r' hr'.2, a5 r' hr'.1]

/-! ## a generation -/

/-- `m` members of the population have the genotype `q`. -/
def Clones (m : Nat) (q : List Val) (s : St σ) : Prop :=
  ∃ cs : List Nat, cs.Nodup ∧ cs.length = m ∧ ∀ r ∈ cs, r ∈ s.ga.population ∧ (s.heap r).genotype = some q

section
variable {fit : Fit ℚ} {size : Int} {mop : MutOp} {tr : Transfer} {P : List Val → Prop} {s0 : St ℚ}

/-- The draws with which all children become `g'`. -/
theorem SafeSetup.clone_word (h0 : SafeSetup fit (.tournament size) .order mop tr P s0) (hm0 : Rearranging mop) (hn : s0.seed = none)
    (h2 : 2 ≤ size) (hlt : size < s0.ga.attrs.numIndivid) {len : Nat} (h3 : 3 ≤ len) (hP : ∀ g, P g → g.length = len) {k : Nat} {s : St ℚ}
    (h : After (singleOps fit (.tournament size) .order mop tr) s0 k s) {q : ℚ} (hq0 : 0 ≤ q) (hq1 : q < 999 / 1000)
    (hl : s.mutLvl.effective s.ga.attrs.arith = .float q) {v : Nat → ℚ} {a b : Nat} {p1 p2 g1 g' : List Val}
    (hk : ∀ r ∈ s.ga.population, scoreKey (s.heap r) = .ok (v r))
    (ha : a ∈ s.ga.population) (ca : size ≤ s.ga.population.countP fun p => v p ≤ v a)
    (hb : b ∈ s.ga.population) (cb : size ≤ s.ga.population.countP fun p => v p ≤ v b) (hab : a ≠ b)
    (ga : (s.heap a).genotype = some p1) (gb : (s.heap b).genotype = some p2) (hg1 : g1 = orderChild len 1 2 p1 p2)
    (hs : g' = g1 ∨ ∃ i, i + 1 < g1.length ∧ 3 ≤ g1.length ∧ g' = movement i (i + 1) g1) :
    ∃ w, w.length ≤ numPairs s0.ga 1 * (2 * size.toNat + 3 + mutDraws mop) ∧ (∀ x ∈ w, x < s.ga.population.length ∨ x < 1000 ∨ x < g1.length) ∧
      ∀ u s' y, BaumEva.generation (singleOps fit (.tournament size) .order mop tr) { s with tape := w ++ u } = (.ok y, s') →
        Clones (numPairs s0.ga 1) g' s' := by
  have hops := singleOps_run fit (.tournament size) .order mop tr
  obtain ⟨_, hseed⟩ := h.more_any hn []
  have hI := h0.inv h
  have hal := hI.run.settled.alive
  have hpairs : numPairs s.ga 1 = numPairs s0.ga 1 := by
    unfold numPairs; rw [hI.percent, hI.attrs]
  obtain ⟨w1, s1, a1, a2, a3, a4, a5, a6⟩ := tournamentExec_word h2 (by rw [hI.attrs]; exact hlt) hseed hal hk ha ca hb cb hab
  have hpop1 : s1.ga.population = s.ga.population := by rw [a4.ga]
  obtain ⟨r0, hr0⟩ : ∃ r0, s.ga.population.head? = some r0 := by
    cases hp : s.ga.population with
    | nil => rw [hp] at ha; simp at ha
    | cons x l => exact ⟨x, rfl⟩
  have hr0m : r0 ∈ s.ga.population := List.mem_of_mem_head? hr0
  obtain ⟨g0, d1, d2, _⟩ := hI.good r0 hr0m
  have hg0 : g0.length = len := hP g0 d2
  have hnew : ∀ j, j < numPairs s.ga 1 → s.next + 2 * j + 1 < s1.next := by
    intro j hj
    have : s.next + 2 * j + 1 ∈ s1.ga.parents := by
      rw [a5, List.mem_range'_1]; omega
    exact (a4.fresh _ this).2.1
  obtain ⟨s2, b1, b2⟩ := crossExec_word (s := s1) (r0 := r0) (n := s.next) (m := numPairs s.ga 1) (g0 := g0) (p1 := p1) (p2 := p2)
    (a4.seed.trans hseed) (by rw [hpop1]; exact hr0) (by rw [(a4.core r0 (hal r0 hr0m)).genotype]; exact d1) (by omega) a5
    (fun j hj => ⟨hnew j hj, by rw [(a6 j hj).1]; exact ga, by rw [(a6 j hj).2]; exact gb⟩)
  rw [hg0, ← hg1] at b2
  have hch : s2.ga.children = List.range' s1.next (numPairs s.ga 1) := by
    rw [b2.ga]; simp
  have hchg : ∀ r ∈ s2.ga.children, (s2.heap r).genotype = some g1 := by
    intro r hr
    rw [hch, List.mem_range'_1] at hr
    have := b2.new (r - s1.next) g1 (by
      rw [List.getElem?_replicate, if_pos (by omega)])
    simp only at this
    rw [show s1.next + (r - s1.next) = r by omega] at this
    rw [this]
  have hat2 : s2.ga.attrs = s.ga.attrs := by rw [b2.ga, a4.ga]
  have hml2 : s2.mutLvl = s.mutLvl := b2.mutLvl.trans a4.mutLvl
  have hnd : s2.ga.children.Nodup := by rw [hch]; exact List.nodup_range'
  obtain ⟨w3, s3, c1, c2, c3, c4, c5⟩ := mutLoop_word hm0 hq0 hq1 hs s2.ga.children (s := s2) hnd (by rw [hat2, hml2]; exact hl) hchg
  have hm : Takes (mutExec mop) s2 w3 () s3 := by
    intro u
    unfold mutExec
    rw [bind_of_ok (getS_run _)]
    rcases hm0 with rfl | rfl | rfl | rfl <;> exact c3 u
  have hcl : s2.ga.children.length = numPairs s.ga 1 := by rw [hch, List.length_range']
  have hbreed : Takes (selExec (.tournament size) >>= fun _ => crossExec .order >>= fun _ => mutExec mop) s
      (w1 ++ (List.replicate (3 * numPairs s.ga 1) 0 ++ w3)) () s3 := Takes.bind (f := fun _ => crossExec .order >>= fun _ => mutExec mop) a3 (Takes.bind (f := fun _ => mutExec mop) b1 hm)
  refine ⟨w1 ++ (List.replicate (3 * numPairs s.ga 1) 0 ++ w3), ?_, ?_, ?_⟩
  · rw [List.length_append, List.length_append, List.length_replicate, a1, ← hpairs]
    rw [hcl] at c1
    nlinarith
  · intro x hx
    rcases List.mem_append.mp hx with hx | hx
    · exact .inl (a2 x hx)
    rcases List.mem_append.mp hx with hx | hx
    · rw [(List.mem_replicate.mp hx).2]; right; left; omega
    · exact .inr (c2 x hx)
  · intro u s' y hw
    set W := w1 ++ (List.replicate (3 * numPairs s.ga 1) 0 ++ w3) ++ u with hW
    have hset : Settled ({ s with tape := W } : St ℚ) := ⟨hI.run.settled.alive, hI.run.settled.asc, hI.run.settled.sorted, hI.run.settled.best⟩
    obtain ⟨e1, e2, e3, es, _, hbr, hB, hlen, hel, d2, _, _, _, _, hF, hup, _⟩ := generation_steps hops hset hw
    have he1 : e1 = { s3 with tape := u } := by
      have hbr : (selExec (.tournament size) >>= fun _ => crossExec .order >>= fun _ => mutExec mop) { s with tape := W } = (.ok (), e1) := hbr
      rw [hbreed u] at hbr
      exact (Prod.mk.inj hbr).2.symm
    have hgen : ∀ r ∈ e1.ga.children, (e1.heap r).genotype = some g' := by
      have hga3 : s3.ga.children = s2.ga.children := by
        obtain ⟨⟨t, hp, es⟩, _⟩ := mutExec_ok (hm u) (by exact hnd)
        have := congrArg St.ga es
        simp only at this
        rw [this]
      rw [he1]
      intro r hr
      exact c4 r (by rw [← hga3]; exact hr)
    obtain ⟨n0, _, q1, q2⟩ := hB.range
    refine ⟨e1.ga.children, by rw [q1]; exact List.nodup_range', ?_, ?_⟩
    · rw [hlen]; exact hpairs
    · intro r hr
      have hrp : r ∈ e2.ga.population := by rw [d2]; exact List.mem_append_left _ hr
      have hrlt : r < e3.next := by
        have h1 : r < e1.next := by
          rw [q1, List.mem_range'_1] at hr
          omega
        rw [hF.shape, d2]
        exact h1
      obtain ⟨z1, z2⟩ := gaUpdate_members hup (by rw [hF.ga]; exact hrp) hrlt
      refine ⟨z1, ?_⟩
      rw [z2, hF.geno _ hrp, d2]
      exact hgen r hr


theorem SafeInv.values {k : Nat} {s : St ℚ} (hI : SafeInv P mop s0 s k) :
    ∀ r ∈ s.ga.population, scoreKey (s.heap r) = .ok ((s.heap r).score.getD 0) := by
  intro r hr
  have := hI.run.settled.asc.1 r hr
  unfold scoreKey
  cases hx : (s.heap r).score with
  | none => rw [hx] at this; simp at this
  | some v => rfl

theorem countP_sub {κ : Type} [LinearOrder κ] {cs pop : List Nat} (hd : cs.Nodup) (hs : ∀ r ∈ cs, r ∈ pop) (v : Nat → κ) (c : κ) :
    (cs.countP fun p => v p ≤ c) ≤ pop.countP fun p => v p ≤ c := (List.subperm_of_subset hd hs).countP_le _

/-- What a search over permutations of `base` needs. -/
structure Tours (fit : Fit ℚ) (size : Int) (mop : MutOp) (tr : Transfer) (base : List Val) (s0 : St ℚ) (B : Nat) : Prop where
  rearranging : Rearranging mop
  setup : SafeSetup fit (.tournament size) .order mop tr (Arr base) s0
  seed : s0.seed = none
  filled : s0.ga.population.length = s0.ga.attrs.numIndivid
  two : 2 ≤ size
  lt : size < s0.ga.attrs.numIndivid
  kids : size < numPairs s0.ga 1
  three : 3 ≤ base.length
  nodup : base.Nodup
  exact : s0.ga.attrs.arith = .exact
  low : ∀ w k s, After (singleOps fit (.tournament size) .order mop tr) { s0 with tape := w } k s →
    ∃ q : ℚ, 0 ≤ q ∧ q < 999 / 1000 ∧ s.mutLvl = .float q
  room : max s0.ga.attrs.numIndivid (numPairs s0.ga 1) < B
  thousand : 1000 ≤ B
  long : base.length ≤ B

variable {base : List Val} {B : Nat}

/-- `s` is a state after `k` generations, for the draws `pre`. -/
def Arrived (fit : Fit ℚ) (size : Int) (mop : MutOp) (tr : Transfer) (s0 : St ℚ) (s : St ℚ) : Prop :=
  ∃ k pre, ∀ v, After (singleOps fit (.tournament size) .order mop tr) { s0 with tape := pre ++ v } k { s with tape := v }

/-- The chance of one step. -/
def Tours.odd (s0 : St ℚ) (size : Int) (mop : MutOp) (B : Nat) : ℚ := (1 / (B : ℚ)) ^ (numPairs s0.ga 1 * (2 * size.toNat + 3 + mutDraws mop))

theorem Tours.word (hT : Tours fit size mop tr base s0 B) {s : St ℚ} (hs : Arrived fit size mop tr s0 s) {a b : Nat}
    (ha : a ∈ s.ga.population) (ca : size ≤ s.ga.population.countP fun p => (s.heap p).score.getD 0 ≤ (s.heap a).score.getD 0)
    (hb : b ∈ s.ga.population) (cb : size ≤ s.ga.population.countP fun p => (s.heap p).score.getD 0 ≤ (s.heap b).score.getD 0) (hab : a ≠ b)
    {p1 p2 g' : List Val} (ga : (s.heap a).genotype = some p1) (gb : (s.heap b).genotype = some p2)
    (hst : g' = orderChild base.length 1 2 p1 p2 ∨ ∃ i, i + 1 < (orderChild base.length 1 2 p1 p2).length ∧ 3 ≤ (orderChild base.length 1 2 p1 p2).length ∧
      g' = movement i (i + 1) (orderChild base.length 1 2 p1 p2)) :
    ∃ w, w.length ≤ numPairs s0.ga 1 * (2 * size.toNat + 3 + mutDraws mop) ∧ (∀ x ∈ w, x < B) ∧
      ∀ u s' y, BaumEva.generation (singleOps fit (.tournament size) .order mop tr) { s with tape := w ++ u } = (.ok y, s') →
        Clones (numPairs s0.ga 1) g' s' := by
  obtain ⟨k, pre, hs⟩ := hs
  obtain ⟨q, q0, q1, q2⟩ := hT.low _ _ _ (hs [])
  have hT0 := hT.setup.withTape (pre ++ [])
  have hI := hT0.inv (hs [])
  obtain ⟨w, w1, w2, w3⟩ := hT0.clone_word hT.rearranging hT.seed hT.two hT.lt hT.three (fun g hg => List.Perm.length_eq hg) (hs []) q0 q1
    (by
      have h2 : ({ s with tape := [] } : St ℚ).ga.attrs.arith = .exact := by rw [hI.attrs]; exact hT.exact
      rw [q2, h2, MutLvl.effective_exact]) hI.values ha ca hb cb hab ga gb rfl hst
  have hsm := hT0.small (by exact hT.filled) (show 1 ≤ numPairs s0.ga 1 by have := hT.two; have := hT.kids; omega) (hs [])
  have hch : (orderChild base.length 1 2 p1 p2).length ≤ base.length := orderChild_length_le (by omega) (by have := hT.three; omega)
  refine ⟨w, w1, fun x hx => ?_, w3⟩
  have hroom := hT.room
  have hsm : s.ga.population.length ≤ max s0.ga.attrs.numIndivid (numPairs s0.ga 1) + 1 := hsm
  have := hT.thousand
  have := hT.long
  rcases w2 x hx with h | h | h
  · have h : x < s.ga.population.length := h
    omega
  · omega
  · omega

/-- From any generation to one of clones. -/
theorem Tours.gather (hT : Tours fit size mop tr base s0 B) {s : St ℚ} (hs : Arrived fit size mop tr s0 s) :
    ∃ q w, Arr base q ∧ w.length ≤ numPairs s0.ga 1 * (2 * size.toNat + 3 + mutDraws mop) ∧ (∀ x ∈ w, x < B) ∧
      ∀ u s' y, BaumEva.generation (singleOps fit (.tournament size) .order mop tr) { s with tape := w ++ u } = (.ok y, s') →
        Clones (numPairs s0.ga 1) q s' := by
  have hs' := hs
  obtain ⟨k, pre, hs⟩ := hs
  have hT0 := hT.setup.withTape (pre ++ [])
  have hI := hT0.inv (hs [])
  have hsp := hT0.spread (show size ≤ numPairs s0.ga 1 from hT.kids.le) hT.lt (hs [])
  obtain ⟨a, ha, b, hb, hab, ca, cb⟩ := spread_winners (by have := hT.two; omega) hsp fun p => (s.heap p).score.getD 0
  obtain ⟨p1, d1, d2, _⟩ := hI.good a ha
  obtain ⟨p2, e1, e2, _⟩ := hI.good b hb
  obtain ⟨w, w1, w2, w3⟩ := hT.word hs' ha ca hb cb hab d1 e1 (.inl rfl)
  refine ⟨_, w, ?_, w1, w2, w3⟩
  refine hT.setup.closed .other p1 p1 p2 _ _ d2 d2 e2 ⟨{ tape := [0, 0] }, { tape := [] }, orderCross p1.length 1 2 p1 p2, ?_, .inl rfl⟩ (.inl ?_)
  · have h3 : 3 ≤ p1.length := by rw [List.Perm.length_eq d2]; exact hT.three
    exact crossGeno_word h3 p1 p2 { tape := [] } []
  · rw [List.Perm.length_eq d2]
    rfl

/-- From a generation of clones to the next. -/
theorem Tours.onward (hT : Tours fit size mop tr base s0 B) {s : St ℚ} (hs : Arrived fit size mop tr s0 s) {q q' : List Val}
    (hc : Clones (numPairs s0.ga 1) q s) (hst : TourStep q q') :
    ∃ w, w.length ≤ numPairs s0.ga 1 * (2 * size.toNat + 3 + mutDraws mop) ∧ (∀ x ∈ w, x < B) ∧
      ∀ u s' y, BaumEva.generation (singleOps fit (.tournament size) .order mop tr) { s with tape := w ++ u } = (.ok y, s') →
        Clones (numPairs s0.ga 1) q' s' := by
  have hs' := hs
  obtain ⟨k, pre, hs⟩ := hs
  have hT0 := hT.setup.withTape (pre ++ [])
  have hI := hT0.inv (hs [])
  obtain ⟨cs, c1, c2, c3⟩ := hc
  have hsp : Spread size cs := by
    intro r
    have h1 := List.length_eq_countP_add_countP (l := cs) (fun p => decide (p ≠ r))
    have h2 : cs.countP (fun p => decide ¬ decide (p ≠ r) = true) ≤ 1 := by
      have : (fun p => decide ¬ decide (p ≠ r) = true) = fun p => p == r := by
        funext p
        by_cases hp : p = r <;> simp [hp]
      rw [this]
      exact (List.nodup_iff_count_le_one.mp c1) r
    have := hT.kids
    omega
  have h1 := hT.two
  obtain ⟨a, ha, b, hb, hab, ca, cb⟩ := spread_winners (by omega) hsp fun p => (s.heap p).score.getD 0
  have hsub : ∀ r ∈ cs, r ∈ s.ga.population := fun r hr => (c3 r hr).1
  have ca' := countP_sub c1 hsub (fun p => (s.heap p).score.getD 0) ((s.heap a).score.getD 0)
  have cb' := countP_sub c1 hsub (fun p => (s.heap p).score.getD 0) ((s.heap b).score.getD 0)
  have hq : Arr base q := by
    obtain ⟨p1, d1, d2, _⟩ := hI.good a (hsub a ha)
    have := (c3 a ha).2
    have d1 : (s.heap a).genotype = some p1 := d1
    rw [this] at d1
    injection d1 with d1
    rw [d1]; exact d2
  have hlen : q.length = base.length := List.Perm.length_eq hq
  have htl : (turned q).length = q.length :=
    (turned_perm (by have := hT.three; omega) (hq.nodup_iff.mpr hT.nodup)).length_eq
  have htu : orderChild base.length 1 2 q q = turned q := by unfold turned; rw [hlen]
  refine hT.word hs' (hsub a ha) (by omega) (hsub b hb) (by omega) hab (c3 a ha).2 (c3 b hb).2 ?_
  rw [htu]
  cases hst with
  | spared => exact .inl rfl
  | moved h => exact .inr ⟨_, by rw [htl]; exact h, by rw [htl, hlen]; exact hT.three, rfl⟩

theorem Arrived.next {s s' : St ℚ} (hn : s0.seed = none) (hs : Arrived fit size mop tr s0 s) {t : List Nat} {y : Unit}
    (h : BaumEva.generation (singleOps fit (.tournament size) .order mop tr) { s with tape := t } = (.ok y, s')) :
    Arrived fit size mop tr s0 s' := by
  obtain ⟨k, pre, hs⟩ := hs
  have hseed : s.seed = none := ((hs []).more_any (s0 := { s0 with tape := pre ++ [] }) hn []).2
  obtain ⟨p, _, kp⟩ := generation_trim fit size .order mop tr { s with tape := t } _ _ hseed h
  refine ⟨k + 1, pre ++ p, fun v => ?_⟩
  rw [List.append_assoc]
  exact After.next (hs (p ++ v)) (kp v)

/-- Not here, and not in the next `n` generations. -/
def Bad (ops : Ops ℚ) (x : List Val) (n : Nat) (s : St ℚ) : Prop := ¬ Holds x s ∧ Avoids ops x n s

theorem Bad.fewer {ops : Ops ℚ} {x : List Val} {n m : Nat} {s : St ℚ} (h : m ≤ n) (hb : Bad ops x n s) : Bad ops x m s :=
  ⟨hb.1, hb.2.fewer h⟩

/-- One generation with two branches. -/
theorem Tours.branch (hT : Tours fit size mop tr base s0 B) {x : List Val} {s : St ℚ} (hs : Arrived fit size mop tr s0 s) {q' : List Val} {n : Nat} {a c : ℚ}
    (ha : 0 ≤ a) (hac : a ≤ c)
    (hw : ∃ w, w.length ≤ numPairs s0.ga 1 * (2 * size.toNat + 3 + mutDraws mop) ∧ (∀ x ∈ w, x < B) ∧
      ∀ u s' y, BaumEva.generation (singleOps fit (.tournament size) .order mop tr) { s with tape := w ++ u } = (.ok y, s') →
        Clones (numPairs s0.ga 1) q' s')
    (hhit : ∀ s', Arrived fit size mop tr s0 s' → Clones (numPairs s0.ga 1) q' s' → ∀ L,
      chance B L (fun t => Bad (singleOps fit (.tournament size) .order mop tr) x n { s' with tape := t }) ≤ a)
    (hall : ∀ s', Arrived fit size mop tr s0 s' → ∀ L,
      chance B L (fun t => Bad (singleOps fit (.tournament size) .order mop tr) x n { s' with tape := t }) ≤ c) (L : Nat) :
    chance B L (fun t => Bad (singleOps fit (.tournament size) .order mop tr) x (n + 1) { s with tape := t }) ≤
      c - Tours.odd s0 size mop B * (c - a) := by
  have hB : 0 < B := by have := hT.thousand; omega
  have hseed : s.seed = none := by
    obtain ⟨k, pre, hs⟩ := hs
    exact ((hs []).more_any (s0 := { s0 with tape := pre ++ [] }) hT.seed []).2
  obtain ⟨w, w1, w2, w3⟩ := hw
  have hexp := outcome_experiment (generation_trim fit size .order mop tr) (s := s) hseed
  have := chance_branch hB ha hac (L := L) hexp (H := fun b => Clones (numPairs s0.ga 1) q' b.2)
    (ψ := fun b v => Bad (singleOps fit (.tournament size) .order mop tr) x n { b.2 with tape := v })
    (by
      rintro t ⟨y, s'⟩ v ⟨e1, e2⟩ hc L
      have hr : Arrived fit size mop tr s0 s' := by
        have := hs.next hT.seed e2
        exact this
      exact hhit s' hr hc L)
    (by
      rintro t ⟨y, s'⟩ v ⟨e1, e2⟩ L
      have hr : Arrived fit size mop tr s0 s' := by
        have := hs.next hT.seed e2
        exact this
      exact hall s' hr L) w2
    (by
      rintro u ⟨y, s'⟩ v ⟨e1, e2⟩
      have := w3 u _ y e2
      exact this)
  refine le_trans (chance_mono ?_) (this.trans ?_)
  · rintro t ⟨_, s', e1, e2, e3⟩
    exact ⟨_, _, EndsIn.of_run e1, e2, e3⟩
  · have hq : 1 / (B : ℚ) ≤ 1 := by
      have : (1 : ℚ) ≤ B := by exact_mod_cast hB
      rw [div_le_one (by linarith)]; exact this
    have hp : Tours.odd s0 size mop B ≤ (1 / (B : ℚ)) ^ w.length := pow_le_pow_of_le_one (by positivity) hq w1
    have := mul_le_mul_of_nonneg_right hp (show 0 ≤ c - a by linarith)
    linarith

theorem Tours.odd_pos (hT : Tours fit size mop tr base s0 B) : 0 < Tours.odd s0 size mop B := by
  have : (0 : ℚ) < B := by have := hT.thousand; exact_mod_cast (by omega : 0 < B)
  unfold Tours.odd
  positivity

theorem Tours.odd_le (hT : Tours fit size mop tr base s0 B) : Tours.odd s0 size mop B ≤ 1 := by
  have : (1 : ℚ) ≤ B := by have := hT.thousand; exact_mod_cast (by omega : 1 ≤ B)
  exact pow_le_one₀ (by positivity) (by rw [div_le_one (by linarith)]; exact this)

/-- From clones `j` steps away. -/
theorem Tours.near (hT : Tours fit size mop tr base s0 B) {x : List Val} {n : Nat} {c : ℚ} (hc : 0 ≤ c)
    (hall : ∀ s', Arrived fit size mop tr s0 s' → ∀ L,
      chance B L (fun t => Bad (singleOps fit (.tournament size) .order mop tr) x n { s' with tape := t }) ≤ c) :
    ∀ {j : Nat} {q : List Val}, Walk j q x → ∀ s, Arrived fit size mop tr s0 s → Clones (numPairs s0.ga 1) q s → ∀ L,
      chance B L (fun t => Bad (singleOps fit (.tournament size) .order mop tr) x (n + j) { s with tape := t }) ≤
        c * (1 - Tours.odd s0 size mop B ^ j) := by
  intro j q hw
  have ho := hT.odd_pos
  have ho1 := hT.odd_le
  induction hw with
  | here q =>
    intro s hs hcl L
    rw [chance_none]
    · simp
    · rintro t ⟨h1, _⟩
      refine h1 ?_
      obtain ⟨cs, _, c2, c3⟩ := hcl
      have hk := hT.kids
      have h2 := hT.two
      obtain ⟨r, hr⟩ : ∃ r, r ∈ cs := List.exists_mem_of_length_pos (by omega)
      exact ⟨r, (c3 r hr).1, (c3 r hr).2⟩
  | @step j q r x hst _ ih =>
    intro s hs hcl L
    have hp := pow_le_one₀ (n := j) ho.le ho1
    have hp0 := pow_nonneg ho.le j
    have := hT.branch (a := c * (1 - Tours.odd s0 size mop B ^ j)) (c := c) (n := n + j) hs
      (mul_nonneg hc (by linarith)) (by nlinarith) (hT.onward hs hcl hst) (fun s' h1 h2 L => ih hall s' h1 h2 L)
      (fun s' h1 L => le_trans (chance_mono fun t hb => hb.fewer (Nat.le_add_right n j)) (hall s' h1 L)) L
    refine this.trans (le_of_eq ?_)
    rw [pow_succ]
    ring

/-- From any generation: `m` rounds of `D + 1` generations each. -/
theorem Tours.miss (hT : Tours fit size mop tr base s0 B) {x : List Val} {D : Nat}
    (hD : ∀ q, Arr base q → ∃ j ≤ D, Walk j q x) : ∀ (m : Nat) (s : St ℚ), Arrived fit size mop tr s0 s → ∀ L,
      chance B L (fun t => Bad (singleOps fit (.tournament size) .order mop tr) x (m * (D + 1)) { s with tape := t }) ≤
        (1 - Tours.odd s0 size mop B ^ (D + 1)) ^ m := by
  have ho := hT.odd_pos
  have ho1 := hT.odd_le
  have hB : 0 < B := by have := hT.thousand; omega
  have hd1 : 0 ≤ 1 - Tours.odd s0 size mop B ^ (D + 1) := by
    have := pow_le_one₀ (n := D + 1) ho.le ho1
    linarith
  intro m
  induction m with
  | zero =>
    intro s _ L
    rw [pow_zero]
    exact chance_le_one hB
  | succ m ih =>
    intro s hs L
    obtain ⟨q, w, hq, hw⟩ := hT.gather hs
    obtain ⟨j, hj, hwalk⟩ := hD q hq
    set c := (1 - Tours.odd s0 size mop B ^ (D + 1)) ^ m with hcdef
    have hc : 0 ≤ c := pow_nonneg hd1 m
    have hp := pow_le_one₀ (n := j) ho.le ho1
    have hp0 := pow_nonneg ho.le j
    have hb := hT.branch (x := x) (a := c * (1 - Tours.odd s0 size mop B ^ j)) (c := c) (n := m * (D + 1) + j) hs
      (mul_nonneg hc (by linarith)) (by nlinarith) ⟨w, hw⟩ (fun s' h1 h2 L => hT.near hc ih hwalk s' h1 h2 L)
      (fun s' h1 L => le_trans (chance_mono fun t hb => hb.fewer (Nat.le_add_right _ j)) (ih s' h1 L)) L
    refine le_trans (chance_mono fun t hb => hb.fewer (by ring_nf; omega)) (hb.trans ?_)
    rw [pow_succ]
    have hjD : Tours.odd s0 size mop B ^ (D + 1) ≤ Tours.odd s0 size mop B ^ (j + 1) := pow_le_pow_of_le_one ho.le ho1 (by omega)
    have e : c - Tours.odd s0 size mop B * (c - c * (1 - Tours.odd s0 size mop B ^ j)) = c * (1 - Tours.odd s0 size mop B ^ (j + 1)) := by
      rw [pow_succ]; ring
    rw [e]
    exact mul_le_mul_of_nonneg_left (by linarith) hc

end
end BaumEva
