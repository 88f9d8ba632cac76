import Verif.Proofs.Multi
/-!
# Multi-objective runs
-/
namespace BaumEva
variable {σ : Type}

/-! ## ranks -/

theorem rankIn_perm {f : List Val → Except PyErr Ret} {h : Nat → Ind σ} {l l' : List Nat} (hp : l.Perm l') (r : Nat) :
    rankIn f h l r = rankIn f h l' r := by
  unfold rankIn dominators
  rw [hp.count_eq, (hp.map h).countP_eq]

theorem rankIn_congr {f : List Val → Except PyErr Ret} {h h' : Nat → Ind σ} {l : List Nat} {r : Nat}
    (hh : ∀ q ∈ l, (h q).phenotype = (h' q).phenotype) (hr : r ∈ l) : rankIn f h l r = rankIn f h' l r := by
  unfold rankIn
  rw [dominators_congr hh (hh r hr)]

theorem rankIn_ge (f : List Val → Except PyErr Ret) (h : Nat → Ind σ) (l : List Nat) (r : Nat) : 1 ≤ rankIn f h l r := by
  unfold rankIn
  have : (0 : ℚ) ≤ ((l.count r * dominators f (l.map h) (h r) : Nat) : ℚ) := Nat.cast_nonneg _
  linarith

theorem dominators_eq_zero {f : List Val → Except PyErr Ret} {l : List (Ind σ)} {a : Ind σ} :
    dominators f l a = 0 ↔ NonDominated f l a := by
  unfold dominators NonDominated
  rw [List.countP_eq_zero]
  simp

/-- Rank 1 means non-dominated. -/
theorem rankIn_one {f : List Val → Except PyErr Ret} {h : Nat → Ind σ} {l : List Nat} {r : Nat} (hr : r ∈ l) :
    rankIn f h l r = 1 ↔ NonDominated f (l.map h) (h r) := by
  rw [← dominators_eq_zero]
  unfold rankIn
  have hc : 0 < l.count r := List.count_pos_iff.mpr hr
  constructor
  · intro e
    have e2 : ((l.count r * dominators f (l.map h) (h r) : Nat) : ℚ) = 0 := by linarith
    have e3 : l.count r * dominators f (l.map h) (h r) = 0 := by exact_mod_cast e2
    rcases Nat.mul_eq_zero.mp e3 with e | e
    · omega
    · exact e
  · intro e
    rw [e]; simp

/-- Every member is matched by a non-dominated member. -/
theorem exists_nonDominated (f : List Val → Except PyErr Ret) (l : List (Ind σ)) :
    ∀ a ∈ l, ∃ b ∈ l, NonDominated f l b ∧ AsGood (vecOf f b) (vecOf f a) := by
  -- induction on the number of members that dominate
  have key : ∀ (n : Nat) (a : Ind σ), a ∈ l → dominators f l a ≤ n →
      ∃ b ∈ l, NonDominated f l b ∧ AsGood (vecOf f b) (vecOf f a) := by
    intro n
    induction n with
    | zero =>
      intro a ha h0
      exact ⟨a, ha, dominators_eq_zero.mp (Nat.le_zero.mp h0), AsGood.refl _⟩
    | succ n ih =>
      intro a ha hn
      by_cases hnd : NonDominated f l a
      · exact ⟨a, ha, hnd, AsGood.refl _⟩
      · unfold NonDominated at hnd
        push Not at hnd
        obtain ⟨b, hb, hd⟩ := hnd
        have hlt : dominators f l b < dominators f l a := by
          classical
          unfold dominators
          obtain ⟨i, hi⟩ := List.getElem?_of_mem hb
          obtain ⟨l1, l2, rfl⟩ := List.append_of_mem hb
          rw [List.countP_append, List.countP_append, List.countP_cons, List.countP_cons]
          have m : ∀ k : List (Ind σ), k.countP (fun c => decide (Dominates (vecOf f c) (vecOf f b))) ≤
              k.countP (fun c => decide (Dominates (vecOf f c) (vecOf f a))) := by
            intro k
            refine List.countP_mono_left fun c _ hc => ?_
            simp only [decide_eq_true_eq] at hc ⊢
            exact hc.trans hd
          have m1 := m l1
          have m2 := m l2
          have i1 := Dominates.irrefl (vecOf f b)
          simp only [i1, hd, decide_false, decide_true, Bool.false_eq_true, if_false, if_true]
          omega
        obtain ⟨c, hc, h1, h2⟩ := ih b hb (by omega)
        exact ⟨c, hc, h1, h2.trans hd.1⟩
  exact fun a ha => key _ a ha le_rfl

/-! ## the invariant -/

/-- Members of a binary population are decoded. -/
def Ready (s : St σ) : Prop := s.ga.attrs.isPhenotype = true → ∀ r ∈ s.ga.population, (s.heap r).phenotype.isSome

/-- A state between two generations of a multi-objective run, after `k` generations. -/
structure MultiInv (f : List Val → Except PyErr Ret) (s : St σ) (k : Nat) : Prop where
  alive : ∀ r ∈ s.ga.population, r < s.next
  scored : ∀ r ∈ s.ga.population, (s.heap r).score.isSome
  unsorted : s.ga.attrs.isSorted = false
  ready : Ready s
  rank : ∀ r ∈ s.ga.population, (s.heap r).rank = some (.sc (rankIn f s.heap s.ga.population r))
  vecs : 2 ≤ s.ga.population.length → ∀ r ∈ s.ga.population, ∃ b, IsVec f (s.heap r) b
  order : RankSorted s.heap s.ga.population
  front : ∃ fr g, s.ga.best = some (.pareto fr g) ∧ (∀ c ∈ fr, c < s.next ∧ c ∉ s.ga.population) ∧
    fr.map s.heap = (s.ga.population.filter fun r => (s.heap r).rank = some (.sc 1)).map s.heap
  idx : s.ga.idxGeneration = k
  snaps : s.snaps.length = k
  hist : s.ga.histFronts.length = k
  last : s.snaps.getLast? = some (s.ga.population.map s.heap)
  count : (storedFront s.ga.best = some ([], none) ∧ s.ga.noImprove = k) ∨
    ∃ fr j, storedFront s.ga.best = some (fr, some j) ∧ j + s.ga.noImprove + 1 = k

theorem MultiInv.rank_one {f : List Val → Except PyErr Ret} {s : St σ} {k : Nat} (h : MultiInv f s k) {r : Nat}
    (hr : r ∈ s.ga.population) : (s.heap r).rank = some (.sc 1) ↔ NonDominated f (s.ga.population.map s.heap) (s.heap r) := by
  rw [← rankIn_one hr, h.rank r hr]
  simp

/-- What is needed before `update`. -/
structure BeforeUpdate (f : List Val → Except PyErr Ret) (s : St σ) (k : Nat) : Prop where
  alive : ∀ r ∈ s.ga.population, r < s.next
  scored : ∀ r ∈ s.ga.population, (s.heap r).score.isSome
  unsorted : s.ga.attrs.isSorted = false
  ready : Ready s
  rank : ∀ r ∈ s.ga.population, (s.heap r).rank = some (.sc (rankIn f s.heap s.ga.population r))
  vecs : 2 ≤ s.ga.population.length → ∀ r ∈ s.ga.population, ∃ b, IsVec f (s.heap r) b
  stored : ∀ fr g, storedFront s.ga.best = some (fr, g) → ∀ c ∈ fr, c < s.next ∧ c ∉ s.ga.population
  idx : s.ga.idxGeneration = k
  snaps : s.snaps.length = k
  hist : s.ga.histFronts.length = k
  count : (storedFront s.ga.best = some ([], none) ∧ s.ga.noImprove = k) ∨
    ∃ fr j, storedFront s.ga.best = some (fr, some j) ∧ j + s.ga.noImprove + 1 = k

theorem multiUpdate_inv [DecidableEq σ] {f : List Val → Except PyErr Ret} {s s' : St σ} {u : Unit} {k : Nat}
    (hb : BeforeUpdate f s k) (h : multiUpdate s = (.ok u, s')) :
    MultiInv f s' (k + 1) ∧ s'.ga.population.Perm s.ga.population ∧ (∀ r, r < s.next → s'.heap r = s.heap r) ∧
      s'.ga.attrs = s.ga.attrs ∧ s.next ≤ s'.next ∧ s'.snaps = s.snaps ++ [s'.ga.population.map s'.heap] ∧
      s'.ga.histFronts = s.ga.histFronts ++ [s'.ga.population.filter fun r => (s'.heap r).rank = some (.sc 1)] ∧
      (∀ fr g, storedFront s.ga.best = some (fr, g) →
        (s'.ga.best = some (.pareto fr g) ∧ s'.ga.noImprove = s.ga.noImprove + 1 ∧
          fr.map s.heap = (s'.ga.population.filter fun r => (s'.heap r).rank = some (.sc 1)).map s'.heap) ∨
        (s'.ga.noImprove = 0 ∧
          fr.map s.heap ≠ (s'.ga.population.filter fun r => (s'.heap r).rank = some (.sc 1)).map s'.heap ∧
          ∃ fr', s'.ga.best = some (.pareto fr' (some k)) ∧ ∀ c ∈ fr', s.next ≤ c)) := by
  obtain ⟨pop, front, s1, hs, hf, hd, rfl⟩ := multiUpdate_ok h hb.unsorted hb.alive
  have halp : ∀ r ∈ pop, r < s.next := fun r hr => hb.alive r (hs.perm.subset hr)
  have hrkp : ∀ r ∈ pop, (s.heap r).rank = some (.sc (rankIn f s.heap pop r)) := by
    intro r hr
    rw [hb.rank r (hs.perm.subset hr), rankIn_perm hs.perm]
  have hord : RankSorted s.heap pop := by
    refine ⟨fun r hr => ⟨_, hrkp r hr, rankIn_ge _ _ _ _⟩, ?_⟩
    refine hs.sorted.imp ?_
    intro a b hab x y hx hy
    exact hab x y (by unfold scRank; rw [hx]) (by unfold scRank; rw [hy])
  have hfr : front = pop.filter fun r => (s.heap r).rank = some (.sc 1) := by rw [hf, hord.front]
  -- the part independent of the decision
  have common : ∀ (h' : Nat → Ind σ) (nx : Nat) (fr : List Nat) (g : Option Nat) (ni : Nat),
      (∀ r, r < s.next → h' r = s.heap r) → s.next ≤ nx → (∀ c ∈ fr, c < nx ∧ c ∉ pop) → fr.map h' = front.map s.heap →
      ((fr = [] ∧ g = none ∧ ni = k + 1) ∨ ∃ j, g = some j ∧ j + ni + 1 = k + 1) →
      let s2 : St σ := { s with
        heap := h'
        next := nx
        ga := { s.ga with
          population := pop
          histFronts := s.ga.histFronts ++ [front]
          best := some (.pareto fr g), noImprove := ni, idxGeneration := s.ga.idxGeneration + 1 }
        snaps := s.snaps ++ [pop.map h'] }
      MultiInv f s2 (k + 1) ∧ s2.ga.population.Perm s.ga.population ∧ (∀ r, r < s.next → s2.heap r = s.heap r) ∧
      s2.ga.attrs = s.ga.attrs ∧ s.next ≤ s2.next ∧ s2.snaps = s.snaps ++ [s2.ga.population.map s2.heap] ∧
      s2.ga.histFronts = s.ga.histFronts ++ [s2.ga.population.filter fun r => (s2.heap r).rank = some (.sc 1)] ∧
      front = (pop.filter fun r => (s2.heap r).rank = some (.sc 1)) ∧
      (pop.filter fun r => (s2.heap r).rank = some (.sc 1)).map s2.heap = front.map s.heap := by
    intro h' nx fr g ni c1 c2 c3 c4 c5 s2
    have hm : pop.map h' = pop.map s.heap := List.map_congr_left fun r hr => c1 r (halp r hr)
    have hfil : front = pop.filter fun r => (h' r).rank = some (.sc 1) := by
      rw [hfr]
      exact List.filter_congr fun r hr => by rw [c1 r (halp r hr)]
    have hmap : (pop.filter fun r => (h' r).rank = some (.sc 1)).map h' = front.map s.heap := by
      rw [← hfil]
      refine List.map_congr_left fun r hr => c1 r (halp r ?_)
      rw [hfr] at hr
      exact (List.mem_filter.mp hr).1
    refine ⟨⟨fun r hr => (halp r hr).trans_le c2, ?_, hb.unsorted, ?_, ?_, ?_, ?_, ⟨fr, g, rfl, c3, ?_⟩, ?_, ?_, ?_, ?_, ?_⟩, hs.perm, c1, rfl, c2, rfl,
      ?_, hfil, hmap⟩
    · intro r hr
      simp only [s2] at hr ⊢
      rw [c1 r (halp r hr)]; exact hb.scored r (hs.perm.subset hr)
    · intro hp r hr
      simp only [s2] at hr ⊢
      rw [c1 r (halp r hr)]; exact hb.ready hp r (hs.perm.subset hr)
    · intro r hr
      simp only [s2] at hr ⊢
      rw [c1 r (halp r hr), hrkp r hr, rankIn_congr (h := h') (h' := s.heap) (fun q hq => by rw [c1 q (halp q hq)]) hr]
    · intro hl r hr
      simp only [s2] at hl hr ⊢
      rw [c1 r (halp r hr)]
      exact hb.vecs (by rw [← hs.perm.length_eq]; exact hl) r (hs.perm.subset hr)
    · refine ⟨?_, ?_⟩
      · intro r hr
        simp only [s2] at hr ⊢
        rw [c1 r (halp r hr)]; exact hord.1 r hr
      · refine List.Pairwise.imp_of_mem ?_ hord.2
        intro a b ha hb' hab
        simp only [s2]
        rw [c1 a (halp a ha), c1 b (halp b hb')]
        exact hab
    · simp only [s2]
      rw [c4, hmap]
    · simp [s2, hb.idx]
    · simp [s2, hb.snaps]
    · simp [s2, hb.hist]
    · simp [s2]
    · rcases c5 with ⟨rfl, rfl, e⟩ | ⟨j, rfl, e⟩
      · exact Or.inl ⟨rfl, e⟩
      · exact Or.inr ⟨fr, j, rfl, e⟩
    · simp only [s2]; rw [hfil]
  cases hd with
  | @same fr g e1 e2 =>
    simp only at e1 e2
    obtain ⟨c1, c2, c3, c4, c5, c6, c7, c9, c10⟩ := common s.heap s.next fr g (s.ga.noImprove + 1) (fun _ _ => rfl) le_rfl
      (fun c hc => ⟨(hb.stored fr g e1 c hc).1, fun hm => (hb.stored fr g e1 c hc).2 (hs.perm.subset hm)⟩) e2 (by
        rcases hb.count with ⟨a, b⟩ | ⟨fr', j, a, b⟩
        · rw [e1] at a
          simp only [Option.some.injEq, Prod.mk.injEq] at a
          exact Or.inl ⟨a.1, a.2, by omega⟩
        · rw [e1] at a
          simp only [Option.some.injEq, Prod.mk.injEq] at a
          exact Or.inr ⟨j, a.2, by omega⟩)
    refine ⟨c1, c2, c3, c4, c5, c6, c7, ?_⟩
    intro fr' g' e
    rw [e1] at e
    simp only [Option.some.injEq, Prod.mk.injEq] at e
    obtain ⟨rfl, rfl⟩ := e
    exact Or.inl ⟨rfl, rfl, e2.trans c10.symm⟩
  | @new fr g h' e1 e2 e3 e4 =>
    simp only at e1 e2 e3 e4
    obtain ⟨c1, c2, c3, c4, c5, c6, c7, c9, c10⟩ := common h' (s.next + front.length) (List.range' s.next front.length)
      (some s.ga.idxGeneration) 0 e3 (Nat.le_add_right _ _) (by
        intro c hc
        rw [List.mem_range'_1] at hc
        refine ⟨hc.2, fun hm => ?_⟩
        have := halp c hm
        omega) e4 (Or.inr ⟨_, rfl, by rw [hb.idx]⟩)
    refine ⟨c1, c2, c3, c4, c5, c6, c7, ?_⟩
    intro fr' g' e
    rw [e1] at e
    simp only [Option.some.injEq, Prod.mk.injEq] at e
    obtain ⟨rfl, rfl⟩ := e
    refine Or.inr ⟨rfl, fun e => e2 (e.trans c10), List.range' s.next front.length, ?_, ?_⟩
    · rw [hb.idx]
    · intro c hc
      rw [List.mem_range'_1] at hc
      exact hc.1

/-! ## generations -/

/-- Effect of forming the next population: children and some members; nothing else changes. -/
def Transfers (ng : M σ Unit) : Prop :=
  ∀ (s s' : St σ) (u : Unit), Ready s → ng s = (.ok u, s') → ∃ es t, (∀ r ∈ es, r ∈ s.ga.population) ∧
    s' = { s with
      tape := t
      ga := { s.ga with
        children := s.ga.children ++ es
        population := s.ga.children ++ es
        attrs := { s.ga.attrs with isSorted := false } } }

theorem newGen_transfers [LinearOrder σ] (tr : Transfer) : Transfers (σ := σ) (newGenExec tr) := by
  intro s s' u _ h
  obtain ⟨pop, es, t, hp, _, _, hel, e, _⟩ := newGenExec_ok h
  exact ⟨es, t, fun r hr => hp.subset (hel.mem r hr), e⟩

theorem ensurePhenotype_ready {s s' : St σ} {u : Unit} (hr : Ready s) (h : ensurePhenotype s = (.ok u, s')) : s' = s := by
  obtain ⟨e, h1, h2⟩ := ensurePhenotype_ok h
  have : s'.heap = s.heap := by
    funext r
    by_cases hm : r ∈ s.ga.population
    · have := h1 r hm
      unfold Decoded at this
      split at this
      · rename_i hp
        rcases this with ⟨_, e⟩ | ⟨e, _⟩
        · exact e
        · have := hr hp r hm
          rw [e] at this; simp at this
      · exact this
    · exact h2 r hm
  rw [e, this]

theorem multiNewGen_ok {tr : Transfer} {s s' : St σ} {u : Unit} (hr : Ready s) (h : multiNewGenExec tr s = (.ok u, s')) :
    ∃ es t, (∀ r ∈ es, r ∈ s.ga.population) ∧
    (tr = .best → es = s.ga.population.takeWhile fun r => (s.heap r).rank = some (.sc 1)) ∧
    (tr = .random → es.length = 11 ∧ es.getLast? = s.ga.population.getLast?) ∧
    s' = { s with
      tape := t
      ga := { s.ga with
        children := s.ga.children ++ es
        population := s.ga.children ++ es
        attrs := { s.ga.attrs with isSorted := false } } } := by
  unfold multiNewGenExec at h
  obtain ⟨_, s1, h1, h2⟩ := bind_ok.mp h
  obtain rfl := ensurePhenotype_ready hr h1
  obtain ⟨es, s2, h3, h4⟩ := bind_ok.mp h2
  unfold installPop at h4
  rw [modGa_ok] at h4
  unfold chooseFront at h3
  rw [bind_of_ok (getGa_run s1)] at h3
  cases tr with
  | best =>
    simp only [frontPrefix_run] at h3
    obtain ⟨e1, rfl⟩ := Prod.mk.inj h3
    injection e1 with e1
    subst e1
    exact ⟨_, s1.tape, fun r hr => (List.takeWhile_sublist _).subset hr, fun _ => rfl, fun e => by simp at e, h4⟩
  | random =>
    simp only at h3
    obtain ⟨⟨t, rfl⟩, hel, hlen, _⟩ := addRandom_ok h3
    exact ⟨es, t, hel.mem, fun e => by simp at e, fun _ => ⟨hlen, hel.last⟩, h4⟩

theorem multiNewGen_transfers (tr : Transfer) : Transfers (σ := σ) (multiNewGenExec tr) := by
  intro s s' u hr h
  obtain ⟨es, t, h1, _, _, h2⟩ := multiNewGen_ok hr h
  exact ⟨es, t, h1, h2⟩

/-- Components of a multi-objective run. -/
structure MultiRun [DecidableEq σ] (ops : Ops σ) (fit : Fit σ) (op : CrossOp) (mop : MutOp) : Prop where
  fitness : ops.fitness = multiFitnessExec fit
  update : ops.update = multiUpdate
  selection : Selects ops.selection
  crossover : ops.crossover = crossExec op
  mutation : ops.mutation = mutExec mop
  newGen : Transfers ops.newGen
  uniform : UniformVecs fit.task.obj1

/-- Evaluation prepares the update. -/
theorem multiFitness_before {fit : Fit σ} {s s' : St σ} {u : Unit} {k : Nat} (hf : UniformVecs fit.task.obj1)
    (h : multiFitnessExec fit s = (.ok u, s'))
    (hnd : (unscored s.heap s.ga.population).Nodup) (hal : ∀ r ∈ s.ga.population, r < s.next)
    (hns : s.ga.attrs.isSorted = false)
    (hst : ∀ fr g, storedFront s.ga.best = some (fr, g) → ∀ c ∈ fr, c < s.next ∧ c ∉ s.ga.population)
    (hidx : s.ga.idxGeneration = k) (hsn : s.snaps.length = k) (hh : s.ga.histFronts.length = k)
    (hc : (storedFront s.ga.best = some ([], none) ∧ s.ga.noImprove = k) ∨
      ∃ fr j, storedFront s.ga.best = some (fr, some j) ∧ j + s.ga.noImprove + 1 = k) :
    BeforeUpdate fit.task.obj1 s' k := by
  have hS := multiFitness_isFitness hf s s' u hnd h
  obtain ⟨a1, a2, a3, a4⟩ := multiFitness_ok h hnd fun h' _ => hf.fit _ _
  have hga := hS.ga
  refine ⟨by rw [hga, hS.next]; exact hal, by rw [hga]; exact hS.done, by rw [hga]; exact hns, ?_, ?_, by rw [hga]; exact a4, ?_,
    by rw [hga]; exact hidx, by rw [hS.snaps]; exact hsn, by rw [hga]; exact hh,
    by rw [hga]; exact hc⟩
  · intro hp r hr
    rw [hga] at hp hr
    obtain ⟨m, b1, _, _, b4, _⟩ := a3 r hr
    rw [b4]
    unfold Decoded at b1
    rw [if_pos hp] at b1
    rcases b1 with ⟨e, rfl⟩ | ⟨_, g, p, _, _, rfl⟩
    · exact e
    · rfl
  · intro r hr
    rw [hga] at hr ⊢
    exact (a3 r hr).choose_spec.2.2.2.2
  · rw [hga, hS.next]; exact hst

/-- The first generation. -/
theorem multi_first [DecidableEq σ] {fit : Fit σ} (hf : UniformVecs fit.task.obj1) {s0 s1 s : St σ} (h0 : Fresh s0)
    (h1 : multiFitnessExec fit s0 = (.ok (), s1)) (h2 : multiUpdate s1 = (.ok (), s)) :
    MultiInv fit.task.obj1 s 1 ∧ s.ga.population.Perm s0.ga.population ∧ Scored s0 s1 ∧
      (∀ r, r < s0.next → s.heap r = s1.heap r) ∧ s.ga.attrs = s0.ga.attrs ∧ s0.next ≤ s.next ∧
      s.snaps = [s.ga.population.map s.heap] := by
  have hnd := h0.distinct.sublist (unscored_sublist s0.heap s0.ga.population)
  have hS := multiFitness_isFitness hf s0 s1 _ hnd h1
  have hB := multiFitness_before (k := 0) hf h1 hnd h0.alive h0.unsorted
    (by intro fr g e; rw [h0.best] at e; simp [storedFront] at e; rw [e.1]; simp) h0.idx (by rw [h0.snaps]; rfl) (by rw [h0.histFronts]; rfl)
    (Or.inl ⟨by rw [h0.best]; rfl, h0.noImprove⟩)
  obtain ⟨a1, a2, a3, a4, a5, a6, _⟩ := multiUpdate_inv hB h2
  rw [hS.ga] at a2 a4
  rw [hS.next] at a3 a5
  rw [hS.snaps, h0.snaps] at a6
  exact ⟨a1, a2, hS, a3, a4, a5, a6⟩

/-- One more generation with its intermediate states: after mutation, after `new_generation`, after evaluation. -/
theorem multi_steps [DecidableEq σ] {ops : Ops σ} {fit : Fit σ} {op : CrossOp} {mop : MutOp}
    (hops : MultiRun ops fit op mop) {s s' : St σ} {u : Unit} {k : Nat} (hs : MultiInv fit.task.obj1 s k)
    (h : generation ops s = (.ok u, s')) :
    MultiInv fit.task.obj1 s' (k + 1) ∧ ∃ s0 s1 s2 s3 es t, ops.selection s = (.ok (), s0) ∧
      (∀ r, r < s0.next → s1.heap r = s0.heap r) ∧ s.next ≤ s0.next ∧ s1.ga.parents = s0.ga.parents ∧
      breed ops.selection op mop s = (.ok (), s1) ∧ Bore op mop s s1 ∧ Ready s1 ∧ ops.newGen s1 = (.ok (), s2) ∧
      (∀ r ∈ es, r ∈ s.ga.population) ∧
      s2 = { s1 with
        tape := t
        ga := { s1.ga with
          children := s1.ga.children ++ es
          population := s1.ga.children ++ es
          attrs := { s1.ga.attrs with isSorted := false } } } ∧
      unscored s2.heap s2.ga.population = s1.ga.children ∧
      multiFitnessExec fit s2 = (.ok (), s3) ∧ Scored s2 s3 ∧ BeforeUpdate fit.task.obj1 s3 k ∧ multiUpdate s3 = (.ok (), s') ∧
      s'.ga.population.Perm (s1.ga.children ++ es) ∧ (∀ r, r < s1.next → s'.heap r = s3.heap r) ∧
      s'.ga.attrs = s.ga.attrs ∧ s1.next ≤ s'.next ∧ s.next ≤ s1.next ∧
      s'.snaps = s.snaps ++ [s'.ga.population.map s'.heap] ∧ (∀ r ∈ es, SameCore (s.heap r) (s'.heap r)) := by
  unfold generation at h
  obtain ⟨_, a1, h1, k1⟩ := bind_ok.mp h
  obtain ⟨_, a2, h2, k2⟩ := bind_ok.mp k1
  obtain ⟨_, a3, h3, k3⟩ := bind_ok.mp k2
  obtain ⟨_, a4, h4, k4⟩ := bind_ok.mp k3
  obtain ⟨_, a5, h5, k5⟩ := bind_ok.mp k4
  rw [hops.crossover] at h2
  rw [hops.mutation] at h3
  rw [hops.fitness] at h5
  rw [hops.update] at k5
  have hbr : breed ops.selection op mop s = (.ok (), a3) := by
    unfold breed
    rw [bind_of_ok h1, bind_of_ok h2]
    exact h3
  obtain ⟨hB, b1, hb1, hb2, hb3, hb4⟩ := breed_bore hops.selection hs.alive hbr
  rw [h1] at hb1
  obtain rfl : a1 = b1 := (Prod.mk.inj hb1).2
  have hsn : s.next ≤ a1.next := (hops.selection s a1 _ hs.alive h1).next
  have hpop : a3.ga.population = s.ga.population := by rw [hB.ga]
  have hattr : a3.ga.attrs = s.ga.attrs := by rw [hB.ga]
  have hready : Ready a3 := by
    intro hp r hr
    rw [hattr] at hp
    rw [hpop] at hr
    rw [(hB.core r (hs.alive r hr)).phenotype]
    exact hs.ready hp r hr
  obtain ⟨es, t, hes, e2⟩ := hops.newGen a3 a4 _ hready h4
  rw [hpop] at hes
  obtain ⟨n0, hn0, hrange, hn1⟩ := hB.range
  have hn13 : s.next ≤ a3.next := by omega
  have hp4 : a4.ga.population = a3.ga.children ++ es := by rw [e2]
  have hh4 : a4.heap = a3.heap := by rw [e2]
  have hnx4 : a4.next = a3.next := by rw [e2]
  have hun : unscored a4.heap a4.ga.population = a3.ga.children := by
    rw [hh4, hp4]
    unfold unscored
    rw [List.filter_append]
    have c1 : (a3.ga.children.filter fun r => (a3.heap r).score.isNone) = a3.ga.children := by
      rw [List.filter_eq_self]
      intro r hr
      obtain ⟨_, _, _, _, hnew⟩ := hB.new
      obtain ⟨g, hg, _⟩ := hnew r hr
      rw [hg]; rfl
    have c2 : (es.filter fun r => (a3.heap r).score.isNone) = [] := by
      rw [List.filter_eq_nil_iff]
      intro r hr
      have hm := hes r hr
      rw [(hB.core r (hs.alive r hm)).score]
      have := hs.scored r hm
      cases hx : (s.heap r).score with
      | none => rw [hx] at this; simp at this
      | some v => simp
    rw [c1, c2, List.append_nil]
  have hnd : a3.ga.children.Nodup := by rw [hrange]; exact List.nodup_range'
  have hnd4 : (unscored a4.heap a4.ga.population).Nodup := by rw [hun]; exact hnd
  have hF := multiFitness_isFitness hops.uniform a4 a5 _ hnd4 h5
  have hal4 : ∀ r ∈ a4.ga.population, r < a4.next := by
    rw [hp4, hnx4]
    intro r hr
    rcases List.mem_append.mp hr with hr | hr
    · rw [hrange, List.mem_range'_1] at hr; omega
    · exact (hs.alive r (hes r hr)).trans_le hn13
  have hbest4 : a4.ga.best = s.ga.best := by rw [e2]; simp only; rw [hB.ga]
  have hBU := multiFitness_before (k := k) hops.uniform h5 hnd4 hal4 (by rw [e2])
    (by
      intro fr g e c hc
      obtain ⟨fr', g', f1, f2, _⟩ := hs.front
      rw [hbest4, f1] at e
      simp only [storedFront, Option.some.injEq, Prod.mk.injEq] at e
      obtain ⟨rfl, rfl⟩ := e
      obtain ⟨c1, c2⟩ := f2 c hc
      refine ⟨by rw [hnx4]; omega, ?_⟩
      rw [hp4, List.mem_append]
      rintro (hm | hm)
      · rw [hrange, List.mem_range'_1] at hm; omega
      · exact c2 (hes c hm))
    (by rw [e2]; simp only; rw [hB.ga]; exact hs.idx)
    (by rw [e2]; simp only; rw [hB.snaps]; exact hs.snaps)
    (by rw [e2]; simp only; rw [hB.ga]; exact hs.hist)
    (by
      have : a4.ga.noImprove = s.ga.noImprove := by rw [e2]; simp only; rw [hB.ga]
      rw [hbest4, this]; exact hs.count)
  obtain ⟨i1, i2, i3, i4, i5, i6, _⟩ := multiUpdate_inv hBU k5
  rw [hF.ga, hp4] at i2
  rw [hF.next, hnx4] at i3 i5
  rw [hF.ga] at i4
  have hsnap : a5.snaps = s.snaps := by rw [hF.snaps, e2]; simp only; exact hB.snaps
  rw [hsnap] at i6
  refine ⟨i1, a1, a3, a4, a5, es, t, h1, hb3, hsn, hb4, hbr, hB, hready, h4, hes, e2, hun, h5, hF, hBU, k5, i2, i3, ?_, i5, hn13, i6, ?_⟩
  · rw [i4, e2]
    simp only
    rw [hattr]
    have := hs.unsorted
    cases ha : s.ga.attrs with
    | mk x1 x2 x3 x4 x5 x6 => rw [ha] at this; simp at this; rw [this]
  · intro r hr
    have hm := hes r hr
    have hlt := hs.alive r hm
    have hr4 : r ∈ a4.ga.population := by rw [hp4]; exact List.mem_append_right _ hr
    obtain ⟨_, _, c3, _⟩ := multiFitness_ok h5 hnd4 fun h' _ => hops.uniform.fit _ _
    obtain ⟨m, d1, d2, _⟩ := c3 r hr4
    have hcore := hB.core r hlt
    have hsc : (a4.heap r).score.isSome := by rw [hh4, hcore.score]; exact hs.scored r hm
    have hm4 : m = a4.heap r := by
      unfold Decoded at d1
      split at d1
      · rename_i hp
        rcases d1 with ⟨_, e⟩ | ⟨e, _⟩
        · exact e
        · have hp' : a3.ga.attrs.isPhenotype = true := by rw [e2] at hp; exact hp
          have := hready hp' r (by rw [hpop]; exact hm)
          rw [← hh4, e] at this; simp at this
      · exact d1
    rw [i3 r (by omega), d2 hsc, hm4, hh4]
    refine hcore.trans ?_
    unfold SameCore
    rfl

/-- The same without the run that leads to the state after mutation. -/
theorem multi_generation [DecidableEq σ] {ops : Ops σ} {fit : Fit σ} {op : CrossOp} {mop : MutOp}
    (hops : MultiRun ops fit op mop) {s s' : St σ} {u : Unit} {k : Nat} (hs : MultiInv fit.task.obj1 s k)
    (h : generation ops s = (.ok u, s')) :
    MultiInv fit.task.obj1 s' (k + 1) ∧ ∃ s0 s1 s2 s3 es t, ops.selection s = (.ok (), s0) ∧
      (∀ r, r < s0.next → s1.heap r = s0.heap r) ∧ s.next ≤ s0.next ∧ s1.ga.parents = s0.ga.parents ∧
      Bore op mop s s1 ∧ Ready s1 ∧ ops.newGen s1 = (.ok (), s2) ∧
      (∀ r ∈ es, r ∈ s.ga.population) ∧
      s2 = { s1 with
        tape := t
        ga := { s1.ga with
          children := s1.ga.children ++ es
          population := s1.ga.children ++ es
          attrs := { s1.ga.attrs with isSorted := false } } } ∧
      unscored s2.heap s2.ga.population = s1.ga.children ∧
      multiFitnessExec fit s2 = (.ok (), s3) ∧ Scored s2 s3 ∧ BeforeUpdate fit.task.obj1 s3 k ∧ multiUpdate s3 = (.ok (), s') ∧
      s'.ga.population.Perm (s1.ga.children ++ es) ∧ (∀ r, r < s1.next → s'.heap r = s3.heap r) ∧
      s'.ga.attrs = s.ga.attrs ∧ s1.next ≤ s'.next ∧ s.next ≤ s1.next ∧
      s'.snaps = s.snaps ++ [s'.ga.population.map s'.heap] ∧ (∀ r ∈ es, SameCore (s.heap r) (s'.heap r)) := by
  obtain ⟨i, a1, a3, a4, a5, es, t, h1, h2, h3, h4, _, h5⟩ := multi_steps hops hs h
  exact ⟨i, a1, a3, a4, a5, es, t, h1, h2, h3, h4, h5⟩

/-- The invariant holds after every generation. -/
theorem After.multi [DecidableEq σ] {ops : Ops σ} {fit : Fit σ} {op : CrossOp} {mop : MutOp}
    (hops : MultiRun ops fit op mop) {s0 s : St σ} {k : Nat} (h0 : Fresh s0)
    (h : After ops s0 k s) : MultiInv fit.task.obj1 s k := by
  induction h with
  | first h1 h2 =>
    rw [hops.fitness] at h1
    rw [hops.update] at h2
    exact (multi_first hops.uniform h0 h1 h2).1
  | next _ h2 ih => exact (multi_generation hops ih h2).1

end BaumEva
