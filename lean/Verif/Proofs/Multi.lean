import Verif.Proofs.Pareto
import Verif.Proofs.Run
/-!
# Evaluation and update of multi-objective runs
-/
namespace BaumEva
variable {σ : Type}

/-! ## fitness -/

theorem UniformVecs.fit {f : List Val → Except PyErr Ret} (hf : UniformVecs f) (h : Nat → Ind σ) (l : List Nat) :
    VecsFit f h l := by
  rintro a _ b _ x y ⟨p, _, h1⟩ ⟨q, _, h2⟩
  exact hf p q x y h1 h2

theorem ensurePhenotype_ok {s s' : St σ} {u : Unit} (h : ensurePhenotype s = (.ok u, s')) :
    s' = { s with heap := s'.heap } ∧ (∀ r ∈ s.ga.population, Decoded s.ga (s.heap r) (s'.heap r)) ∧
    (∀ r, r ∉ s.ga.population → s'.heap r = s.heap r) := by
  unfold ensurePhenotype at h
  rw [bind_of_ok (getGa_run s), ite_run] at h
  split at h
  · rename_i hp
    obtain ⟨⟨h1, e⟩, h2, h3⟩ := getPhenotype_ok h
    refine ⟨by rw [e], fun r hr => ?_, h3⟩
    unfold Decoded; rw [if_pos hp]; exact h2 r hr
  · rename_i hp
    obtain ⟨_, rfl⟩ := pure_ok.mp h
    refine ⟨rfl, fun r hr => ?_, fun _ _ => rfl⟩
    unfold Decoded; rw [if_neg hp]

/-- Decoding a second time changes nothing. -/
theorem Decoded.again {ga : GaData σ} {a b c : Ind σ} (h1 : Decoded ga a b) (q : Option Rank)
    (h2 : Decoded ga { b with rank := q } c) : c = { b with rank := q } := by
  unfold Decoded at h1 h2
  split at h1
  · rename_i hp
    rw [if_pos hp] at h2
    have hb : b.phenotype.isSome := by
      rcases h1 with ⟨h, rfl⟩ | ⟨_, g, p, _, _, rfl⟩
      · exact h
      · rfl
    rcases h2 with ⟨_, e⟩ | ⟨h, _⟩
    · exact e
    · simp only at h; rw [h] at hb; simp at hb
  · rename_i hp
    rw [if_neg hp] at h2
    exact h2

/-- The rank of an individual in a list of references. -/
noncomputable def rankIn (f : List Val → Except PyErr Ret) (h : Nat → Ind σ) (l : List Nat) (r : Nat) : ℚ :=
  1 + (l.count r * dominators f (l.map h) (h r) : Nat)

theorem dominators_congr {f : List Val → Except PyErr Ret} {h h' : Nat → Ind σ} {l : List Nat} {a b : Ind σ}
    (hh : ∀ r ∈ l, (h r).phenotype = (h' r).phenotype) (ha : a.phenotype = b.phenotype) :
    dominators f (l.map h) a = dominators f (l.map h') b := by
  unfold dominators
  rw [List.countP_map, List.countP_map]
  apply List.countP_congr
  intro r hr
  simp only [Function.comp_apply]
  rw [vecOf_congr (hh r hr), vecOf_congr ha]

/-- Complete description of `MultiFitness.execute`. -/
theorem multiFitness_ok {fit : Fit σ} {s s' : St σ} {u : Unit} (h : multiFitnessExec fit s = (.ok u, s'))
    (hnd : (unscored s.heap s.ga.population).Nodup)
    (hv : ∀ h', (∀ r ∈ s.ga.population, Decoded s.ga (s.heap r) (h' r)) → VecsFit fit.task.obj1 h' s.ga.population) :
    HeapCalls s s' ∧ (∀ r, r ∉ s.ga.population → s'.heap r = s.heap r) ∧
    (∀ r ∈ s.ga.population, ∃ m, Decoded s.ga (s.heap r) m ∧
      ((s.heap r).score.isSome → s'.heap r = { m with rank := some (.sc (rankIn fit.task.obj1 s'.heap s.ga.population r)) }) ∧
      ((s.heap r).score = none → ∃ best, Evaluated fit s.ga best
        { m with rank := some (.sc (rankIn fit.task.obj1 s'.heap s.ga.population r)) } (s'.heap r)) ∧
      (s'.heap r).phenotype = m.phenotype ∧
      (s'.heap r).rank = some (.sc (rankIn fit.task.obj1 s'.heap s.ga.population r))) ∧
    (2 ≤ s.ga.population.length → ∀ r ∈ s.ga.population, ∃ b, IsVec fit.task.obj1 (s'.heap r) b) := by
  unfold multiFitnessExec at h
  obtain ⟨_, s1, h1, k1⟩ := bind_ok.mp h
  obtain ⟨_, s2, h2, h3⟩ := bind_ok.mp k1
  obtain ⟨e1, d1, o1⟩ := ensurePhenotype_ok h1
  have hga1 : s1.ga = s.ga := by rw [e1]
  obtain ⟨c2, r2, o2, v2⟩ := assignRanks_ok h2 (by rw [hga1]; exact hv _ d1)
  rw [hga1] at r2 o2 v2
  have hga2 : s2.ga = s.ga := by rw [c2, hga1]
  have hsc : ∀ r, (s2.heap r).score = (s.heap r).score := by
    intro r
    by_cases hr : r ∈ s.ga.population
    · rw [r2 r hr]; simp only; rw [(d1 r hr).keeps]
    · rw [o2 r hr, o1 r hr]
  have hus : unscored s2.heap s2.ga.population = unscored s.heap s.ga.population := by
    rw [hga2]
    unfold unscored
    exact List.filter_congr fun r _ => by rw [hsc]
  obtain ⟨c3, _, o3, k3, n3⟩ := baseFitness_ok h3 (by rw [hus]; exact hnd)
  rw [hus] at n3
  rw [hga2] at o3 k3 n3
  -- phenotypes are those after decoding
  have hdec : ∀ r ∈ s.ga.population, ∀ c, Decoded s.ga (s2.heap r) c → c = s2.heap r := by
    intro r hr c hc
    have := r2 r hr
    rw [this] at hc ⊢
    exact (d1 r hr).again _ hc
  have hph : ∀ r ∈ s.ga.population, (s'.heap r).phenotype = (s1.heap r).phenotype ∧ (s'.heap r).rank = (s2.heap r).rank := by
    intro r hr
    have e : (s2.heap r).phenotype = (s1.heap r).phenotype := by rw [r2 r hr]
    cases hs : (s.heap r).score with
    | some v =>
      rw [hdec r hr _ (k3 r hr (by rw [hsc, hs]; rfl)), e]
      exact ⟨rfl, rfl⟩
    | none =>
      obtain ⟨m, best, a1, _, a3⟩ := n3 r (mem_unscored.mpr ⟨hr, hs⟩)
      obtain ⟨_, _, b3, _, b5⟩ := a3.keeps
      rw [b3, b5, hdec r hr m a1, e]
      exact ⟨rfl, rfl⟩
  have hrk : ∀ r ∈ s.ga.population, s2.heap r =
      { s1.heap r with rank := some (.sc (rankIn fit.task.obj1 s'.heap s.ga.population r)) } := by
    intro r hr
    rw [r2 r hr]
    unfold rankIn
    rw [dominators_congr (h := s'.heap) (h' := s1.heap) (fun q hq => (hph q hq).1) (hph r hr).1]
  refine ⟨?_, ?_, ?_, ?_⟩
  · unfold HeapCalls at *
    rw [c3, c2, e1]
  · intro r hr
    rw [o3 r hr, o2 r hr, o1 r hr]
  · intro r hr
    refine ⟨s1.heap r, d1 r hr, ?_, ?_, (hph r hr).1, ?_⟩
    · intro hs
      rw [hdec r hr _ (k3 r hr (by rw [hsc]; exact hs)), hrk r hr]
    · intro hs
      obtain ⟨m, best, a1, _, a3⟩ := n3 r (mem_unscored.mpr ⟨hr, hs⟩)
      refine ⟨best, ?_⟩
      rw [← hrk r hr, ← hdec r hr m a1]
      exact a3
    · rw [(hph r hr).2, hrk r hr]
  · intro hl r hr
    obtain ⟨b, hb⟩ := v2 hl r hr
    exact ⟨b, hb.congr (hph r hr).1.symm⟩

theorem multiFitness_isFitness {fit : Fit σ} (hv : UniformVecs fit.task.obj1) : IsFitness (multiFitnessExec fit) := by
  intro s s' u hnd h
  obtain ⟨a1, a2, a3, _⟩ := multiFitness_ok h hnd fun h' _ => hv.fit _ _
  refine ⟨a1, a2, ?_, ?_, ?_⟩
  · intro r hr hs
    obtain ⟨m, b1, b2, _⟩ := a3 r hr
    rw [b2 hs, b1.keeps]
  · intro r hr
    obtain ⟨m, b1, b2, b3, _⟩ := a3 r hr
    cases hs : (s.heap r).score with
    | some v => rw [b2 (by rw [hs]; rfl), b1.keeps]
    | none =>
      obtain ⟨best, he⟩ := b3 hs
      rw [he.keeps.2.1, b1.keeps]
  · intro r hr
    obtain ⟨m, b1, b2, b3, _⟩ := a3 r hr
    cases hs : (s.heap r).score with
    | some v => rw [b2 (by rw [hs]; rfl), b1.keeps, hs]; rfl
    | none =>
      obtain ⟨best, he⟩ := b3 hs
      exact he.keeps.1

/-! ## update -/

theorem frontPrefix_run (rs : List Nat) (s : St σ) :
    frontPrefix rs s = (.ok (rs.takeWhile fun r => (s.heap r).rank = some (.sc 1)), s) := rfl

/-- A list of references in ascending order of the ranks, all of which are numbers of at least 1. -/
def RankSorted (h : Nat → Ind σ) (l : List Nat) : Prop :=
  (∀ r ∈ l, ∃ q, (h r).rank = some (.sc q) ∧ 1 ≤ q) ∧
  l.Pairwise fun a b => ∀ x y, (h a).rank = some (.sc x) → (h b).rank = some (.sc y) → x ≤ y

/-- The prefix of rank 1 is everything of rank 1. -/
theorem RankSorted.front {h : Nat → Ind σ} {l : List Nat} (hs : RankSorted h l) :
    (l.takeWhile fun r => (h r).rank = some (.sc 1)) = l.filter fun r => (h r).rank = some (.sc 1) := by
  induction l with
  | nil => rfl
  | cons x xs ih =>
    obtain ⟨h1, h2⟩ := hs
    rw [List.pairwise_cons] at h2
    by_cases hx : (h x).rank = some (.sc 1)
    · rw [List.takeWhile_cons_of_pos (by simpa using hx), List.filter_cons_of_pos (by simpa using hx),
        ih ⟨fun r hr => h1 r (by simp [hr]), h2.2⟩]
    · rw [List.takeWhile_cons_of_neg (by simpa using hx), List.filter_cons_of_neg (by simpa using hx)]
      symm
      rw [List.filter_eq_nil_iff]
      intro y hy
      simp only [decide_eq_true_eq]
      intro hy1
      obtain ⟨q, hq, hq1⟩ := h1 x (by simp)
      have := h2.1 y hy q 1 hq hy1
      exact hx (by rw [hq, le_antisymm this hq1])

theorem copyAll_ok : ∀ {rs : List Nat} {s s' : St σ} {cs : List Nat}, copyAll rs s = (.ok cs, s') →
    (∀ r ∈ rs, r < s.next) →
    cs = List.range' s.next rs.length ∧ s' = { s with heap := s'.heap, next := s.next + rs.length } ∧
    (∀ r, r < s.next → s'.heap r = s.heap r) ∧ cs.map s'.heap = rs.map s.heap := by
  intro rs
  unfold copyAll
  induction rs with
  | nil =>
    intro s s' cs h _
    obtain ⟨rfl, rfl⟩ := mapEach_nil_ok.mp h
    exact ⟨rfl, rfl, fun _ _ => rfl, rfl⟩
  | cons r rs ih =>
    intro s s' cs h hal
    obtain ⟨y, ys, s1, h1, h2, rfl⟩ := mapEach_cons_ok.mp h
    rw [bind_of_ok (getInd_run r s)] at h1
    obtain ⟨rfl, rfl⟩ := alloc_ok.mp h1
    obtain ⟨a1, a2, a3, a4⟩ := ih h2 fun q hq => Nat.lt_succ_of_lt (hal q (by simp [hq]))
    simp only at a1 a2 a3 a4
    have hup : ∀ q, q < s.next → upd s.heap s.next (s.heap r) q = s.heap q := fun q hq => upd_ne (Nat.ne_of_lt hq)
    refine ⟨?_, ?_, ?_, ?_⟩
    · rw [a1, List.length_cons, List.range'_succ]
    · rw [a2, List.length_cons]; congr 1; omega
    · intro q hq
      rw [a3 q (Nat.lt_succ_of_lt hq), hup q hq]
    · rw [List.map_cons, List.map_cons, a4, a3 _ (Nat.lt_succ_self _), upd_same]
      congr 1
      exact List.map_congr_left fun q hq => hup q (hal q (by simp [hq]))

/-- The Pareto set stored in `best_solution` (empty at first). -/
def storedFront : Option Best → Option (List Nat × Option Nat)
  | none => some ([], none)
  | some (.pareto f g) => some (f, g)
  | some (.single _ _) => none

/-- What `MultiGaData.update` does to `best_solution` and the counter. -/
inductive FrontDecided (s : St σ) (front : List Nat) : St σ → Prop
  | same {f : List Nat} {g : Option Nat} : storedFront s.ga.best = some (f, g) → f.map s.heap = front.map s.heap →
      FrontDecided s front { s with ga := { s.ga with best := some (.pareto f g), noImprove := s.ga.noImprove + 1 } }
  | new {f : List Nat} {g : Option Nat} {h' : Nat → Ind σ} : storedFront s.ga.best = some (f, g) →
      f.map s.heap ≠ front.map s.heap →
      (∀ r, r < s.next → h' r = s.heap r) → (List.range' s.next front.length).map h' = front.map s.heap →
      FrontDecided s front { s with
        heap := h'
        next := s.next + front.length
        ga := { s.ga with
          best := some (.pareto (List.range' s.next front.length) (some s.ga.idxGeneration)), noImprove := 0 } }

theorem initFront_ok {s s' : St σ} {u : Unit} (h : initFront s = (.ok u, s')) :
    ∃ b, s' = { s with ga := { s.ga with best := some b } } ∧
      (∀ f g, b = .pareto f g → storedFront s.ga.best = some (f, g)) := by
  unfold initFront at h
  rw [bind_of_ok (getGa_run s)] at h
  cases hb : s.ga.best with
  | none =>
    simp only [hb, modGa_ok] at h
    subst h
    refine ⟨_, rfl, ?_⟩
    intro f g e
    injection e with e1 e2
    subst e1 e2
    rfl
  | some b =>
    simp only [hb] at h
    obtain ⟨_, rfl⟩ := pure_ok.mp h
    refine ⟨b, by rw [← hb], ?_⟩
    rintro f g rfl
    rfl

theorem decideFront_ok [DecidableEq σ] {front : List Nat} {s0 s s' : St σ} {u : Unit}
    (hal : ∀ r ∈ front, r < s0.next) (h0 : initFront s0 = (.ok (), s)) (h : decideFront front s = (.ok u, s')) :
    FrontDecided s0 front s' := by
  obtain ⟨b, rfl, hb⟩ := initFront_ok h0
  unfold decideFront at h
  rw [bind_of_ok (getS_run _)] at h
  cases b with
  | single _ _ => simp only [throwE_ok] at h
  | pareto f g =>
    simp only at h
    rw [ite_run] at h
    split at h
    · rename_i hc
      rw [modGa_ok] at h
      subst h
      exact .same (hb f g rfl) hc
    · rename_i hc
      obtain ⟨cs, s1, h1, h2⟩ := bind_ok.mp h
      obtain ⟨rfl, a2, a3, a4⟩ := copyAll_ok h1 hal
      rw [modGa_ok] at h2
      subst h2
      have := FrontDecided.new (s := s0) (front := front) (h' := s1.heap) (hb f g rfl) hc a3 a4
      rw [a2]
      exact this

/-- Ranks as sorting key. -/
def scRank (h : Nat → Ind σ) (r : Nat) : Option ℚ :=
  match (h r).rank with
  | some (.sc q) => some q
  | _ => none

/-- Complete description of `MultiGaData.update` on an unsorted population. -/
theorem multiUpdate_ok [DecidableEq σ] {s s' : St σ} {u : Unit} (h : multiUpdate s = (.ok u, s'))
    (hns : s.ga.attrs.isSorted = false) (hal : ∀ r ∈ s.ga.population, r < s.next) :
    ∃ pop front s1, SortedBy (scRank s.heap) s.ga.population pop ∧
      front = pop.takeWhile (fun r => (s.heap r).rank = some (.sc 1)) ∧
      FrontDecided { s with ga := { s.ga with population := pop, histFronts := s.ga.histFronts ++ [front] } } front s1 ∧
      s' = { s1 with
          ga := { s1.ga with idxGeneration := s1.ga.idxGeneration + 1 }
          snaps := s1.snaps ++ [s1.ga.population.map s1.heap] } := by
  unfold multiUpdate at h
  obtain ⟨_, s1, h1, k⟩ := bind_ok.mp h
  clear h
  unfold ensureRankSorted at h1
  rw [bind_of_ok (getGa_run s), ite_run, if_neg (by rw [hns]; simp)] at h1
  obtain ⟨pop, hp, rfl⟩ := sortByRank_ok h1
  rw [bind_of_ok (getGa_run _), bind_of_ok (frontPrefix_run _ _), bind_of_ok (modGa_run _ _)] at k
  simp only at k
  obtain ⟨_, s2, h2, k2⟩ := bind_ok.mp k
  obtain ⟨_, s3, h3, k3⟩ := bind_ok.mp k2
  have hd := decideFront_ok (by
    intro r hr
    exact hal r (hp.perm.subset ((List.takeWhile_sublist _).subset hr))) h2 h3
  rw [bind_of_ok (modGa_run _ _)] at k3
  unfold snapshot at k3
  rw [modifyS_ok] at k3
  exact ⟨pop, _, s3, hp, rfl, hd, k3⟩

end BaumEva
