import Verif.Props.MultiRuns
import Verif.Props.Again
/-!
# C83-C85: what multi-objective runs evaluate, and what they say about it
-/
namespace BaumEva
open Spec
variable {σ : Type}

/-! ## calls of an evaluation -/

/-- The arguments of the objective when every two individuals of `l` are compared: each individual is evaluated once
for every other one. -/
def compared (l : List (Ind σ)) : List (List Val) := l.flatMap fun x => List.replicate (l.length - 1) (x.phenotype.getD [])

theorem compared_length (l : List (Ind σ)) : (compared l).length = l.length * (l.length - 1) := by
  unfold compared
  rw [List.length_flatMap]
  simp

theorem compared_perm {l l' : List (Ind σ)} (h : l.Perm l') : (compared l).Perm (compared l') := by
  unfold compared
  rw [h.length_eq]
  exact h.flatMap_right _

/-- The calls of the double loop. -/
def pairCalls (ph : Nat → List Val) : List Nat → List (List Val)
  | [] => []
  | x :: xs => xs.flatMap (fun y => [ph x, ph y]) ++ pairCalls ph xs

theorem row_perm (ph : Nat → List Val) (x : Nat) (ys : List Nat) :
    (ys.flatMap fun y => [ph x, ph y]).Perm (List.replicate ys.length (ph x) ++ ys.map ph) := by
  induction ys with
  | nil => rfl
  | cons y ys ih =>
    rw [List.flatMap_cons, List.length_cons, List.replicate_succ, List.map_cons]
    show ([ph x, ph y] ++ _).Perm _
    simp only [List.cons_append, List.nil_append]
    refine List.Perm.cons _ ?_
    exact (List.Perm.cons _ ih).trans List.perm_middle.symm

theorem replicate_perm (ph : Nat → List Val) (n : Nat) (ys : List Nat) :
    (ys.map ph ++ ys.flatMap fun y => List.replicate n (ph y)).Perm (ys.flatMap fun y => List.replicate (n + 1) (ph y)) := by
  induction ys with
  | nil => rfl
  | cons y ys ih =>
    rw [List.map_cons, List.flatMap_cons, List.flatMap_cons, List.replicate_succ, List.cons_append, List.cons_append]
    refine List.Perm.cons _ ?_
    rw [← List.append_assoc]
    refine (List.perm_append_comm.append_right _).trans ?_
    rw [List.append_assoc]
    exact ih.append_left _

theorem pairCalls_perm (ph : Nat → List Val) (l : List Nat) :
    (pairCalls ph l).Perm (l.flatMap fun r => List.replicate (l.length - 1) (ph r)) := by
  induction l with
  | nil => rfl
  | cons x xs ih =>
    rw [pairCalls, List.flatMap_cons, List.length_cons, Nat.add_sub_cancel]
    refine ((row_perm ph x xs).append ih).trans ?_
    rw [List.append_assoc]
    refine List.Perm.append_left _ ?_
    cases xs with
    | nil => rfl
    | cons y ys => exact replicate_perm ph _ _

theorem objVector_calls {t : Task σ} {r : Nat} {s s' : St σ} {l : List ℚ} (h : objVector t r s = (.ok l, s')) :
    s' = { s with calls := s.calls ++ [(s.heap r).phenotype.getD []] } := by
  unfold objVector at h
  rw [bind_of_ok (getInd_run r s)] at h
  cases hp : (s.heap r).phenotype with
  | none => simp only [hp, throwE_ok] at h
  | some p =>
    simp only [hp] at h
    obtain ⟨v, s1, h1, h2⟩ := bind_ok.mp h
    obtain ⟨e1, rfl⟩ := callObj_ok.mp h1
    cases v with
    | sc q => simp only [throwE_ok] at h2
    | tup l' =>
      simp only at h2
      obtain ⟨_, rfl⟩ := pure_ok.mp h2
      rfl

/-- Only the ranks of individuals differ (and the trace). -/
def OnlyRanks (s s' : St σ) : Prop :=
  s'.ga = s.ga ∧ ∀ r, (s'.heap r).phenotype = (s.heap r).phenotype ∧ (s'.heap r).score = (s.heap r).score

theorem OnlyRanks.refl (s : St σ) : OnlyRanks s s := ⟨rfl, fun _ => ⟨rfl, rfl⟩⟩

theorem OnlyRanks.trans {a b c : St σ} (h1 : OnlyRanks a b) (h2 : OnlyRanks b c) : OnlyRanks a c :=
  ⟨h2.1.trans h1.1, fun r => ⟨(h2.2 r).1.trans (h1.2 r).1, (h2.2 r).2.trans (h1.2 r).2⟩⟩

theorem rankPair_calls {t : Task σ} {x y : Nat} {s s' : St σ} {u : Unit} (h : rankPair t x y s = (.ok u, s')) :
    s'.calls = s.calls ++ [(s.heap x).phenotype.getD [], (s.heap y).phenotype.getD []] ∧
    OnlyRanks s s' := by
  unfold rankPair at h
  obtain ⟨xs, s1, h1, k1⟩ := bind_ok.mp h
  have e1 := objVector_calls h1
  obtain ⟨ys, s2, h2, k2⟩ := bind_ok.mp k1
  have e2 := objVector_calls h2
  obtain ⟨inf, s3, h3, h4⟩ := bind_ok.mp k2
  obtain ⟨_, rfl⟩ := liftE_ok.mp h3
  have ec : s3.calls = s.calls ++ [(s.heap x).phenotype.getD [], (s.heap y).phenotype.getD []] := by
    rw [e2, e1]; simp
  have eh : s3.heap = s.heap := by rw [e2, e1]
  have eg : s3.ga = s.ga := by rw [e2, e1]
  have hb : ∀ z, s' = { s3 with heap := upd s3.heap z (bumpRank (s3.heap z)) } →
      s'.calls = s.calls ++ [(s.heap x).phenotype.getD [], (s.heap y).phenotype.getD []] ∧
      OnlyRanks s s' := by
    rintro z rfl
    refine ⟨ec, eg, fun r => ?_⟩
    simp only [eh]
    by_cases hr : r = z
    · rw [hr, upd_same, bumpRank_phenotype]
      unfold bumpRank; split <;> exact ⟨rfl, rfl⟩
    · rw [upd_ne hr]; exact ⟨rfl, rfl⟩
  cases inf with
  | none =>
    obtain ⟨_, rfl⟩ := pure_ok.mp h4
    exact ⟨ec, eg, fun r => by rw [eh]; exact ⟨rfl, rfl⟩⟩
  | some b =>
    cases b with
    | true =>
      simp only [modInd_ok] at h4
      exact hb x h4
    | false =>
      simp only [modInd_ok] at h4
      exact hb y h4

theorem rankRow_calls {t : Task σ} {x : Nat} : ∀ {ys : List Nat} {s s' : St σ} {u : Unit},
    forEach ys (rankPair t x) s = (.ok u, s') →
    s'.calls = s.calls ++ ys.flatMap (fun y => [(s.heap x).phenotype.getD [], (s.heap y).phenotype.getD []]) ∧
    OnlyRanks s s' := by
  intro ys
  induction ys with
  | nil =>
    intro s s' u h
    rw [forEach_nil] at h
    simp at h; subst h
    exact ⟨by simp, .refl _⟩
  | cons y ys ih =>
    intro s s' u h
    obtain ⟨s1, h1, h2⟩ := forEach_cons_ok.mp h
    obtain ⟨a1, a2⟩ := rankPair_calls h1
    obtain ⟨b1, b2⟩ := ih h2
    refine ⟨?_, a2.trans b2⟩
    rw [b1, a1, List.append_assoc, List.flatMap_cons]
    simp only [(a2.2 _).1]

theorem rankLoop_calls {t : Task σ} : ∀ {l : List Nat} {s s' : St σ} {u : Unit}, rankLoop t l s = (.ok u, s') →
    s'.calls = s.calls ++ pairCalls (fun r => (s.heap r).phenotype.getD []) l ∧
    OnlyRanks s s' := by
  intro l
  induction l with
  | nil =>
    intro s s' u h
    rw [rankLoop] at h
    obtain ⟨_, rfl⟩ := pure_ok.mp h
    exact ⟨by simp [pairCalls], .refl _⟩
  | cons x xs ih =>
    intro s s' u h
    rw [rankLoop] at h
    obtain ⟨_, s1, h1, h2⟩ := bind_ok.mp h
    obtain ⟨a1, a2⟩ := rankRow_calls h1
    obtain ⟨b1, b2⟩ := ih h2
    refine ⟨?_, a2.trans b2⟩
    rw [b1, a1, List.append_assoc, pairCalls]
    simp only [(a2.2 _).1]

/-- The calls of `MultiFitness.execute` for a binary population: every two members are compared, and every member
without score is evaluated once more. -/
theorem multiFitness_calls {fit : Fit σ} {s s' : St σ} {u : Unit} (h : multiFitnessExec fit s = (.ok u, s'))
    (hb : s.ga.attrs.isPhenotype = true) (hnd : (newMembers s.heap s.ga.population).Nodup) :
    (∃ cs gs, s'.calls = s.calls ++ (cs ++ gs) ∧ cs.Perm (compared (s.ga.population.map s'.heap)) ∧
      List.Forall₂ (fun r g => (s'.heap r).phenotype = some g) (newMembers s.heap s.ga.population) gs) ∧
    (∀ r ∈ s.ga.population, (s'.heap r).phenotype.isSome) ∧
    (∀ r ∈ s.ga.population, ∀ p, (s.heap r).phenotype = some p → (s'.heap r).phenotype = some p) ∧
    (∀ r ∈ s.ga.population, (s.heap r).phenotype = none →
      ∃ g p, (s.heap r).genotype = some g ∧ decodeIndivid s.ga.attrs g = .ok p ∧ (s'.heap r).phenotype = some p) := by
  unfold multiFitnessExec at h
  obtain ⟨_, s1, h1, k1⟩ := bind_ok.mp h
  obtain ⟨_, s2, h2, h3⟩ := bind_ok.mp k1
  obtain ⟨e1, d1, o1⟩ := ensurePhenotype_ok h1
  have hga1 : s1.ga = s.ga := by rw [e1]
  unfold assignRanks at h2
  rw [bind_of_ok (getGa_run s1)] at h2
  obtain ⟨_, s1', h4, h5⟩ := bind_ok.mp h2
  have e4 := setRank_ok h4
  have hph4 : ∀ r, (s1'.heap r).phenotype = (s1.heap r).phenotype ∧ (s1'.heap r).score = (s1.heap r).score := by
    intro r; rw [e4]; simp only; split <;> exact ⟨rfl, rfl⟩
  obtain ⟨a1, a2⟩ := rankLoop_calls h5
  have hph2 : ∀ r, (s2.heap r).phenotype = (s1.heap r).phenotype := fun r => (a2.2 r).1.trans (hph4 r).1
  have hdec : ∀ r ∈ s.ga.population, ((s.heap r).phenotype.isSome ∧ s1.heap r = s.heap r) ∨
      ((s.heap r).phenotype = none ∧ ∃ g p, (s.heap r).genotype = some g ∧ decodeIndivid s.ga.attrs g = .ok p ∧
        s1.heap r = { s.heap r with phenotype := some p }) := by
    intro r hr
    have := d1 r hr
    unfold Decoded at this
    rw [if_pos hb] at this
    exact this
  have hsome1 : ∀ r ∈ s.ga.population, (s1.heap r).phenotype.isSome := by
    intro r hr
    rcases hdec r hr with ⟨a, b⟩ | ⟨_, g, p, _, _, b⟩
    · rw [b]; exact a
    · rw [b]; rfl
  have hsc2 : ∀ r, (s2.heap r).score = (s.heap r).score := by
    intro r
    rw [(a2.2 r).2, (hph4 r).2]
    by_cases hr : r ∈ s.ga.population
    · rw [(d1 r hr).keeps]
    · rw [o1 r hr]
  have hga2 : s2.ga = s.ga := by
    have x1 : s1'.ga = s1.ga := by rw [e4]
    rw [a2.1, x1, hga1]
  have hnew : newMembers s2.heap s2.ga.population = newMembers s.heap s.ga.population := by
    rw [hga2]
    unfold newMembers
    exact List.filter_congr fun r _ => by rw [hsc2]
  obtain ⟨⟨gs, c1, c2⟩, _, _, _, _, c6, _, _, _, _⟩ := C35_one_call_each h3 (by rw [hnew]; exact hnd)
  rw [hnew] at c2
  have hfin : ∀ r ∈ s.ga.population, (s'.heap r).phenotype = (s1.heap r).phenotype := by
    intro r hr
    obtain ⟨p, hp⟩ := Option.isSome_iff_exists.mp (hsome1 r hr)
    rw [hp]
    exact c6 r p (by rw [hph2]; exact hp)
  refine ⟨⟨pairCalls (fun r => (s1'.heap r).phenotype.getD []) s1.ga.population, gs, ?_, ?_, ?_⟩, ?_, ?_, ?_⟩
  · have x1 : s1'.calls = s.calls := by rw [e4, e1]
    rw [c1, a1, x1, List.append_assoc]
  · rw [hga1]
    refine (pairCalls_perm _ _).trans ?_
    unfold compared
    rw [List.flatMap_map, List.length_map]
    refine List.Perm.of_eq ?_
    refine List.flatMap_congr fun r hr => ?_
    rw [(hph4 r).1, hfin r hr]
  · refine c2.imp fun r g h => ?_
    unfold argument at h
    rw [hga2, if_pos hb] at h
    exact h
  · intro r hr; rw [hfin r hr]; exact hsome1 r hr
  · intro r hr p hp
    rw [hfin r hr]
    rcases hdec r hr with ⟨_, b⟩ | ⟨a, _⟩
    · rw [b]; exact hp
    · rw [hp] at a; cases a
  · intro r hr hp
    rcases hdec r hr with ⟨a, _⟩ | ⟨_, g, p, x1, x2, x3⟩
    · rw [hp] at a; cases a
    · exact ⟨g, p, x1, x2, by rw [hfin r hr, x3]⟩

/-! ## the ledger of a multi-objective run -/

/-- `T` holds for what a multi-objective evaluation has just evaluated. -/
def Assesses (fit : Fit σ) (W T : Ind σ → Prop) : Prop :=
  ∀ (ga : GaData σ) (best : BestArg) (m y : Ind σ), ga.attrs.isPhenotype = true → Evaluated fit ga best m y →
    m.feasible = true → m.score = none → (∃ q, 1 ≤ q ∧ m.rank = some (.sc q)) → W y → T y

/-- Books of the run from `s0` after `k` generations with `q` children each. -/
structure MultiLedger (T : Ind σ → Prop) (q : Nat) (s0 s : St σ) (k : Nat) : Prop where
  attrs : s.ga.attrs = s0.ga.attrs
  members : ∀ r ∈ s.ga.population, T (s.heap r)
  snaps : ∀ l ∈ s.snaps, ∀ x ∈ l, T x
  calls : ∃ gs new, s.calls = s0.calls ++ gs ∧ gs.Perm (s.snaps.flatMap compared ++ new) ∧
    new.length = s0.ga.population.length + (k - 1) * q ∧
    (∀ g ∈ new, ∃ l ∈ s.snaps, ∃ x ∈ l, x.phenotype = some g) ∧
    (∀ r ∈ s.ga.population, ∃ g ∈ new, (s.heap r).phenotype = some g) ∧
    (∀ l ∈ s.snaps, ∀ x ∈ l, ∃ g ∈ new, x.phenotype = some g)

section
variable {fit : Fit σ} {op : CrossOp} {mop : MutOp} {s0 : St σ} {T : Ind σ → Prop} {P : List Val → Prop}

/-- One evaluation. -/
theorem multiFitness_ledger {at_ : Attrs} (hv : UniformVecs fit.task.obj1) (hT : Verdict true T)
    (hJ : Assesses fit (WellFormed P at_) T) {s s' : St σ}
    (hat : s.ga.attrs = at_) (hb : at_.isPhenotype = true)
    (hnd : (newMembers s.heap s.ga.population).Nodup)
    (hpre : ∀ r ∈ s.ga.population, ((s.heap r).score = none ∧ (s.heap r).feasible = true ∧
        ∃ g, (s.heap r).genotype = some g ∧ P g ∧ ∀ p, (s.heap r).phenotype = some p → decodeIndivid at_ g = .ok p) ∨
      T (s.heap r))
    (h : multiFitnessExec fit s = (.ok (), s')) :
    (∀ r ∈ s.ga.population, T (s'.heap r)) ∧
    (∀ r ∈ s.ga.population, T (s.heap r) → SameResult true (s.heap r) (s'.heap r)) ∧
    ∃ cs gs, s'.calls = s.calls ++ (cs ++ gs) ∧ cs.Perm (compared (s.ga.population.map s'.heap)) ∧
      List.Forall₂ (fun r g => (s'.heap r).phenotype = some g) (newMembers s.heap s.ga.population) gs := by
  have hb' : s.ga.attrs.isPhenotype = true := by rw [hat]; exact hb
  obtain ⟨c1, c2, c3, c4⟩ := multiFitness_calls h hb' hnd
  obtain ⟨_, _, a3, _⟩ := multiFitness_ok h hnd fun h' _ => hv.fit _ _
  have hS := multiFitness_isFitness hv s s' _ hnd h
  have hsame : ∀ r ∈ s.ga.population, T (s.heap r) → SameResult true (s.heap r) (s'.heap r) := by
    intro r hr ht
    refine ⟨?_, ?_⟩
    · conv_lhs => rw [hS.kept r hr (hT.scored _ ht)]
      have := hS.kept r hr (hT.scored _ ht)
      rw [show (s'.heap r).idx = (s.heap r).idx by rw [this]]
    · obtain ⟨p, hp⟩ := Option.isSome_iff_exists.mp (hT.arg _ ht)
      unfold argument at hp ⊢
      rw [if_pos rfl] at hp ⊢
      rw [if_pos rfl, hp]
      exact c3 r hr p hp
  refine ⟨?_, hsame, c1⟩
  intro r hr
  rcases hpre r hr with ⟨e1, e2, g, e3, e4, e5⟩ | ht
  · obtain ⟨m, b1, _, b3, _⟩ := a3 r hr
    obtain ⟨best, he⟩ := b3 e1
    refine hJ s.ga best _ _ hb' he (by simp only; rw [b1.keeps]; exact e2) (by simp only; rw [b1.keeps]; exact e1)
      ⟨_, rankIn_ge _ _ _ _, rfl⟩ ?_
    refine ⟨g, by rw [hS.geno r hr]; exact e3, e4, fun _ => ?_⟩
    cases hp : (s.heap r).phenotype with
    | some p => exact ⟨p, c3 r hr p hp, e5 p hp⟩
    | none =>
      obtain ⟨g', p, d1, d2, d3⟩ := c4 r hr hp
      rw [e3] at d1
      injection d1 with d1
      subst d1
      exact ⟨p, d3, by rw [← hat]; exact d2⟩
  · exact hT.stable _ _ ht (hsame r hr ht)

theorem multi_ledger [DecidableEq σ] {ops : Ops σ} (hops : MultiRun ops fit op mop) (ho : OpsKeep SameSetup ops) {q : Nat}
    (hq : ∀ s a : St σ, s.ga.attrs = s0.ga.attrs → s.ga.childrenPercent = s0.ga.childrenPercent →
      (∀ r ∈ s.ga.population, r < s.next) → ops.selection s = (.ok (), a) → a.ga.parents.length = 2 * q)
    (h0 : Fresh s0) (hb : s0.ga.attrs.isPhenotype = true) (hcl : ClosedFor σ op mop s0.ga.attrs.spec P)
    (hfirst : ∀ r ∈ s0.ga.population, (s0.heap r).feasible = true ∧
        ∃ g, (s0.heap r).genotype = some g ∧ P g ∧ ∀ p, (s0.heap r).phenotype = some p → decodeIndivid s0.ga.attrs g = .ok p)
    (hT : Verdict true T) (hW : ∀ x, T x → WellFormed P s0.ga.attrs x) (hJ : Assesses fit (WellFormed P s0.ga.attrs) T)
    {k : Nat} {s : St σ} (h : After ops s0 k s) : MultiLedger T q s0 s k := by
  have hcalls2 : ∀ {a b : St σ}, multiUpdate a = (.ok (), b) → b.calls = a.calls := fun h =>
    (multiUpdate_frame sameCalls_quiet).ok h
  induction h with
  | @first s1 s a c =>
    rw [hops.fitness] at a
    rw [hops.update] at c
    obtain ⟨_, hperm, hS, hheap, hat, _, hsn⟩ := multi_first hops.uniform h0 a c
    obtain ⟨d1, d2, cs, gs, d3, d4, d5⟩ := multiFitness_ledger hops.uniform hT hJ rfl hb (h0.distinct.sublist List.filter_sublist)
      (fun r hr => .inl ⟨h0.unscored r hr, hfirst r hr⟩) a
    have hnew : newMembers s0.heap s0.ga.population = s0.ga.population := by
      unfold newMembers
      rw [List.filter_eq_self]
      intro r hr
      rw [h0.unscored r hr]; rfl
    rw [hnew] at d5
    have hcell : ∀ r ∈ s0.ga.population, s.heap r = s1.heap r := fun r hr => hheap r (h0.alive r hr)
    have hmem : ∀ r ∈ s.ga.population, T (s.heap r) := by
      intro r hr
      rw [hcell r (hperm.subset hr)]
      exact d1 r (hperm.subset hr)
    have hev : ∀ r ∈ s.ga.population, ∃ g ∈ gs, (s.heap r).phenotype = some g := by
      intro r hr
      have hr0 := hperm.subset hr
      obtain ⟨i, hi, rfl⟩ := List.mem_iff_getElem.mp hr0
      have hi2 : i < gs.length := by rw [← d5.length_eq]; exact hi
      have := (List.forall₂_iff_get.mp d5).2 i hi hi2
      exact ⟨gs[i], List.getElem_mem _, by rw [hcell _ hr0]; simpa using this⟩
    refine ⟨hat, hmem, ?_, ⟨cs ++ gs, gs, by rw [hcalls2 c, d3], ?_, by rw [← d5.length_eq]; simp, ?_, hev, ?_⟩⟩
    · intro l hl x hx
      rw [hsn, List.mem_singleton] at hl
      subst hl
      obtain ⟨r, hr, rfl⟩ := List.mem_map.mp hx
      exact hmem r hr
    · rw [hsn, List.flatMap_cons, List.flatMap_nil, List.append_nil]
      refine (d4.trans (compared_perm ?_)).append_right _
      rw [List.map_congr_left fun r hr => (hcell r hr).symm]
      exact (hperm.map _).symm
    · intro g hg
      obtain ⟨i, hi, rfl⟩ := List.mem_iff_getElem.mp hg
      have hi2 : i < s0.ga.population.length := by rw [d5.length_eq]; exact hi
      have := (List.forall₂_iff_get.mp d5).2 i hi2 hi
      have hm : s0.ga.population[i] ∈ s0.ga.population := List.getElem_mem _
      refine ⟨_, by rw [hsn]; exact List.mem_singleton.mpr rfl, s.heap s0.ga.population[i],
        List.mem_map.mpr ⟨_, hperm.symm.subset hm, rfl⟩, ?_⟩
      rw [hcell _ hm]
      simpa using this
    · intro l hl x hx
      rw [hsn, List.mem_singleton] at hl
      subst hl
      obtain ⟨r, hr, rfl⟩ := List.mem_map.mp hx
      exact hev r hr
  | @next k s s' a c ih =>
    have hinv := a.multi hops h0
    have hkp := a.pos
    obtain ⟨_, hcp, _⟩ := (a.keeps sameSetup_frame ho).1
    obtain ⟨i1, i2, i3, gs, new, i4, i5, i6, i7, i8, i9⟩ := ih
    obtain ⟨_, a0, s1, s2, s3, es, t, hsel, hb1, hb2, hb3, hB, hready, hng, hes, e2, hun, hF5, hF, hBU, hup, hperm, hheap, hat, hn', hn, hsn, hcore⟩ :=
      multi_generation hops hinv c
    obtain ⟨n0, hn0, hrange, hn1⟩ := hB.range
    have hp2 : s2.ga.population = s1.ga.children ++ es := by rw [e2]
    have hh2 : s2.heap = s1.heap := by rw [e2]
    have hat2 : s2.ga.attrs = s0.ga.attrs := by
      rw [e2]
      simp only
      rw [hB.ga]
      simp only
      have := hinv.unsorted
      rw [i1] at this ⊢
      cases hh : s0.ga.attrs
      rw [hh] at this
      simp only at this
      rw [this]
    have hnm : newMembers s2.heap s2.ga.population = s1.ga.children := hun
    have hnd : (newMembers s2.heap s2.ga.population).Nodup := by
      rw [hnm, hrange]
      exact List.nodup_range'
    have hlen : s1.ga.children.length = q := by
      have h1 := hq s a0 i1 hcp hinv.alive hsel
      have h2 := hB.size
      rw [hb3, h1] at h2
      omega
    have hold : ∀ r ∈ es, T (s2.heap r) ∧ SameResult true (s.heap r) (s2.heap r) := by
      intro r hr
      have hm := hes r hr
      have hc := hB.core r (hinv.alive r hm)
      have hsr : SameResult true (s.heap r) (s2.heap r) := by
        rw [hh2]
        refine ⟨?_, ?_⟩
        · rw [hc.phenotype]; exact hc
        · unfold argument; rw [hc.genotype, hc.phenotype]
      exact ⟨hT.stable _ _ (i2 r hm) hsr, hsr⟩
    obtain ⟨d1, d2, cs', gs', d4, d5, d6⟩ := multiFitness_ledger hops.uniform hT hJ hat2 hb hnd (by
      intro r hr
      rw [hp2] at hr
      rcases List.mem_append.mp hr with hx | hx
      · left
        obtain ⟨r0, g0, hr0, hg0, hnew⟩ := hB.new
        obtain ⟨g, hcell, x, y, p1, p2, g1, hxm, hym, hp1, hp2', hcr, hmu⟩ := hnew r hx
        have hPof : ∀ z q, z ∈ s.ga.population → (s.heap z).genotype = some q → P q := by
          intro z q hz hq
          obtain ⟨q', d1, d2, _⟩ := hW _ (i2 z hz)
          rw [hq] at d1
          injection d1 with d1
          rw [d1]; exact d2
        rw [hh2, hcell]
        refine ⟨rfl, rfl, g, rfl, ?_, fun p hp => by cases hp⟩
        rw [i1] at hmu
        exact hcl _ g0 p1 p2 g1 g (hPof r0 g0 (List.mem_of_mem_head? hr0) hg0) (hPof x p1 hxm hp1) (hPof y p2 hym hp2')
          hcr hmu
      · exact .inr (hold r hx).1) hF5
    have hlt : ∀ r ∈ s1.ga.children ++ es, r < s1.next := by
      intro r hr
      rcases List.mem_append.mp hr with hx | hx
      · rw [hrange, List.mem_range'_1] at hx; omega
      · have := hinv.alive r (hes r hx); omega
    have hcell : ∀ r ∈ s1.ga.children ++ es, s'.heap r = s3.heap r := fun r hr => hheap r (hlt r hr)
    have hmem : ∀ r ∈ s'.ga.population, T (s'.heap r) := by
      intro r hr
      have hr' := hperm.subset hr
      rw [hcell r hr']
      exact d1 r (by rw [hp2]; exact hr')
    have hcalls : s'.calls = s0.calls ++ (gs ++ (cs' ++ gs')) := by
      have e5 : s2.calls = s.calls := by rw [e2]; exact hB.calls
      rw [hcalls2 hup, d4, e5, i4, List.append_assoc]
    rw [hnm] at d6
    have hev : ∀ r ∈ s'.ga.population, ∃ g ∈ new ++ gs', (s'.heap r).phenotype = some g := by
      intro r hr
      have hr' := hperm.subset hr
      rw [hcell r hr']
      rcases List.mem_append.mp hr' with hx | hx
      · obtain ⟨i, hi, rfl⟩ := List.mem_iff_getElem.mp hx
        have hi2 : i < gs'.length := by rw [← d6.length_eq]; exact hi
        have := (List.forall₂_iff_get.mp d6).2 i hi hi2
        exact ⟨gs'[i], List.mem_append_right _ (List.getElem_mem _), by simpa using this⟩
      · obtain ⟨g, hg, e⟩ := i8 r (hes r hx)
        obtain ⟨o1, o2⟩ := hold r hx
        have := d2 r (by rw [hp2]; exact hr') o1
        refine ⟨g, List.mem_append_left _ hg, ?_⟩
        have h3 := this.2.trans o2.2
        unfold argument at h3
        rw [if_pos rfl, if_pos rfl] at h3
        rw [h3]; exact e
    refine ⟨hat.trans i1, hmem, ?_, ⟨gs ++ (cs' ++ gs'), new ++ gs', hcalls, ?_, ?_, ?_, hev, ?_⟩⟩
    · intro l hl x hx
      rw [hsn, List.mem_append, List.mem_singleton] at hl
      rcases hl with hl | rfl
      · exact i3 l hl x hx
      · obtain ⟨r, hr, rfl⟩ := List.mem_map.mp hx
        exact hmem r hr
    · rw [hsn, List.flatMap_append, List.flatMap_cons, List.flatMap_nil, List.append_nil]
      have hc' : cs'.Perm (compared (s'.ga.population.map s'.heap)) := by
        refine d5.trans (compared_perm ?_)
        rw [hp2, List.map_congr_left fun r hr => (hcell r hr).symm]
        exact (hperm.map _).symm
      refine (i5.append (hc'.append_right gs')).trans ?_
      rw [List.append_assoc, List.append_assoc]
      refine List.Perm.append_left _ ?_
      rw [← List.append_assoc, ← List.append_assoc]
      exact List.perm_append_comm.append_right _
    · rw [List.length_append, i6, ← d6.length_eq, hlen]
      obtain ⟨j, rfl⟩ : ∃ j, k = j + 1 := ⟨k - 1, by omega⟩
      simp only [Nat.add_sub_cancel]
      ring
    · intro g hg
      rcases List.mem_append.mp hg with hg | hg
      · obtain ⟨l, hl, hx⟩ := i7 g hg
        exact ⟨l, by rw [hsn]; exact List.mem_append_left _ hl, hx⟩
      · obtain ⟨i, hi, rfl⟩ := List.mem_iff_getElem.mp hg
        have hi2 : i < s1.ga.children.length := by rw [d6.length_eq]; exact hi
        have := (List.forall₂_iff_get.mp d6).2 i hi2 hi
        have hm : s1.ga.children[i] ∈ s1.ga.children ++ es := List.mem_append_left _ (List.getElem_mem _)
        refine ⟨_, by rw [hsn]; exact List.mem_append_right _ (List.mem_singleton.mpr rfl), s'.heap s1.ga.children[i],
          List.mem_map.mpr ⟨_, hperm.symm.subset hm, rfl⟩, ?_⟩
        rw [hcell _ hm]
        simpa using this
    · intro l hl x hx
      rw [hsn, List.mem_append, List.mem_singleton] at hl
      rcases hl with hl | rfl
      · obtain ⟨g, hg, e⟩ := i9 l hl x hx
        exact ⟨g, List.mem_append_left _ hg, e⟩
      · obtain ⟨r, hr, rfl⟩ := List.mem_map.mp hx
        exact hev r hr

end

/-! ## finished runs of the two facades -/

/-- Bit strings of a given length. -/
theorem bits_closed_for (σ : Type) (spec : PopSpec) (L : Nat) :
    ClosedFor σ .onePoint .binString spec (fun g => IsBits g ∧ g.length = L) := by
  rintro lvl g0 p1 p2 g1 g ⟨_, l0⟩ ⟨b1, l1⟩ ⟨b2, l2⟩ ⟨s, s', cs, hc, hcs⟩ hg
  obtain ⟨c, c1, c2, c3, c4, hpos⟩ := C14_one_point (l1.trans l0.symm) (l2.trans l0.symm) hc
  have hP1 : IsBits g1 ∧ g1.length = L := by
    have hb : IsBits cs.1 ∧ IsBits cs.2 := by
      constructor
      · intro x hx
        obtain ⟨i, hi⟩ := List.getElem?_of_mem hx
        rw [(hpos i).1] at hi
        split at hi
        · exact b1 x (List.mem_of_getElem? hi)
        · exact b2 x (List.mem_of_getElem? hi)
      · intro x hx
        obtain ⟨i, hi⟩ := List.getElem?_of_mem hx
        rw [(hpos i).2] at hi
        split at hi
        · exact b2 x (List.mem_of_getElem? hi)
        · exact b1 x (List.mem_of_getElem? hi)
    rcases hcs with rfl | rfl
    · exact ⟨hb.1, c3.trans l0⟩
    · exact ⟨hb.2, c4.trans l0⟩
  rcases hg with rfl | ⟨s1, s2, hm⟩
  · exact hP1
  · simp only at hm
    rcases mutateBits_level hm with rfl | ⟨q, rfl⟩
    · exact hP1
    · obtain ⟨ds, _, _, d3, d4, _⟩ := C20_bit_mutation hm
      exact ⟨d4 hP1.1, d3.trans hP1.2⟩

/-- A finished facade call with everything known about its beginning. -/
theorem facade_full {c : Cfg} {spec : PopSpec} {task : Task σ} {fitExec : Fit σ → M σ Unit} {update selection : M σ Unit}
    {cross : CrossOp} {mutOp : MutOp} {newGen : Transfer → M σ Unit} {s s' : St σ}
    (h : facade c spec task fitExec update selection cross mutOp newGen s = (.ok (), s')) :
    ∃ (p : Fit σ × Transfer) (s0 sa sb : St σ) (k : Nat), newFitness task sa = (.ok p.1, sb) ∧ sa.conds = s.conds ∧
      checkTransfer c.transfer = .ok p.2 ∧
      Started spec c.numIndivid c.numGenerations c.input c.childrenPercent (some c.stop) c.arith s0 ∧ s0.calls = s.calls ∧
      After { fitness := fitExec p.1, update := update, selection := selection, crossover := crossExec cross,
              mutation := mutExec mutOp, newGen := newGen p.2 } s0 k s' := by
  rw [facade_eq] at h
  obtain ⟨p, s0, h1, h2⟩ := bind_ok.mp h
  obtain ⟨_, s1, h3, h4⟩ := bind_ok.mp h2
  obtain ⟨sa, sb, a1, a2, _, a4, _, _, a7⟩ := startUp_ok h1
  obtain ⟨_, k, _, _, _, hk, _⟩ := evolve_after h3
  have he : s1 = s' := by
    split at h4
    · exact (printBest_state h4).symm
    · exact (pure_ok.mp h4).2.symm
  rw [he] at hk
  exact ⟨p, s0, sa, sb, k, a1, a2, a4, a7, startUp_calls h1, hk⟩

/-- The entries of an individual of a multi-objective task are what the objective says. -/
def VecTruthful (c : Cfg) (x : Ind σ) : Prop :=
  ∃ p o, x.phenotype = some p ∧ c.objective p = .ok (.tup o) ∧ x.objScore = some (.tup o) ∧ x.feasible = true

/-- The scores of `VEGA` without penalty. -/
def vegaEarned (ar : Arith) (target : Option (List ℚ)) (o : List ℚ) : List ℚ :=
  match target with
  | none => o.map fun v => earned ar none v 0
  | some ts => List.zipWith (fun t v => earned ar (some t) v 0) ts o

/-- What is known about every individual: its genotype is well-formed, and `X` if the task has no constraints. -/
def Known (P : List Val → Prop) (at_ : Attrs) (U : Prop) (X : Ind σ → Prop) (x : Ind σ) : Prop :=
  WellFormed P at_ x ∧ x.score.isSome ∧ (U → X x)

theorem known_verdict {P : List Val → Prop} {at_ : Attrs} {U : Prop} {X : Ind σ → Prop} (hb : at_.isPhenotype = true)
    (hX : ∀ x y, X x → SameResult true x y → X y) : Verdict true (Known P at_ U X) where
  stable := by
    rintro x y ⟨⟨g, h1, h2, h3⟩, h4, h5⟩ e
    have hp : y.phenotype = x.phenotype := e.2
    refine ⟨⟨g, ?_, h2, ?_⟩, ?_, fun hu => hX x y (h5 hu) e⟩
    · rw [e.1]; exact h1
    · rw [hp]; exact h3
    · rw [e.1]; exact h4
  scored := fun x h => h.2.1
  arg := by
    rintro x ⟨⟨g, _, _, h⟩, _⟩
    obtain ⟨p, hp, _⟩ := h hb
    unfold argument
    rw [if_pos rfl, hp]; rfl

theorem vecTruthful_stable {c : Cfg} (x y : Ind σ) (h : VecTruthful c x) (e : SameResult true x y) : VecTruthful c y := by
  obtain ⟨p, o, h1, h2, h3, h4⟩ := h
  exact ⟨p, o, e.2.trans h1, h2, by rw [e.1]; exact h3, by rw [e.1]; exact h4⟩

/-- What an evaluation without constraints writes. -/
theorem evaluated_vec {c : Cfg} {fit : Fit σ} {ga : GaData σ} {best : BestArg} {m y : Ind σ}
    (h1 : fit.task.obj1 = c.obj1) (h2 : fit.task.obj2 = c.obj2) (h3 : fit.task.inputTruthy = c.inputTruthy)
    (hm : fit.task.multi = true) (hc : fit.isCond = false) (hb : ga.attrs.isPhenotype = true) (h : Evaluated fit ga best m y)
    (hf : m.feasible = true) :
    VecTruthful c y ∧ ∃ a sc, fit.task.score a 0 = .ok sc ∧ y.score = some sc ∧ a.objScore = y.objScore := by
  obtain ⟨g, hs, he⟩ := h
  rw [if_pos hb] at he
  obtain ⟨ret, vals, os, feas, pen, sc, e1, e2, e3, e4, e5⟩ := he
  have hp : y.phenotype = some g := by
    have hy : y = swapInd (swapInd y) := rfl
    rw [hy, e3]
    unfold seen at hs
    rw [if_pos hb] at hs
    exact hs
  have ho : y.objScore = os ∧ y.feasible = feas ∧ y.score = some sc := by
    have hy : y = swapInd (swapInd y) := rfl
    rw [hy, e3]
    exact ⟨rfl, rfl, rfl⟩
  rcases e5 with ⟨_, rfl, rfl, rfl⟩ | ⟨e, _⟩
  · unfold checkInput at e2
    rw [hm, if_pos rfl] at e2
    cases ret with
    | sc q => simp at e2
    | tup l =>
      simp only [Except.ok.injEq] at e2
      subst e2
      refine ⟨⟨g, l, hp, ?_, ho.1, by rw [ho.2.1]; exact hf⟩, _, sc, e4, ho.2.2, ho.1.symm⟩
      unfold Cfg.objective
      rw [← h1, ← h2, ← h3]
      exact e1
  · rw [hc] at e; cases e

theorem unconstrained_fit {task : Task σ} {sa sb : St σ} {fit : Fit σ} (h : newFitness task sa = (.ok fit, sb)) {c : Cfg}
    (hp : task.penalty = c.penalty) (hn : ¬ Constrained c sa.conds) : fit.isCond = false := by
  rcases (newFitness_ok h).2 with h | ⟨_, ⟨p, hp'⟩, cs, h1, h2, _⟩
  · exact h.1
  · exfalso
    refine hn ⟨?_, by rw [h1]; exact h2⟩
    rw [← hp, hp']; rfl

/-- The genotypes of a binary population. -/
def BitsOf (at_ : Attrs) (g : List Val) : Prop := IsBits g ∧ g.length = at_.idxBits.getLastD 0

/-- The state before the first generation, binary populations. -/
theorem started_binary {gray : Bool} {gens : List BinGene} {n N : Nat} {input : Option (List (List Val))} {cp : ℚ} {es : Option Int}
    {s0 : St σ} (h : Started (.binary gray gens) n N input cp es ar s0) :
    Prepared s0.ga.attrs gray gens ∧ s0.ga.attrs.isPhenotype = true ∧
    ∀ r ∈ s0.ga.population, (s0.heap r).feasible = true ∧ ∃ g, (s0.heap r).genotype = some g ∧ BitsOf s0.ga.attrs g ∧
      ∀ p, (s0.heap r).phenotype = some p → decodeIndivid s0.ga.attrs g = .ok p := by
  obtain ⟨s1, hc⟩ := h.created
  obtain ⟨hprep, hpop⟩ := C10_fill_binary hc
  obtain ⟨_, hd, _⟩ := createPopulation_ok hc
  refine ⟨hprep, hd.phen.mpr ⟨gray, gens, rfl⟩, fun r hr => ⟨h.cells.2.2.2 r hr, ?_⟩⟩
  obtain ⟨g, p, e1, e2, e3, e4, e5⟩ := hpop r hr
  refine ⟨g, e1, ⟨e3, e4⟩, fun p' hp' => ?_⟩
  rw [e2] at hp'
  injection hp' with hp'
  rw [← hp']; exact e5

/-- The books of a finished `FFGA.optimize`. -/
theorem ffga_ledger {c : Cfg} {gray : Bool} {gens : List BinGene} {s s' : St ℚ} (hv : UniformVecs c.obj1)
    (h : ffga c gray gens s = (.ok (), s')) :
    ∃ (fit : Fit ℚ) (tr : Transfer) (s0 : St ℚ) (k : Nat), fit.task.obj1 = c.obj1 ∧ checkTransfer c.transfer = .ok tr ∧
      (Prepared s0.ga.attrs gray gens ∧ s0.ga.attrs.arith = c.arith) ∧ s0.ga.attrs.isPhenotype = true ∧ s0.calls = s.calls ∧ s0.ga.population.length = c.numIndivid ∧ Fresh s0 ∧
      After (ffgaOps fit .balanced .onePoint .binString tr) s0 k s' ∧ MultiRun (ffgaOps fit .balanced .onePoint .binString tr) fit .onePoint .binString ∧
      MultiLedger (Known (BitsOf s0.ga.attrs) s0.ga.attrs (¬ Constrained c s.conds) (VecTruthful c)) c.children s0 s' k := by
  obtain ⟨⟨fit, tr⟩, s0, sa, sb, k, a1, a2, a3, a4, a5, a6⟩ := facade_full h
  have ht := (newFitness_ok a1).1
  have hobj : fit.task.obj1 = c.obj1 := by rw [ht]; rfl
  have hv' : UniformVecs fit.task.obj1 := by rw [hobj]; exact hv
  have hops := ffgaOps_run hv' .balanced .onePoint .binString tr
  obtain ⟨b1, b2, b3⟩ := started_binary a4
  obtain ⟨b4, b5, _, _⟩ := a4.cells
  refine ⟨fit, tr, s0, k, hobj, a3, ⟨b1, a4.arith⟩, b2, a5, b4, a4.fresh, a6, hops, ?_⟩
  refine multi_ledger hops (ffgaOps_frame sameSetup_frame fit .balanced .onePoint .binString tr) ?_ a4.fresh b2 (bits_closed_for _ _ _) b3
    (known_verdict b2 vecTruthful_stable) (fun x hx => hx.1) ?_ a6
  · intro x y e1 e2 hal hsel
    rw [(selExec_isSelection .balanced x y _ hal hsel).2, numPairs_children (c := c) (by rw [e1]; exact b5) (by rw [e2]; exact a4.percent) (by rw [e1]; exact a4.arith)]
  · intro ga best m y hb he hf hs _ hw
    refine ⟨hw, he.keeps.1, fun hu => ?_⟩
    exact (evaluated_vec hobj (by rw [ht]; rfl) (by rw [ht]; rfl) (by rw [ht]; rfl)
      (unconstrained_fit a1 rfl (by rw [a2]; exact hu)) hb he hf).1

/-- The number of objectives as `VEGA` counts them (vega.py:72-73): the `'optimize'` entries of `conditions`, or the length of
what the objective returns at the origin. -/
def CountsObjectives (c : Cfg) (numGenes : Nat) (conds : Option (List Cond)) (m : Nat) : Prop :=
  match conds with
  | none => ∃ l, c.obj1 (List.replicate numGenes (.num 0)) = .ok (.tup l) ∧ m = l.length
  | some l => m = l.count .optimize

/-- The call made by `VEGA` to count the objectives. -/
def probe (numGenes : Nat) (conds : Option (List Cond)) : List (List Val) :=
  if conds = none then [List.replicate numGenes (.num 0)] else []

/-- Children per generation of `VEGA` with `m` objectives. -/
def Cfg.vegaChildren (c : Cfg) (m : Nat) : Nat := m * c.arith.share c.childrenPercent c.numIndivid m

theorem vegaNumObjectives_ok {c : Cfg} {n m : Nat} {s s' : St (List ℚ)} (h : vegaNumObjectives c n s = (.ok m, s')) :
    CountsObjectives c n s.conds m ∧ s'.conds = s.conds ∧ s'.calls = s.calls ++ probe n s.conds := by
  unfold vegaNumObjectives at h
  rw [bind_of_ok (getS_run s)] at h
  unfold CountsObjectives probe
  cases hc : s.conds with
  | none =>
    simp only [hc] at h
    obtain ⟨v, s1, h1, h2⟩ := bind_ok.mp h
    obtain ⟨e1, rfl⟩ := callObj_ok.mp h1
    cases v with
    | sc q => simp only [throwE_ok] at h2
    | tup l =>
      simp only at h2
      obtain ⟨rfl, rfl⟩ := pure_ok.mp h2
      exact ⟨⟨l, e1, rfl⟩, hc, by simp⟩
  | some l =>
    simp only [hc] at h
    obtain ⟨rfl, rfl⟩ := pure_ok.mp h
    exact ⟨rfl, hc, by simp⟩

theorem vegaTarget_eq {ar : Arith} {ts os l : List ℚ} (h : vegaTarget ar 0 ts os = .ok l) :
    l = List.zipWith (fun t v => earned ar (some t) v 0) ts os ∧ os.length ≤ ts.length := by
  induction os generalizing ts l with
  | nil =>
    unfold vegaTarget at h
    cases h
    simp
  | cons o os ih =>
    cases ts with
    | nil => simp [vegaTarget] at h
    | cons t ts =>
      rw [vegaTarget] at h
      cases hx : hyperbolaR ar.rnd (some t) o 0 with
      | error e => rw [hx] at h; cases h
      | ok x =>
        rw [hx] at h
        cases hr : vegaTarget ar 0 ts os with
        | error e => rw [hr] at h; cases h
        | ok l' =>
          rw [hr] at h
          cases h
          obtain ⟨rfl, h2⟩ := ih hr
          exact ⟨by rw [hyperbolaR_earned hx]; rfl, by simpa using h2⟩

/-- Entries of an individual of an unconstrained `VEGA` run. -/
def VegaTruthful (c : Cfg) (ov : Option (List ℚ)) (x : Ind (List ℚ)) : Prop :=
  VecTruthful c x ∧ ∀ o, x.objScore = some (.tup o) → x.score = some (vegaEarned c.arith ov o)

theorem vegaTruthful_stable {c : Cfg} {ov : Option (List ℚ)} (x y : Ind (List ℚ)) (h : VegaTruthful c ov x)
    (e : SameResult true x y) : VegaTruthful c ov y := by
  refine ⟨vecTruthful_stable x y h.1 e, ?_⟩
  intro o ho
  rw [e.1] at ho ⊢
  exact h.2 o ho

/-- The books of a finished `VEGA.optimize`. -/
theorem vega_ledger {c : Cfg} {gray : Bool} {gens : List BinGene} {ov : Option (List ℚ)} {s s' : St (List ℚ)} (hv : UniformVecs c.obj1)
    (h : vega c gray gens ov s = (.ok (), s')) :
    ∃ (m : Nat) (fit : Fit (List ℚ)) (tr : Transfer) (s0 : St (List ℚ)) (k : Nat), CountsObjectives c gens.length s.conds m ∧
      fit.task.obj1 = c.obj1 ∧ checkTransfer c.transfer = .ok tr ∧
      (Prepared s0.ga.attrs gray gens ∧ s0.ga.attrs.arith = c.arith) ∧ s0.ga.attrs.isPhenotype = true ∧ s0.calls = s.calls ++ probe gens.length s.conds ∧
      s0.ga.population.length = c.numIndivid ∧ Fresh s0 ∧
      After (vegaOps fit m (.tournament 3) .onePoint .binString tr) s0 k s' ∧
      MultiRun (vegaOps fit m (.tournament 3) .onePoint .binString tr) fit .onePoint .binString ∧
      MultiLedger (Known (BitsOf s0.ga.attrs) s0.ga.attrs (¬ Constrained c s.conds) (VegaTruthful c ov)) (c.vegaChildren m) s0 s' k := by
  unfold vega at h
  obtain ⟨m, s1, g1, g2⟩ := bind_ok.mp h
  obtain ⟨hm, hconds, hcalls⟩ := vegaNumObjectives_ok g1
  obtain ⟨⟨fit, tr⟩, s0, sa, sb, k, a1, a2, a3, a4, a5, a6⟩ := facade_full g2
  rw [hconds] at a2
  rw [hcalls] at a5
  have ht := (newFitness_ok a1).1
  have hobj : fit.task.obj1 = c.obj1 := by rw [ht]; rfl
  have hv' : UniformVecs fit.task.obj1 := by rw [hobj]; exact hv
  have hops := vegaTour_run hv' m 3 .onePoint .binString tr
  obtain ⟨b1, b2, b3⟩ := started_binary a4
  obtain ⟨b4, b5, _, _⟩ := a4.cells
  refine ⟨m, fit, tr, s0, k, hm, hobj, a3, ⟨b1, a4.arith⟩, b2, a5, b4, a4.fresh, a6, hops, ?_⟩
  refine multi_ledger hops (vegaOps_frame sameSetup_frame fit m (.tournament 3) .onePoint .binString tr) ?_ a4.fresh b2 (bits_closed_for _ _ _) b3
    (known_verdict b2 vegaTruthful_stable) (fun x hx => hx.1) ?_ a6
  · intro x y e1 e2 hal hsel
    rw [(C60_tournament_blocks hal hsel).1, e1, e2, b5, a4.percent, a4.arith]
    unfold Cfg.vegaChildren
    ring
  · intro ga best m y hb he hf hs _ hw
    refine ⟨hw, he.keeps.1, fun hu => ?_⟩
    obtain ⟨x1, a, sc, x2, x3, x4⟩ := evaluated_vec hobj (by rw [ht]; rfl) (by rw [ht]; rfl) (by rw [ht]; rfl)
      (unconstrained_fit a1 rfl (by rw [a2]; exact hu)) hb he hf
    refine ⟨x1, fun o ho => ?_⟩
    rw [x3]
    rw [ht] at x2
    change vegaScore c.arith ov a 0 = .ok sc at x2
    unfold vegaScore at x2
    rw [x4, ho] at x2
    unfold vegaEarned
    cases ov with
    | none =>
      simp only [Except.ok.injEq] at x2
      rw [← x2]
      rfl
    | some ts => rw [(vegaTarget_eq x2).1]

/-! ## C83: the evaluation budget -/

/-- The calls of a multi-objective run: comparisons of all pairs in every generation, and one call for every new individual. -/
structure Bill (calls : List (List Val)) (gens : List (List (Ind σ))) (first children : Nat) : Prop where
  exact : ∃ new : List (List Val), calls.Perm (gens.flatMap compared ++ new) ∧ new.length = first + (gens.length - 1) * children ∧
    (∀ g ∈ new, ∃ l ∈ gens, ∃ x ∈ l, x.phenotype = some g) ∧ (∀ l ∈ gens, ∀ x ∈ l, ∃ g ∈ new, x.phenotype = some g)

theorem Bill.length {calls : List (List Val)} {gens : List (List (Ind σ))} {first children : Nat} (h : Bill calls gens first children) :
    calls.length = (gens.map fun l => l.length * (l.length - 1)).sum + first + (gens.length - 1) * children := by
  obtain ⟨new, h1, h2, _⟩ := h.exact
  rw [h1.length_eq, List.length_append, h2, List.length_flatMap]
  simp only [compared_length]
  omega

/-- Every call is at the point of an individual, and every individual was evaluated. -/
theorem Bill.points {calls : List (List Val)} {gens : List (List (Ind σ))} {first children : Nat} (h : Bill calls gens first children)
    (g : List Val) : g ∈ calls ↔ ∃ l ∈ gens, ∃ x ∈ l, x.phenotype = some g := by
  obtain ⟨new, h1, _, h3, h4⟩ := h.exact
  rw [h1.mem_iff, List.mem_append]
  constructor
  · rintro (hg | hg)
    · obtain ⟨l, hl, hx⟩ := List.mem_flatMap.mp hg
      unfold compared at hx
      obtain ⟨x, hx, hr⟩ := List.mem_flatMap.mp hx
      rw [List.mem_replicate] at hr
      obtain ⟨g', _, hp⟩ := h4 l hl x hx
      refine ⟨l, hl, x, hx, ?_⟩
      rw [hr.2, hp]; rfl
    · exact h3 g hg
  · rintro ⟨l, hl, x, hx, hp⟩
    obtain ⟨g', hg', hp'⟩ := h4 l hl x hx
    rw [hp] at hp'
    injection hp' with hp'
    rw [hp']; exact .inr hg'

theorem MultiLedger.bill [DecidableEq σ] {T : Ind σ → Prop} {q k : Nat} {s0 s : St σ} {ops : Ops σ} {fit : Fit σ} {op : CrossOp} {mop : MutOp}
    (h : MultiLedger T q s0 s k) (hops : MultiRun ops fit op mop) (h0 : Fresh s0) (hk : After ops s0 k s) :
    Bill (s.calls.drop s0.calls.length) (generationsOf s) s0.ga.population.length q := by
  obtain ⟨_, _, _, gs, new, h1, h2, h3, h4, _, h6⟩ := h
  rw [h1, List.drop_left]
  refine ⟨new, h2, ?_, h4, h6⟩
  rw [h3]
  unfold generationsOf
  rw [(hk.multi hops h0).snaps]

/-- C83 for `FFGA`: which calls a finished `optimize()` has made. -/
theorem C83_ffga {c : Cfg} {gray : Bool} {gens : List BinGene} {s s' : St ℚ} (hv : UniformVecs c.obj1)
    (h : ffga c gray gens s = (.ok (), s')) : Bill (evaluated s s') (generationsOf s') c.numIndivid c.children := by
  obtain ⟨fit, tr, s0, k, _, _, _, _, e1, e2, h0, hk, hops, hl⟩ := ffga_ledger hv h
  have := hl.bill hops h0 hk
  rw [e1, e2] at this
  exact this

/-- C83 for `VEGA`: the same, after one call to count the objectives if there are no conditions. -/
theorem C83_vega {c : Cfg} {gray : Bool} {gens : List BinGene} {ov : Option (List ℚ)} {s s' : St (List ℚ)} (hv : UniformVecs c.obj1)
    (h : vega c gray gens ov s = (.ok (), s')) :
    ∃ m calls, CountsObjectives c gens.length s.conds m ∧ evaluated s s' = probe gens.length s.conds ++ calls ∧
      Bill calls (generationsOf s') c.numIndivid (c.vegaChildren m) := by
  obtain ⟨m, fit, tr, s0, k, hm, _, _, _, _, e1, e2, h0, hk, hops, hl⟩ := vega_ledger hv h
  have hb := hl.bill hops h0 hk
  rw [e2] at hb
  refine ⟨m, _, hm, ?_, hb⟩
  obtain ⟨_, _, _, gs, _, h1, _⟩ := hl
  unfold evaluated
  rw [h1, e1, List.append_assoc, List.drop_left, ← List.append_assoc, List.drop_left]

/-- C83, the total: quadratic in the sizes of the populations. -/
theorem C83_total {c : Cfg} {gray : Bool} {gens : List BinGene} {s s' : St ℚ} (hv : UniformVecs c.obj1)
    (h : ffga c gray gens s = (.ok (), s')) :
    (evaluated s s').length = ((generationsOf s').map fun l => l.length * (l.length - 1)).sum + c.numIndivid +
      ((generationsOf s').length - 1) * c.children ∧
    ∀ g, g ∈ evaluated s s' ↔ ∃ l ∈ generationsOf s', ∃ x ∈ l, x.phenotype = some g :=
  ⟨(C83_ffga hv h).length, (C83_ffga hv h).points⟩

/-- A run of `FFGA` with generations of 5, 4 and 5 individuals: 20 + 12 + 20 calls to compare them, 5 + 2·3 to evaluate them. -/
theorem exFfga_bill : (exFfga 20).1 = .ok () ∧ (evaluated { tape := exDraws 300 (exSeed 20) } (exFfga 20).2).length = 63 ∧
    (generationsOf (exFfga 20).2).map List.length = [5, 4, 5] ∧ exMulti.children = 3 := by decide +kernel

/-- The same for `VEGA`: one call to count the objectives, 20 + 30 + 30 to compare, 5 + 2·2 to evaluate. -/
theorem exVega_bill : (exVega 20).1 = .ok () ∧ (evaluated { tape := exDraws 500 (exSeed 20) } (exVega 20).2).length = 90 ∧
    (generationsOf (exVega 20).2).map List.length = [5, 6, 6] ∧ exMulti.vegaChildren 2 = 2 := by decide +kernel

/-! ## C84: the search space -/

/-- `x` is an individual of the search space of `gens`: a bit string of the length the genes need, with the decoded point inside
the ranges of the genes. -/
def InBox (at_ : Attrs) (gens : List BinGene) (x : Ind σ) : Prop :=
  ∃ g p, x.genotype = some g ∧ x.phenotype = some p ∧ IsBits g ∧ g.length = at_.idxBits.getLastD 0 ∧ decodeIndivid at_ g = .ok p ∧
    List.Forall₂ InGene gens p

theorem inBox_of {at_ : Attrs} {gray : Bool} {gens : List BinGene} (hp : Prepared at_ gray gens) (hb : at_.isPhenotype = true)
    (hx : at_.arith = .exact) (hg : Proper gens) {x : Ind σ} (h : WellFormed (BitsOf at_) at_ x) : InBox at_ gens x := by
  obtain ⟨g, h1, ⟨h2, h3⟩, h4⟩ := h
  obtain ⟨p, p1, p2⟩ := h4 hb
  obtain ⟨xs, x1, x2⟩ := C05_decode_in_range hp hx hg h2 h3
  rw [p2] at x1
  injection x1 with x1
  exact ⟨g, p, h1, p1, h2, h3, p2, by rw [x1]; exact x2⟩

/-- Members of the Pareto set are members of the last generation. -/
theorem MultiInv.in_last {f : List Val → Except PyErr Ret} {s : St σ} {k : Nat} (h : MultiInv f s k) {x : Ind σ}
    (hx : x ∈ BaumEva.paretoSet s) : ∃ l ∈ generationsOf s, x ∈ l := by
  rw [h.paretoSet] at hx
  obtain ⟨r, hr, rfl⟩ := List.mem_map.mp hx
  exact ⟨_, List.mem_of_getLast? h.last, List.mem_map.mpr ⟨r, (List.mem_filter.mp hr).1, rfl⟩⟩

/-- C84 for `FFGA`: individuals of all generations, members of the reported Pareto set and the arguments of all calls belong to the
search space. -/
theorem C84_ffga {c : Cfg} {gray : Bool} {gens : List BinGene} {s s' : St ℚ} (hx : c.arith = .exact) (hv : UniformVecs c.obj1) (hg : Proper gens)
    (h : ffga c gray gens s = (.ok (), s')) :
    (∃ at_, Prepared at_ gray gens ∧ (∀ l ∈ generationsOf s', ∀ x ∈ l, InBox at_ gens x) ∧ ∀ x ∈ paretoSet s', InBox at_ gens x) ∧
    ∀ p ∈ evaluated s s', List.Forall₂ InGene gens p := by
  have hbill := C83_ffga hv h
  obtain ⟨fit, tr, s0, k, _, _, ⟨hp, har⟩, hb, e1, e2, h0, hk, hops, hl⟩ := ffga_ledger hv h
  have hall : ∀ l ∈ generationsOf s', ∀ x ∈ l, InBox s0.ga.attrs gens x := fun l hl' x hxl => inBox_of hp hb (har.trans hx) hg (hl.snaps l hl' x hxl).1
  refine ⟨⟨s0.ga.attrs, hp, hall, ?_⟩, ?_⟩
  · intro x hx
    obtain ⟨l, hl', hxl⟩ := (hk.multi hops h0).in_last hx
    exact hall l hl' x hxl
  · intro p hp'
    obtain ⟨l, hl', x, hx, e⟩ := (hbill.points p).mp hp'
    obtain ⟨_, p', _, e2, _, _, _, e3⟩ := hall l hl' x hx
    rw [e] at e2
    injection e2 with e2
    rw [e2]; exact e3

/-- C84 for `VEGA`, the part that holds: all calls but the one that counts the objectives. -/
theorem C84_vega_partial {c : Cfg} {gray : Bool} {gens : List BinGene} {ov : Option (List ℚ)} {s s' : St (List ℚ)}
    (hx : c.arith = .exact) (hv : UniformVecs c.obj1)
    (hg : Proper gens) (h : vega c gray gens ov s = (.ok (), s')) :
    (∃ at_, Prepared at_ gray gens ∧ (∀ l ∈ generationsOf s', ∀ x ∈ l, InBox at_ gens x) ∧ ∀ x ∈ paretoSet s', InBox at_ gens x) ∧
    ∀ p ∈ evaluated s s', List.Forall₂ InGene gens p ∨ (s.conds = none ∧ p = List.replicate gens.length (.num 0)) := by
  obtain ⟨_, calls, _, hcalls, hbill⟩ := C83_vega hv h
  obtain ⟨m, fit, tr, s0, k, _, _, _, ⟨hp, har⟩, hb, e1, e2, h0, hk, hops, hl⟩ := vega_ledger hv h
  have hall : ∀ l ∈ generationsOf s', ∀ x ∈ l, InBox s0.ga.attrs gens x := fun l hl' x hxl => inBox_of hp hb (har.trans hx) hg (hl.snaps l hl' x hxl).1
  refine ⟨⟨s0.ga.attrs, hp, hall, ?_⟩, ?_⟩
  · intro x hx
    obtain ⟨l, hl', hxl⟩ := (hk.multi hops h0).in_last hx
    exact hall l hl' x hxl
  · intro p hp'
    rw [hcalls] at hp'
    rcases List.mem_append.mp hp' with hp' | hp'
    · right
      unfold probe at hp'
      split at hp'
      · rename_i hc
        exact ⟨hc, List.mem_singleton.mp hp'⟩
      · simp at hp'
    · left
      obtain ⟨l, hl', x, hx, e⟩ := (hbill.points p).mp hp'
      obtain ⟨_, p', _, e2, _, _, _, e3⟩ := hall l hl' x hx
      rw [e] at e2
      injection e2 with e2
      rw [e2]; exact e3

/-- C84, full claim for `VEGA`. -/
def VegaStaysInside : Prop := ∀ (c : Cfg) (gray : Bool) (gens : List BinGene) (ov : Option (List ℚ)) (s s' : St (List ℚ)),
  c.arith = .exact → UniformVecs c.obj1 → Proper gens → vega c gray gens ov s = (.ok (), s') → ∀ p ∈ evaluated s s', List.Forall₂ InGene gens p

/-- One gene with the range 1..8. -/
def exPositive : List BinGene := [⟨1, 8, 1⟩]

def exOutside : Except PyErr Unit × St (List ℚ) := vega exMulti false exPositive none { tape := exDraws 500 (exSeed 1) }

set_option maxRecDepth 100000 in
theorem exOutside_first : exOutside.1 = .ok () ∧ (evaluated { tape := exDraws 500 (exSeed 1) } exOutside.2).head? = some [.num 0] := by
  decide +kernel

theorem exPositive_proper : Proper exPositive := by
  intro g hg
  obtain rfl : g = ⟨1, 8, 1⟩ := by simpa [exPositive] using hg
  norm_num

/-- C84 fails for `VEGA`: to count the objectives it calls the objective function at the origin, whatever the ranges are. -/
theorem C84_vega_refuted : ¬ VegaStaysInside := by
  intro hall
  obtain ⟨h1, h2⟩ := exOutside_first
  have h := hall exMulti false exPositive none { tape := exDraws 500 (exSeed 1) } exOutside.2 rfl exTwo_uniform exPositive_proper
    (Prod.ext h1 rfl) [.num 0] (List.mem_of_head? h2)
  unfold exPositive at h
  rw [List.forall₂_cons] at h
  obtain ⟨q, hq, h3, _⟩ := h.1
  injection hq with hq
  subst hq
  norm_num at h3

/-! ## C85: what the Pareto set says -/

/-- C85: in a run without constraints every individual of every generation, hence every member of the reported Pareto set, carries the
objective values of its own point. -/
theorem C85_ffga_truthful {c : Cfg} {gray : Bool} {gens : List BinGene} {s s' : St ℚ} (hv : UniformVecs c.obj1)
    (hn : ¬ Constrained c s.conds) (h : ffga c gray gens s = (.ok (), s')) :
    (∀ l ∈ generationsOf s', ∀ x ∈ l, VecTruthful c x) ∧ ∀ x ∈ paretoSet s', VecTruthful c x := by
  obtain ⟨fit, tr, s0, k, _, _, ⟨hp, har⟩, hb, e1, e2, h0, hk, hops, hl⟩ := ffga_ledger hv h
  have hall : ∀ l ∈ generationsOf s', ∀ x ∈ l, VecTruthful c x := fun l hl' x hx => (hl.snaps l hl' x hx).2.2 hn
  refine ⟨hall, fun x hx => ?_⟩
  obtain ⟨l, hl', hxl⟩ := (hk.multi hops h0).in_last hx
  exact hall l hl' x hxl

/-- C85 for `VEGA`: also the scores are those of the point. -/
theorem C85_vega_truthful {c : Cfg} {gray : Bool} {gens : List BinGene} {ov : Option (List ℚ)} {s s' : St (List ℚ)} (hv : UniformVecs c.obj1)
    (hn : ¬ Constrained c s.conds) (h : vega c gray gens ov s = (.ok (), s')) :
    (∀ l ∈ generationsOf s', ∀ x ∈ l, VegaTruthful c ov x) ∧ ∀ x ∈ paretoSet s', VegaTruthful c ov x := by
  obtain ⟨m, fit, tr, s0, k, _, _, _, ⟨hp, har⟩, hb, e1, e2, h0, hk, hops, hl⟩ := vega_ledger hv h
  have hall : ∀ l ∈ generationsOf s', ∀ x ∈ l, VegaTruthful c ov x := fun l hl' x hx => (hl.snaps l hl' x hx).2.2 hn
  refine ⟨hall, fun x hx => ?_⟩
  obtain ⟨l, hl', hxl⟩ := (hk.multi hops h0).in_last hx
  exact hall l hl' x hxl

/-- C85: the Pareto set reported by an unconstrained `FFGA` run with `transfer_parents="best"` is the answer for all points the run has
evaluated: its members were evaluated and carry their objective values, each evaluated point is matched by a member in every
objective, and no evaluated point dominates a member. -/
theorem C85_ffga_complete {c : Cfg} {gray : Bool} {gens : List BinGene} {s s' : St ℚ} (hv : UniformVecs c.obj1)
    (hn : ¬ Constrained c s.conds) (hi : c.inputTruthy = false) (htr : c.transfer = "best") (h : ffga c gray gens s = (.ok (), s')) :
    (∀ x ∈ paretoSet s', ∃ p o, x.phenotype = some p ∧ x.objScore = some (.tup o) ∧ p ∈ evaluated s s' ∧ c.obj1 p = .ok (.tup o)) ∧
    ∀ p ∈ evaluated s s', ∃ o, c.obj1 p = .ok (.tup o) ∧
      (∃ x ∈ paretoSet s', ∃ o', x.objScore = some (.tup o') ∧ AsGood o' o) ∧
      ∀ x ∈ paretoSet s', ∀ o', x.objScore = some (.tup o') → ¬ Dominates o o' := by
  obtain ⟨ht, htp⟩ := C85_ffga_truthful hv hn h
  have hbill := C83_ffga hv h
  have hcov := C55_facade hv htr h
  have hobj : c.objective = c.obj1 := by unfold Cfg.objective; rw [hi]; rfl
  have hvec : ∀ x : Ind ℚ, VecTruthful c x → ∃ p o, x.phenotype = some p ∧ c.obj1 p = .ok (.tup o) ∧ x.objScore = some (.tup o) ∧
      vecOf c.obj1 x = o := by
    rintro x ⟨p, o, h1, h2, h3, _⟩
    rw [hobj] at h2
    exact ⟨p, o, h1, h2, h3, IsVec.vecOf ⟨p, h1, h2⟩⟩
  obtain ⟨fit, tr, s0, k, hfo, _, _, _, _, _, h0, hk, hops, _⟩ := ffga_ledger hv h
  have hinv := hk.multi hops h0
  refine ⟨?_, ?_⟩
  · intro x hx
    obtain ⟨p, o, h1, h2, h3, _⟩ := hvec x (htp x hx)
    obtain ⟨l, hl, hxl⟩ := hinv.in_last hx
    exact ⟨p, o, h1, h3, (hbill.points p).mpr ⟨l, hl, x, hxl, h1⟩, h2⟩
  · intro p hp
    obtain ⟨l, hl, x, hx, e⟩ := (hbill.points p).mp hp
    obtain ⟨p', o, h1, h2, h3, h4⟩ := hvec x (ht l hl x hx)
    rw [e] at h1
    injection h1 with h1
    subst h1
    obtain ⟨b, hb, hba⟩ := hcov l hl x hx
    obtain ⟨pb, ob, b1, b2, b3, b4⟩ := hvec b (htp b hb)
    rw [b4, h4] at hba
    refine ⟨o, h2, ⟨b, hb, ob, b3, hba⟩, ?_⟩
    intro y hy oy hoy hdom
    obtain ⟨py, oy', y1, y2, y3, y4⟩ := hvec y (htp y hy)
    rw [hoy] at y3
    injection y3 with y3
    injection y3 with y3
    subst y3
    -- the member that matches the point would dominate `y`
    have hd : Dominates ob oy := Dominates.trans_asGood hba hdom
    rw [hinv.paretoSet] at hy hb
    obtain ⟨ry, hry, rfl⟩ := List.mem_map.mp hy
    obtain ⟨rb, hrb, rfl⟩ := List.mem_map.mp hb
    rw [List.mem_filter] at hry hrb
    have hnd := (hinv.rank_one hry.1).mp (by simpa using hry.2)
    rw [hfo] at hnd
    refine hnd _ (List.mem_map.mpr ⟨rb, hrb.1, rfl⟩) ?_
    rw [b4, y4]
    exact hd

/-- The run `exFfga 20` meets the hypotheses of C83, C84 and C85: 63 calls, a Pareto set with several members. -/
theorem exFfga_meets : UniformVecs exMulti.obj1 ∧ Proper exGenes ∧ ¬ Constrained exMulti none ∧ exMulti.inputTruthy = false ∧
    exMulti.transfer = "best" :=
  ⟨exTwo_uniform, by unfold Proper exGenes; simp, by unfold Constrained; simp [exMulti], rfl, rfl⟩

example : ∀ p ∈ evaluated { tape := exDraws 300 (exSeed 20) } (exFfga 20).2, ∃ o, exTwo p = .ok (.tup o) ∧
    (∃ x ∈ paretoSet (exFfga 20).2, ∃ o', x.objScore = some (.tup o') ∧ AsGood o' o) ∧
    ∀ x ∈ paretoSet (exFfga 20).2, ∀ o', x.objScore = some (.tup o') → ¬ Dominates o o' :=
  (C85_ffga_complete exFfga_meets.1 exFfga_meets.2.2.1 exFfga_meets.2.2.2.1 exFfga_meets.2.2.2.2 (run_eq exFfga_bill.1)).2

set_option maxRecDepth 100000 in
example : 2 ≤ (paretoSet (exFfga 20).2).length ∧
    ((paretoSet (exFfga 20).2).map fun x => (x.phenotype, x.objScore)).head?.isSome := by decide +kernel

end BaumEva
