import Verif.Proofs.MultiRun
/-!
# The selections for vectors of scores; multi-objective runs of the library
-/
namespace BaumEva
variable {σ : Type}

/-! ## tournaments -/

theorem forall₂_mem {α β : Type} {R : α → β → Prop} {l : List α} {l' : List β} (h : List.Forall₂ R l l') {b : β} (hb : b ∈ l') :
    ∃ a ∈ l, R a b := by
  induction h with
  | nil => simp at hb
  | cons hx _ ih =>
    rcases List.mem_cons.mp hb with rfl | hm
    · exact ⟨_, List.mem_cons_self, hx⟩
    · obtain ⟨a, ha, hr⟩ := ih hm
      exact ⟨a, List.mem_cons_of_mem _ ha, hr⟩

/-- Pairs of winners for an objective. -/
def WonBlock (size : Int) (s : St (List ℚ)) (q : Nat) (i : Nat) (b : List (Nat × Nat)) : Prop :=
  b.length = q ∧ ∀ p ∈ b, p.1 ∈ s.ga.population ∧ p.2 ∈ s.ga.population ∧
    (WonTournament (scoreAt i) size s p.1 ∧ WonTournament (scoreAt i) size s p.2 ∧ (s.heap p.1).idx ≠ (s.heap p.2).idx)

theorem WonBlock.of_copied {size : Int} {s s' : St (List ℚ)} {q i : Nat} {b : List (Nat × Nat)} {ps : List Nat}
    (hc : Copied s s' ps) (hal : ∀ r ∈ s.ga.population, r < s.next) (h : WonBlock size s' q i b) : WonBlock size s q i b := by
  refine ⟨h.1, fun p hp => ?_⟩
  obtain ⟨a1, a2, a3, a4, a5⟩ := h.2 p hp
  have hpop : s'.ga.population = s.ga.population := by rw [hc.ga]
  rw [hpop] at a1 a2
  rw [hc.old _ (hal _ a1), hc.old _ (hal _ a2)] at a5
  exact ⟨a1, a2, a3.of_copied hc hal, a4.of_copied hc hal, a5⟩

theorem vegaLoop_ok {size : Int} {m : Nat} : ∀ {is : List Nat} {s s' : St (List ℚ)} {u : Unit},
    (∀ r ∈ s.ga.population, r < s.next) →
    forEach is (fun i => tournament (scoreAt i) size m) s = (.ok u, s') →
    ∃ bs : List (List (Nat × Nat)), Copied s s' (bs.flatten.flatMap fun p => [p.1, p.2]) ∧
      List.Forall₂ (WonBlock size s (numPairs s.ga m)) is bs := by
  intro is
  induction is with
  | nil =>
    intro s s' u _ h
    rw [forEach_nil] at h
    obtain rfl := (Prod.mk.inj h).2
    exact ⟨[], Copied.nil_of_drew (Drew.refl _), .nil⟩
  | cons i is ih =>
    intro s s' u hal h
    obtain ⟨s1, h1, h2⟩ := forEach_cons_ok.mp h
    obtain ⟨ps, hl, hc, hp⟩ := tournament_ok hal h1
    have hpop : s1.ga.population = s.ga.population := by rw [hc.ga]
    have hal1 : ∀ r ∈ s1.ga.population, r < s1.next := by
      intro r hr
      rw [hpop] at hr
      have := hal r hr
      rw [hc.next]; omega
    have hnp : numPairs s1.ga m = numPairs s.ga m := by rw [hc.ga]; rfl
    obtain ⟨bs, hc2, hb⟩ := ih hal1 h2
    rw [hnp] at hb
    refine ⟨ps :: bs, ?_, .cons ⟨hl, hp⟩ (hb.imp fun _ _ hx => hx.of_copied hc hal)⟩
    rw [List.flatten_cons, List.flatMap_append]
    refine hc.trans hc2 ?_
    intro p hpm
    rw [List.mem_flatMap] at hpm
    obtain ⟨q, hq, hpm⟩ := hpm
    obtain ⟨b, hbm, hqb⟩ := List.mem_flatten.mp hq
    obtain ⟨j, _, hw⟩ := forall₂_mem hb hbm
    obtain ⟨a1, a2, _⟩ := hw.2 q hqb
    rw [hpop] at a1 a2
    simp at hpm
    rcases hpm with rfl | rfl
    · exact hal _ a1
    · exact hal _ a2

/-- Complete description of `VEGATournamentSelection.execute`. -/
theorem vegaTournament_ok {n : Nat} {size : Int} {s s' : St (List ℚ)} {u : Unit}
    (hal : ∀ r ∈ s.ga.population, r < s.next) (h : vegaTournamentExec n size s = (.ok u, s')) :
    2 ≤ size ∧ size < s.ga.attrs.numIndivid ∧
    ∃ (s1 : St (List ℚ)) (bs : List (List (Nat × Nat))), Relabelled s s1 ∧ s1.ga.parents = [] ∧
      (∀ r, (s1.heap r).rank = (s.heap r).rank) ∧
      Copied s1 s' (bs.flatten.flatMap fun p => [p.1, p.2]) ∧
      List.Forall₂ (WonBlock size s1 (numPairs s.ga n)) (List.range n) bs := by
  unfold vegaTournamentExec at h
  obtain ⟨_, s1, h1, h2⟩ := bind_ok.mp h
  obtain ⟨rfl, c1, c2⟩ := checkTournament_ok h1
  obtain ⟨_, s2, h3, h4⟩ := bind_ok.mp h2
  obtain ⟨hr, hpar⟩ := baseSelection_relabelled h3
  obtain ⟨_, _, _, _, _, _, _, _, hrk, _⟩ := baseSelection_ok h3
  have hpop : s2.ga.population = s1.ga.population := by rw [hr.ga]
  obtain ⟨bs, hc, hb⟩ := vegaLoop_ok (by rw [hpop, hr.next]; exact hal) h4
  have hnp : numPairs s2.ga n = numPairs s1.ga n := by rw [hr.ga]; rfl
  rw [hnp] at hb
  refine ⟨c1, c2, s2, bs, hr, hpar, ?_, hc, hb⟩
  intro r
  obtain ⟨k, e⟩ := hrk r
  rw [e]

theorem vegaTournament_selects (n : Nat) (size : Int) : Selects (vegaTournamentExec n size) := by
  intro s s' u hal h
  obtain ⟨_, _, s1, bs, hr, hpar, _, hc, hb⟩ := vegaTournament_ok hal h
  refine Selected.of_copied hr hpar hc ?_
  intro p hp
  obtain ⟨q, hq, hp⟩ := List.mem_flatMap.mp hp
  obtain ⟨b, hbm, hqb⟩ := List.mem_flatten.mp hq
  obtain ⟨i, _, hw⟩ := forall₂_mem hb hbm
  obtain ⟨a1, a2, _⟩ := hw.2 q hqb
  have hpop : s1.ga.population = s.ga.population := by rw [hr.ga]
  rw [hpop] at a1 a2
  simp at hp
  rcases hp with rfl | rfl
  · exact a1
  · exact a2

/-! ## roulettes -/

theorem Selected.refl_of {s : St σ} (h : s.ga.parents = []) : Selected s s :=
  ⟨rfl, by rw [h]; simp, le_rfl, fun _ _ => SameCore.refl _, fun _ _ _ => rfl, rfl, rfl, rfl, rfl, rfl⟩

/-- A loop of selections is one, unless it is empty. -/
theorem selects_loop {f : Nat → M σ Unit} (hf : ∀ i, Selects (f i)) : ∀ {is : List Nat} {s s' : St σ} {u : Unit}, is ≠ [] →
    (∀ r ∈ s.ga.population, r < s.next) → forEach is f s = (.ok u, s') → Selected s s' := by
  intro is
  induction is with
  | nil => intro s s' u h; exact absurd rfl h
  | cons i is ih =>
    intro s s' u _ hal h
    obtain ⟨s1, h1, h2⟩ := forEach_cons_ok.mp h
    have hS := hf i s s1 _ hal h1
    by_cases hi : is = []
    · subst hi
      rw [forEach_nil] at h2
      obtain rfl := (Prod.mk.inj h2).2
      exact hS
    · refine hS.trans hal (ih hi ?_ h2)
      intro r hr
      have hpop : s1.ga.population = s.ga.population := by rw [hS.ga]
      rw [hpop] at hr
      exact (hal r hr).trans_le hS.next

theorem noPre {a b : St σ} {v : Unit} (hv : (pure () : M σ Unit) a = (.ok v, b)) : Relabelled a b ∧ b.ga.parents = a.ga.parents := by
  obtain ⟨_, rfl⟩ := pure_ok.mp hv
  exact ⟨Relabelled.refl _, rfl⟩

theorem setRankAt_core (i : Nat) (q : ℚ) (x : Ind σ) : SameCore x (setRankAt i q x) := by
  unfold SameCore setRankAt
  split <;> rfl

theorem vegaRankedPre {i : Nat} {s s' : St (List ℚ)} {u : Unit} (h : assignRanked (scoreAt i) (setRankAt i) s = (.ok u, s')) :
    Relabelled s s' ∧ s'.ga.parents = s.ga.parents := by
  have := assignRanked_ranked (fun q x => setRankAt_core i q x) h
  exact ⟨this.1, by rw [this.2.1]⟩

/-- Members get a vector of zeros (vega_ranked_selection.py:50-51). -/
theorem clearRanks_ok {n : Nat} : ∀ {l : List Nat} {s s' : St σ} {u : Unit},
    (∀ r ∈ l, r ∈ s.ga.population) →
    forEach l (fun r => modInd r fun ind => { ind with rank := some (.vec (List.replicate n 0)) }) s = (.ok u, s') →
    Ranked s s' ∧ (∀ r ∈ l, (s'.heap r).rank = some (.vec (List.replicate n 0))) ∧ (∀ r, r ∉ l → s'.heap r = s.heap r) := by
  intro l
  induction l with
  | nil =>
    intro s s' u _ h
    rw [forEach_nil] at h
    obtain rfl := (Prod.mk.inj h).2
    exact ⟨Ranked.refl _, by simp, fun _ _ => rfl⟩
  | cons r l ih =>
    intro s s' u hm h
    obtain ⟨s1, h1, h2⟩ := forEach_cons_ok.mp h
    rw [modInd_ok] at h1
    have hR : Ranked s s1 := by
      rw [h1]
      refine ⟨modInd_relabelled (s := s) (f := fun ind => { ind with rank := some (.vec (List.replicate n 0)) })
        (fun x => by unfold SameCore; rfl) (hm r List.mem_cons_self), rfl, rfl⟩
    obtain ⟨a1, a2, a3⟩ := ih (s := s1) (by rw [hR.2.1]; exact fun q hq => hm q (List.mem_cons_of_mem _ hq)) h2
    refine ⟨hR.trans a1, ?_, ?_⟩
    · intro q hq
      by_cases hql : q ∈ l
      · exact a2 q hql
      · rcases List.mem_cons.mp hq with rfl | hq
        · rw [a3 q hql, h1]; simp [upd_same]
        · exact absurd hq hql
    · intro q hq
      simp only [List.mem_cons, not_or] at hq
      rw [a3 q hq.2, h1]
      exact upd_ne hq.1

theorem balanced_at_selects (i n : Nat) : Selects (balancedWith (pure ()) (scoreAt i) n) :=
  fun _ _ _ hal h => (balancedWith_selected (fun _ _ _ hv => noPre hv) hal h).1

theorem ranked_at_selects (i n : Nat) : Selects (balancedWith (assignRanked (scoreAt i) (setRankAt i)) (rankAt i) n) :=
  fun _ _ _ hal h => (balancedWith_selected (fun _ _ _ hv => vegaRankedPre hv) hal h).1

theorem Selected.of_ranked {s s1 s' : St σ} (hr : Ranked s s1) (h : Selected s1 s') : Selected s s' := by
  obtain ⟨r1, r2, _⟩ := hr
  have hpop : s1.ga.population = s.ga.population := by rw [r2]
  refine ⟨by rw [h.ga, r2], ?_, by rw [← r1.next]; exact h.next, ?_, ?_, h.seed.trans r1.seed, h.mutLvl.trans r1.mutLvl,
    h.conds.trans r1.conds, h.calls.trans r1.calls, h.snaps.trans r1.snaps⟩
  · intro r hr
    obtain ⟨a, b, p, c, d⟩ := h.fresh r hr
    exact ⟨by rw [← r1.next]; exact a, b, p, by rw [← hpop]; exact c, (r1.core p).trans d⟩
  · intro r hr
    exact (r1.core r).trans (h.core r (by rw [r1.next]; exact hr))
  · intro r hr hn
    rw [h.old r (by rw [r1.next]; exact hr) (by rw [hpop]; exact hn)]
    exact r1.old r hn

/-- All selections for vectors of scores, if there is an objective. -/
theorem vegaSel_selects {n : Nat} (hn : 1 ≤ n) (sel : VegaSelOp) : Selects (vegaSelExec n sel) := by
  have hne : List.range n ≠ [] := by
    intro h
    rw [List.range_eq_nil] at h
    omega
  cases sel with
  | tournament size => exact vegaTournament_selects n size
  | balanced =>
    intro s s' u hal h
    exact selects_loop (fun i => balanced_at_selects i n) hne hal h
  | ranked =>
    intro s s' u hal h
    unfold vegaSelExec vegaRankedExec at h
    simp only at h
    rw [bind_of_ok (getGa_run s)] at h
    obtain ⟨_, s1, h1, h2⟩ := bind_ok.mp h
    obtain ⟨a1, _, _⟩ := clearRanks_ok (fun r hr => hr) h1
    refine Selected.of_ranked a1 (selects_loop (fun i => ranked_at_selects i n) hne ?_ h2)
    intro r hr
    rw [a1.2.1] at hr
    rw [a1.1.next]
    exact hal r hr

/-! ## selections that leave ranks alone -/

/-- A selection that does not change ranks of existing individuals. -/
def KeepsRank (sel : M σ Unit) : Prop :=
  ∀ (s s' : St σ) (u : Unit), (∀ r ∈ s.ga.population, r < s.next) → sel s = (.ok u, s') →
    ∀ r, r < s.next → (s'.heap r).rank = (s.heap r).rank

theorem tournament_keepsRank [LinearOrder σ] (size : Int) : KeepsRank (σ := σ) (tournamentExec size) := by
  intro s s' u hal h r hr
  unfold tournamentExec at h
  obtain ⟨_, s1, h1, h2⟩ := bind_ok.mp h
  obtain ⟨rfl, _⟩ := checkTournament_ok h1
  obtain ⟨_, s2, h3, h4⟩ := bind_ok.mp h2
  obtain ⟨hrl, _⟩ := baseSelection_relabelled h3
  obtain ⟨_, _, _, _, _, _, _, _, hrk, _⟩ := baseSelection_ok h3
  have hpop : s2.ga.population = s1.ga.population := by rw [hrl.ga]
  obtain ⟨_, _, hc, _⟩ := tournament_ok (by rw [hpop, hrl.next]; exact hal) h4
  obtain ⟨k, e⟩ := hrk r
  rw [hc.old r (by rw [hrl.next]; exact hr), e]

theorem balancedWith_keepsRank {w : Ind σ → Except PyErr ℚ} {m : Nat} : KeepsRank (balancedWith (pure ()) w m) := by
  intro s s' u hal h r hr
  obtain ⟨s1, s2, ws, sel, ps, h1, h2, hrl, _, _, _, _, hc, _⟩ := balancedWith_ok (fun _ _ _ hv => noPre hv) hal h
  obtain ⟨_, rfl⟩ := pure_ok.mp h2
  obtain ⟨_, _, _, _, _, _, _, _, hrk, _⟩ := baseSelection_ok h1
  obtain ⟨k, e⟩ := hrk r
  rw [hc.old r (by rw [hrl.next]; exact hr), e]

theorem balanced_keepsRank : KeepsRank balancedExec := balancedWith_keepsRank

theorem vegaTournament_keepsRank (n : Nat) (size : Int) : KeepsRank (vegaTournamentExec n size) := by
  intro s s' u hal h r hr
  obtain ⟨_, _, s1, bs, hrl, _, hrk, hc, _⟩ := vegaTournament_ok hal h
  rw [hc.old r (by rw [hrl.next]; exact hr), hrk r]

/-! ## runs of the library -/

theorem vegaOps_run {fit : Fit (List ℚ)} (hf : UniformVecs fit.task.obj1) {n : Nat} (hn : 1 ≤ n) (sel : VegaSelOp) (op : CrossOp)
    (mop : MutOp) (tr : Transfer) : MultiRun (vegaOps fit n sel op mop tr) fit op mop :=
  ⟨rfl, rfl, vegaSel_selects hn sel, rfl, rfl, newGen_transfers tr, hf⟩

theorem vegaTour_run {fit : Fit (List ℚ)} (hf : UniformVecs fit.task.obj1) (n : Nat) (size : Int) (op : CrossOp)
    (mop : MutOp) (tr : Transfer) : MultiRun (vegaOps fit n (.tournament size) op mop tr) fit op mop :=
  ⟨rfl, rfl, vegaTournament_selects n size, rfl, rfl, newGen_transfers tr, hf⟩

theorem ffgaOps_run {fit : Fit ℚ} (hf : UniformVecs fit.task.obj1) (sel : SelOp) (op : CrossOp) (mop : MutOp) (tr : Transfer) :
    MultiRun (ffgaOps fit sel op mop tr) fit op mop :=
  ⟨rfl, rfl, (selExec_isSelection sel).selects, rfl, rfl, multiNewGen_transfers tr, hf⟩

/-! ## no Pareto point is lost -/

/-- The contents of `best_solution['pareto_set']`. -/
def paretoSet (s : St σ) : List (Ind σ) :=
  match s.ga.best with
  | some (.pareto fr _) => fr.map s.heap
  | _ => []

theorem MultiInv.paretoSet {f : List Val → Except PyErr Ret} {s : St σ} {k : Nat} (h : MultiInv f s k) :
    paretoSet s = (s.ga.population.filter fun r => (s.heap r).rank = some (.sc 1)).map s.heap := by
  obtain ⟨fr, g, e1, _, e3⟩ := h.front
  unfold BaumEva.paretoSet
  rw [e1]
  exact e3

theorem MultiInv.covers {f : List Val → Except PyErr Ret} {s : St σ} {k : Nat} (h : MultiInv f s k) :
    ∀ r ∈ s.ga.population, ∃ c ∈ BaumEva.paretoSet s, AsGood (vecOf f c) (vecOf f (s.heap r)) := by
  intro r hr
  obtain ⟨b, hb, h1, h2⟩ := exists_nonDominated f (s.ga.population.map s.heap) (s.heap r) (List.mem_map.mpr ⟨r, hr, rfl⟩)
  obtain ⟨q, hq, rfl⟩ := List.mem_map.mp hb
  refine ⟨s.heap q, ?_, h2⟩
  rw [h.paretoSet]
  refine List.mem_map.mpr ⟨q, List.mem_filter.mpr ⟨hq, ?_⟩, rfl⟩
  simp only [decide_eq_true_eq]
  exact (h.rank_one hq).mpr h1

/-- One generation of FFGA with transfer "best" and a selection that leaves ranks alone: what the Pareto set covered
before, it covers after. -/
theorem ffga_step {fit : Fit ℚ} {sel : SelOp} {op : CrossOp} {mop : MutOp} (hf : UniformVecs fit.task.obj1)
    (hk : KeepsRank (selExec sel)) {s s' : St ℚ} {k : Nat} (hs : MultiInv fit.task.obj1 s k)
    (h : generation (ffgaOps fit sel op mop .best) s = (.ok (), s')) :
    (∃ n, s'.ga.population.length = n + (paretoSet s).length ∧ 2 * n = s'.ga.parents.length) ∧
    ∀ c ∈ paretoSet s, ∃ c' ∈ paretoSet s', AsGood (vecOf fit.task.obj1 c') (vecOf fit.task.obj1 c) := by
  have hops := ffgaOps_run hf sel op mop .best
  obtain ⟨hinv, s0, s1, s2, s3, es, t, hsel, hb1, hb2, hb3, hB, hready, hng, hes, e2, _, _, hF, hBU, hup, hperm, _, _, _, _, _, hcore⟩ :=
    multi_generation hops hs h
  obtain ⟨es', t', _, hbest, _, e2'⟩ := multiNewGen_ok hready (show multiNewGenExec .best s1 = (.ok (), s2) from hng)
  have hpop1 : s1.ga.population = s.ga.population := by rw [hB.ga]
  have hees : es = es' := by
    have h1 : s2.ga.population = s1.ga.children ++ es := by rw [e2]
    have h2 : s2.ga.population = s1.ga.children ++ es' := by rw [e2']
    rw [h1] at h2
    exact List.append_cancel_left h2
  have hrank : ∀ r ∈ s.ga.population, (s1.heap r).rank = (s.heap r).rank := by
    intro r hr
    have hlt := hs.alive r hr
    rw [hb1 r (hlt.trans_le hb2)]
    exact hk s s0 _ hs.alive hsel r hlt
  have hesf : es = s.ga.population.filter fun r => (s.heap r).rank = some (.sc 1) := by
    rw [hees, hbest rfl, hpop1, ← hs.order.front]
    have aux : ∀ l : List Nat, (∀ r ∈ l, (s1.heap r).rank = (s.heap r).rank) →
        (l.takeWhile fun r => decide ((s1.heap r).rank = some (.sc 1))) = l.takeWhile fun r => decide ((s.heap r).rank = some (.sc 1)) := by
      intro l
      induction l with
      | nil => intro _; rfl
      | cons x l ih =>
        intro hl
        rw [List.takeWhile_cons, List.takeWhile_cons, hl x List.mem_cons_self,
          ih fun r hr => hl r (List.mem_cons_of_mem _ hr)]
    exact aux _ hrank
  constructor
  · refine ⟨s1.ga.children.length, ?_, ?_⟩
    · rw [hperm.length_eq, List.length_append, hesf, hs.paretoSet, List.length_map]
    · have : s'.ga.parents = s1.ga.parents := by
        have e3 : s3.ga.parents = s1.ga.parents := by rw [hF.ga, e2]
        obtain ⟨pop, front, sx, _, _, hd, rfl⟩ := multiUpdate_ok hup hBU.unsorted hBU.alive
        cases hd <;> exact e3
      rw [this]
      exact hB.size.symm
  · intro c hc
    rw [hs.paretoSet] at hc
    obtain ⟨r, hr, rfl⟩ := List.mem_map.mp hc
    rw [← hesf] at hr
    obtain ⟨c', h1, h2⟩ := hinv.covers r (hperm.symm.subset (List.mem_append_right _ hr))
    refine ⟨c', h1, ?_⟩
    rw [vecOf_congr (hcore r hr).phenotype] at h2
    exact h2

end BaumEva
