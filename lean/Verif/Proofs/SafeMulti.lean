import Verif.Proofs.SafeRun
import Verif.Proofs.Roulette
import Verif.Proofs.Vega
/-!
# Components of multi-objective runs that raise nothing
-/
namespace BaumEva
open Spec
variable {σ : Type}

/-! ## roulette -/

theorem getIndex_safe (sel : List ℚ) (s : St σ) : Safe (getIndex sel) s := by
  unfold getIndex
  exact Safe.bind_ok (getGa_run s) (Safe.bind (Safe.random01 s) (fun _ _ _ => Safe.pure _ _))

theorem secondIndex_safe {sel : List ℚ} {i : Int} : ∀ {f : Nat} {s : St σ}, s.tape.length < f → Safe (secondIndex sel i f) s := by
  intro f
  induction f with
  | zero => intro s h; omega
  | succ f ih =>
    intro s h
    rw [secondIndex]
    refine Safe.bind (getIndex_safe sel s) ?_
    intro j s1 h1
    refine Safe.ite (fun _ => Safe.pure _ _) (fun _ => ih ?_)
    rcases getIndex_run sel s with ⟨s2, e⟩ | ⟨r, s2, _, _, e, ht, _⟩
    · rw [e] at h1; simp at h1
    · rw [e] at h1
      obtain ⟨_, rfl⟩ := Prod.mk.inj h1
      omega

theorem roulettePair_safe {n : Nat} {sel : List ℚ} {s : St σ} (hw : WheelIn s.ga.attrs.arith.rnd sel n)
    (hlen : s.ga.population.length = n) : Safe (roulettePair sel) s := by
  have hat : ∀ {i : Int} {x : St σ}, x.ga.population = s.ga.population → (∃ r, 0 ≤ r ∧ r < 1 ∧ i = rouletteIndexR s.ga.attrs.arith.rnd sel r) →
      Safe (popAt i) x := by
    rintro i x hp ⟨r, h0, h1, rfl⟩
    obtain ⟨j, e, hj⟩ := hw r h0 h1
    unfold popAt
    refine Safe.bind_ok (getGa_run x) ?_
    rw [e, pyGet?_nat, hp, List.getElem?_eq_getElem (by omega)]
    exact Safe.pure _ _
  unfold roulettePair
  refine Safe.bind (getIndex_safe sel s) ?_
  intro i s1 h1
  obtain ⟨q, q0, q1, hi, d1, _⟩ := getIndex_ok h1
  refine Safe.bind_ok (getS_run s1) (Safe.bind (secondIndex_safe (Nat.lt_succ_self _)) ?_)
  intro j s2 h2
  obtain ⟨hj, _, d2⟩ := secondIndex_ok h2
  rw [show s1.ga = s.ga by obtain ⟨_, rfl⟩ := d1; rfl] at hj
  have hp2 : s2.ga.population = s.ga.population := by obtain ⟨_, rfl⟩ := d1.trans d2; rfl
  refine Safe.bind (hat hp2 ⟨q, q0, q1, hi⟩) ?_
  intro a s3 h3
  obtain ⟨_, rfl⟩ := popAt_ok.mp h3
  refine Safe.bind (addParent_safe _ _) ?_
  intro u s4 h4
  have c1 := addParent_copied h4
  exact Safe.bind (hat (by rw [c1.ga]; exact hp2) hj) (fun _ _ _ => addParent_safe _ _)

theorem roulette_safe {n : Nat} {sel : List ℚ} {m : Nat} {s : St σ} (hw : WheelIn s.ga.attrs.arith.rnd sel n)
    (hal : ∀ r ∈ s.ga.population, r < s.next) (hlen : s.ga.population.length = n) : Safe (roulette sel m) s := by
  unfold roulette
  refine Safe.bind_ok (getGa_run s) ?_
  refine Safe.forEach (fun s => WheelIn s.ga.attrs.arith.rnd sel n ∧ s.ga.population.length = n ∧
    ∀ r ∈ s.ga.population, r < s.next) ?_ ?_ ⟨hw, hlen, hal⟩
  · rintro _ _ s1 ⟨w, a, _⟩
    exact roulettePair_safe w a
  · rintro _ _ s1 s2 ⟨w, a, b⟩ h
    obtain ⟨x, y, hc, _⟩ := roulettePair_ok b h
    rw [hc.ga]
    exact ⟨w, a, fun r hr => (b r hr).trans_le (by rw [hc.next]; omega)⟩

/-- `BalancedSelection.execute` after the preparations. -/
def spin (w : Ind σ → Except PyErr ℚ) (m : Nat) : M σ Unit := do
  let ws ← weights w
  let ga ← getGa
  let sel ← liftE (selectionScoresR ga.attrs.arith.rnd (sumR ga.attrs.arith.rnd ws 0) ws)
  roulette sel m

/-- What follows the preparations raises nothing in exact arithmetic when every member has a positive weight. -/
theorem spin_safe {w : Ind σ → Except PyErr ℚ} {m : Nat} {s : St σ}
    (hx : s.ga.attrs.arith = .exact) (hal : ∀ r ∈ s.ga.population, r < s.next) (hne : s.ga.population ≠ [])
    (hpos : ∀ r ∈ s.ga.population, ∃ q, w (s.heap r) = .ok q ∧ 0 < q) : Safe (spin w m) s := by
  unfold spin
  refine Safe.bind ?_ ?_
  · unfold weights
    refine Safe.bind_ok (getGa_run s) (Safe.mapEach (fun x => x = s) ?_ ?_ rfl)
    · rintro r hm _ rfl
      obtain ⟨q, hq, _⟩ := hpos r hm
      exact Safe.bind_ok (getInd_run r _) (Safe.liftE_ok hq _)
    · rintro r hm _ s' y rfl hy
      rw [bind_of_ok (getInd_run r _)] at hy
      exact (liftE_ok.mp hy).2
  intro ws s2 h2
  obtain ⟨rfl, hws⟩ := weights_ok h2
  have hall : ∀ q ∈ ws, 0 < q := by
    intro q hq
    obtain ⟨r, hm, hrq⟩ := forall₂_mem hws hq
    obtain ⟨q', hq', h0⟩ := hpos r hm
    rw [hq'] at hrq
    injection hrq with hrq
    rw [← hrq]; exact h0
  have hsum : ws.sum ≠ 0 := by
    refine ne_of_gt (List.sum_pos ws hall ?_)
    rintro rfl
    exact hne (List.length_eq_zero_iff.mp (by rw [hws.length_eq]; rfl))
  obtain ⟨sel, hsel⟩ := selectionScores_run hsum
  refine Safe.bind_ok (getGa_run s2) ?_
  rw [hx, Arith.exact_rnd, selectionScoresR_id]
  refine Safe.bind (Safe.liftE_ok hsel _) ?_
  intro sel' s3 h3
  rw [hsel] at h3
  obtain ⟨e, rfl⟩ := liftE_ok.mp h3
  injection e with e
  subst e
  exact roulette_safe (wheelIn_exact (by rw [hx]; rfl) hsel hsum) hal hws.length_eq

/-- The roulette raises nothing in exact arithmetic when every member has a positive weight. -/
theorem balanced_safe {w : Ind σ → Except PyErr ℚ} (hw : ∀ a b, SameCore a b → w b = w a) {m : Nat} {s : St σ}
    (hx : s.ga.attrs.arith = .exact) (hal : ∀ r ∈ s.ga.population, r < s.next) (hne : s.ga.population ≠ [])
    (hpos : ∀ r ∈ s.ga.population, ∃ q, w (s.heap r) = .ok q ∧ 0 < q) : Safe (balancedWith (pure ()) w m) s := by
  unfold balancedWith
  obtain ⟨s1, e1⟩ := baseSelection_run s
  obtain ⟨hr, _⟩ := baseSelection_relabelled e1
  have hp : s1.ga.population = s.ga.population := by rw [hr.ga]
  refine Safe.bind_ok e1 (Safe.bind_ok (pure_run () s1) ?_)
  refine spin_safe (by rw [hr.ga]; exact hx) (by rw [hp, hr.next]; exact hal) (by rw [hp]; exact hne) ?_
  intro r hm
  rw [hp] at hm
  obtain ⟨q, hq, h0⟩ := hpos r hm
  exact ⟨q, by rw [hw _ _ (hr.core r)]; exact hq, h0⟩

theorem balancedExec_safe {s : St ℚ} (hx : s.ga.attrs.arith = .exact) (hal : ∀ r ∈ s.ga.population, r < s.next) (hne : s.ga.population ≠ [])
    (hpos : ∀ r ∈ s.ga.population, ∃ q, (s.heap r).score = some q ∧ 0 < q) : Safe balancedExec s := by
  refine balanced_safe ?_ hx hal hne ?_
  · intro a b h; unfold scoreKey; rw [h.score]
  · intro r hr
    obtain ⟨q, hq, h0⟩ := hpos r hr
    exact ⟨q, by unfold scoreKey; rw [hq], h0⟩

/-! ## tournaments of VEGA -/

theorem vegaTournamentExec_safe {n : Nat} {size : Int} {s : St (List ℚ)} (h1 : 2 ≤ size) (h2 : size < s.ga.attrs.numIndivid)
    (h3 : s.ga.attrs.numIndivid ≤ s.ga.population.length) (hal : ∀ r ∈ s.ga.population, r < s.next)
    (hk : ∀ r ∈ s.ga.population, ∃ l, (s.heap r).score = some l ∧ n ≤ l.length) : Safe (vegaTournamentExec n size) s := by
  unfold vegaTournamentExec checkTournament
  have hc : (getGa >>= fun ga => if size < 2 ∨ (ga.attrs.numIndivid : Int) ≤ size then throwE .exception else pure ()) s
      = (.ok (), s) := by
    rw [bind_of_ok (getGa_run s), ite_run, if_neg (by omega)]
    rfl
  refine Safe.bind_ok hc ?_
  obtain ⟨s1, e1⟩ := baseSelection_run s
  obtain ⟨hr, _⟩ := baseSelection_relabelled e1
  have hp : s1.ga.population = s.ga.population := by rw [hr.ga]
  refine Safe.bind_ok e1 ?_
  refine Safe.forEach (fun x => x.ga.population = s.ga.population ∧ (∀ r ∈ x.ga.population, r < x.next) ∧
    ∀ r ∈ x.ga.population, ∃ l, (x.heap r).score = some l ∧ n ≤ l.length) ?_ ?_ ⟨hp, by rw [hp, hr.next]; exact hal, ?_⟩
  · rintro i hi x ⟨x1, x2, x3⟩
    refine tournament_safe (by omega) (by rw [x1]; omega) ?_ x2
    intro r hm
    obtain ⟨l, e, hl⟩ := x3 r hm
    have hi := List.mem_range.mp hi
    refine ⟨l[i]'(by omega), ?_⟩
    unfold scoreAt
    rw [e]
    simp only
    rw [List.getElem?_eq_getElem (by omega)]
  · rintro i hi x y ⟨x1, x2, x3⟩ h
    have h' : forEach [i] (fun i => tournament (scoreAt i) size n) x = (.ok (), y) := by
      rw [forEach, bind_of_ok h]; rfl
    obtain ⟨bs, hcp, _⟩ := vegaLoop_ok x2 h'
    rw [hcp.ga]
    refine ⟨x1, fun r hm => (x2 r hm).trans_le (by rw [hcp.next]; omega), ?_⟩
    intro r hm
    rw [hcp.old r (x2 r hm)]
    exact x3 r hm
  · intro r hm
    rw [hp] at hm
    rw [(hr.core r).score]
    exact hk r hm

/-! ## evaluation -/

theorem objVector_run {t : Task σ} {r : Nat} {p : List Val} {l : List ℚ} (s : St σ) (hp : (s.heap r).phenotype = some p)
    (hl : t.obj1 p = .ok (.tup l)) : objVector t r s = (.ok l, { s with calls := s.calls ++ [p] }) := by
  unfold objVector
  rw [bind_of_ok (getInd_run r s)]
  simp only [hp]
  rw [bind_of_ok (callObj_ok.mpr ⟨hl, rfl⟩)]
  rfl

theorem rankPair_safe {t : Task σ} (hv : UniformVecs t.obj1) {x y : Nat} {s : St σ} (hx : ∃ b, IsVec t.obj1 (s.heap x) b)
    (hy : ∃ b, IsVec t.obj1 (s.heap y) b) : Safe (rankPair t x y) s := by
  obtain ⟨a, p, hp, ha⟩ := hx
  obtain ⟨b, q, hq, hb⟩ := hy
  unfold rankPair
  refine Safe.bind_ok (objVector_run s hp ha) (Safe.bind_ok (objVector_run _ hq hb) ?_)
  refine Safe.bind (Safe.liftE_ok (inferiorOf_eq (hv _ _ _ _ ha hb)) _) ?_
  intro inf s1 _
  cases inf with
  | none => exact Safe.pure _ _
  | some b => cases b <;> exact Safe.of_ok (modInd_run _ _ _)

theorem rankRow_safe {t : Task σ} (hv : UniformVecs t.obj1) {x : Nat} : ∀ {ys : List Nat} {s : St σ},
    (∀ r ∈ x :: ys, ∃ b, IsVec t.obj1 (s.heap r) b) → Safe (forEach ys (rankPair t x)) s := by
  intro ys
  induction ys with
  | nil => intro s _; exact Safe.pure _ _
  | cons y ys ih =>
    intro s h
    rw [forEach]
    refine Safe.bind (rankPair_safe hv (h x (by simp)) (h y (by simp))) ?_
    intro u s1 h1
    obtain ⟨r1, _⟩ := rankPair_ok h1 (fun a b ha hb => hv _ _ _ _ ha.choose_spec.2 hb.choose_spec.2)
    refine ih ?_
    intro r hr
    obtain ⟨b, p, e1, e2⟩ := h r (by rcases List.mem_cons.mp hr with rfl | hr <;> simp [*])
    exact ⟨b, p, by rw [← r1.pheno]; exact e1, e2⟩

theorem rankLoop_safe {t : Task σ} (hv : UniformVecs t.obj1) : ∀ {l : List Nat} {s : St σ},
    (∀ r ∈ l, ∃ b, IsVec t.obj1 (s.heap r) b) → Safe (rankLoop t l) s := by
  intro l
  induction l with
  | nil => intro s _; exact Safe.pure _ _
  | cons x xs ih =>
    intro s h
    rw [rankLoop]
    refine Safe.bind (rankRow_safe hv h) ?_
    intro u s1 h1
    obtain ⟨r1, _⟩ := rankRow_ok h1 (hv.fit _ _)
    refine ih ?_
    intro r hr
    obtain ⟨b, p, e1, e2⟩ := h r (by simp [hr])
    exact ⟨b, p, by rw [← r1.pheno]; exact e1, e2⟩

theorem setRank_run {q : ℚ} : ∀ (l : List Nat) (s : St σ),
    ∃ s', forEach l (fun r => modInd r fun ind => { ind with rank := some (.sc q) }) s = (.ok (), s') := by
  intro l
  induction l with
  | nil => intro s; exact ⟨s, rfl⟩
  | cons x xs ih =>
    intro s
    obtain ⟨s', e⟩ := ih { s with heap := upd s.heap x { s.heap x with rank := some (.sc q) } }
    exact ⟨s', by rw [forEach, bind_of_ok (modInd_run _ _ _)]; exact e⟩

theorem assignRanks_safe {t : Task σ} (hv : UniformVecs t.obj1) {s : St σ}
    (h : ∀ r ∈ s.ga.population, ∃ b, IsVec t.obj1 (s.heap r) b) : Safe (assignRanks t) s := by
  unfold assignRanks
  refine Safe.bind_ok (getGa_run s) ?_
  obtain ⟨s1, e1⟩ := setRank_run (q := 1) s.ga.population s
  refine Safe.bind_ok e1 (rankLoop_safe hv ?_)
  have := setRank_ok e1
  intro r hr
  obtain ⟨b, p, e2, e3⟩ := h r hr
  refine ⟨b, p, ?_, e3⟩
  rw [this]
  simp only
  rw [if_pos hr]
  exact e2

theorem ensurePhenotype_safe {s : St σ} (h : ∀ r ∈ s.ga.population, (s.heap r).phenotype.isSome ∨
    ∃ g p, (s.heap r).genotype = some g ∧ decodeIndivid s.ga.attrs g = .ok p) : Safe ensurePhenotype s := by
  unfold ensurePhenotype
  exact Safe.bind_ok (getGa_run s) (Safe.ite (fun _ => getPhenotype_safe h) (fun _ => Safe.pure _ _))

/-- The evaluation of a binary population raises nothing when the points of its members can be evaluated. -/
theorem multiFitness_safe {fit : Fit σ} (hv : UniformVecs fit.task.obj1) {s : St σ} (hb : s.ga.attrs.isPhenotype = true)
    (hnd : (unscored s.heap s.ga.population).Nodup)
    (hdec : ∀ r ∈ s.ga.population, ∃ p, ((s.heap r).phenotype = some p ∨
      ((s.heap r).phenotype = none ∧ ∃ g, (s.heap r).genotype = some g ∧ decodeIndivid s.ga.attrs g = .ok p)) ∧
      (∃ l, fit.task.obj1 p = .ok (.tup l)) ∧ ∀ q, 1 ≤ q → Evaluable fit s.ga.best s.ga.idxGeneration (some (.sc q)) p) :
    Safe (multiFitnessExec fit) s := by
  unfold multiFitnessExec
  refine Safe.bind (ensurePhenotype_safe ?_) ?_
  · intro r hr
    obtain ⟨p, (h | ⟨_, g, h1, h2⟩), _⟩ := hdec r hr
    · exact .inl (by rw [h]; rfl)
    · exact .inr ⟨g, p, h1, h2⟩
  intro u s1 h1
  obtain ⟨e1, d1, o1⟩ := ensurePhenotype_ok h1
  have hga1 : s1.ga = s.ga := by rw [e1]
  have key : ∀ r ∈ s.ga.population, ∃ p, (s1.heap r).phenotype = some p ∧ (∃ l, fit.task.obj1 p = .ok (.tup l)) ∧
      ∀ q, 1 ≤ q → Evaluable fit s.ga.best s.ga.idxGeneration (some (.sc q)) p := by
    intro r hr
    obtain ⟨p, h, h2⟩ := hdec r hr
    refine ⟨p, ?_, h2⟩
    have hd := d1 r hr
    unfold Decoded at hd
    rw [if_pos hb] at hd
    rcases h with h | ⟨h, g, k1, k2⟩
    · rcases hd with ⟨_, e⟩ | ⟨e, _⟩
      · rw [e]; exact h
      · rw [h] at e; cases e
    · rcases hd with ⟨e, _⟩ | ⟨_, g', p', k3, k4, e⟩
      · rw [h] at e; cases e
      · rw [k1] at k3
        injection k3 with k3
        subst k3
        rw [k2] at k4
        injection k4 with k4
        rw [e, k4]
  refine Safe.bind (assignRanks_safe hv ?_) ?_
  · intro r hr
    rw [hga1] at hr
    obtain ⟨p, k1, ⟨l, k2⟩, _⟩ := key r hr
    exact ⟨l, p, k1, k2⟩
  intro u2 s2 h2
  obtain ⟨hc, hrk, hold, _⟩ := assignRanks_ok h2 (hv.fit _ _)
  have hga2 : s2.ga = s.ga := by
    unfold HeapCalls at hc
    rw [hc]; exact hga1
  rw [hga1] at hrk hold
  have hcell : ∀ r ∈ s.ga.population, ∃ q, 1 ≤ q ∧ s2.heap r = { s1.heap r with rank := some (.sc q) } := by
    intro r hr
    refine ⟨_, ?_, hrk r hr⟩
    have : (0 : ℚ) ≤ ((s.ga.population.count r * dominators fit.task.obj1 (s.ga.population.map s1.heap) (s1.heap r) : Nat) : ℚ) := Nat.cast_nonneg _
    linarith
  have hsc : ∀ r, (s2.heap r).score = (s.heap r).score := by
    intro r
    by_cases hr : r ∈ s.ga.population
    · obtain ⟨q, _, e⟩ := hcell r hr
      rw [e, (d1 r hr).keeps]
    · rw [hold r hr, o1 r hr]
  have hun : unscored s2.heap s2.ga.population = unscored s.heap s.ga.population := by
    rw [hga2]
    unfold unscored
    exact List.filter_congr fun r _ => by rw [hsc]
  refine baseFitness_safe (by rw [hun]; exact hnd) ?_ ?_
  · intro _ r hr
    rw [hga2] at hr
    obtain ⟨p, k1, _⟩ := key r hr
    obtain ⟨q, _, e⟩ := hcell r hr
    exact .inl (by rw [e]; simp only; rw [k1]; rfl)
  · intro r hr m hm
    rw [hun] at hr
    have hr := (mem_unscored.mp hr).1
    obtain ⟨p, k1, _, k3⟩ := key r hr
    obtain ⟨q, hq, e⟩ := hcell r hr
    unfold Decoded at hm
    unfold seen
    rw [hga2, if_pos hb] at hm
    rw [hga2, if_pos hb]
    refine ⟨p, ?_, by rw [e]; exact k3 q hq⟩
    rcases hm with ⟨_, rfl⟩ | ⟨hm, _⟩
    · rw [e]; exact k1
    · rw [e] at hm
      simp only at hm
      rw [k1] at hm
      cases hm

/-! ## update -/

theorem sortByRank_safe {s : St σ} (h : ∀ r ∈ s.ga.population, ∃ q, (s.heap r).rank = some (.sc q)) : Safe sortByRank s := by
  unfold sortByRank
  refine Safe.bind_ok (getGa_run s) (Safe.bind (Safe.mapEach (fun x => x = s) ?_ ?_ rfl) (fun _ _ _ => Safe.of_ok (modGa_run _ _)))
  · rintro r hr _ rfl
    obtain ⟨q, hq⟩ := h r hr
    exact Safe.bind_ok (rankOf_ok.mpr ⟨hq, rfl⟩) (Safe.pure _ _)
  · rintro r hr _ s' y rfl hy
    obtain ⟨g, s1, h1, h2⟩ := bind_ok.mp hy
    obtain ⟨_, rfl⟩ := rankOf_ok.mp h1
    exact (pure_ok.mp h2).2

theorem copyAll_safe (rs : List Nat) (s : St σ) : Safe (copyAll rs) s := by
  unfold copyAll
  exact Safe.mapEach (fun _ => True) (fun r _ s _ => Safe.bind_ok (getInd_run r s) (Safe.of_ok (alloc_run _ _)))
    (fun _ _ _ _ _ _ _ => trivial) trivial

theorem multiUpdate_safe [DecidableEq σ] {s : St σ} (h : ∀ r ∈ s.ga.population, ∃ q, (s.heap r).rank = some (.sc q))
    (hb : ∀ x k, s.ga.best ≠ some (.single x k)) : Safe multiUpdate s := by
  unfold multiUpdate ensureRankSorted
  have hs1 : ∀ u s1, (getGa >>= fun ga => if ga.attrs.isSorted then pure () else sortByRank) s = (.ok u, s1) → s1.ga.best = s.ga.best := by
    intro u s1 h1
    rw [bind_of_ok (getGa_run s), ite_run] at h1
    split at h1
    · obtain ⟨_, rfl⟩ := pure_ok.mp h1; rfl
    · obtain ⟨pop, _, rfl⟩ := sortByRank_ok h1; rfl
  refine Safe.bind (Safe.bind_ok (getGa_run s) (Safe.ite (fun _ => Safe.pure _ _) (fun _ => sortByRank_safe h))) ?_
  intro u s1 h1
  have hb1 := hs1 u s1 h1
  refine Safe.bind_ok (getGa_run _) (Safe.bind_ok (frontPrefix_run _ _) (Safe.bind_ok (modGa_run _ _) ?_))
  have hif : ∀ s2 : St σ, s2.ga.best = s1.ga.best → ∃ f g s3, initFront s2 = (.ok (), s3) ∧ s3.ga.best = some (.pareto f g) := by
    intro s2 e
    unfold initFront
    rw [bind_of_ok (getGa_run _)]
    cases hbest : s2.ga.best with
    | none => exact ⟨_, _, _, modGa_run _ _, rfl⟩
    | some b =>
      cases b with
      | single x k => exact absurd (by rw [← hb1, ← e]; exact hbest) (hb x k)
      | pareto f g => exact ⟨f, g, s2, rfl, hbest⟩
  obtain ⟨f, g, s3, e3, hb3⟩ := hif { s1 with ga := { s1.ga with
    histFronts := s1.ga.histFronts ++ [s1.ga.population.takeWhile fun r => (s1.heap r).rank = some (.sc 1)] } } rfl
  refine Safe.bind_ok e3 (Safe.bind ?_ (fun _ _ _ => Safe.bind_ok (modGa_run _ _) (Safe.of_ok (modifyS_run _ _))))
  unfold decideFront
  refine Safe.bind_ok (getS_run _) ?_
  simp only [hb3]
  exact Safe.ite (fun _ => Safe.of_ok (modGa_run _ _)) (fun _ => Safe.bind (copyAll_safe _ _) (fun _ _ _ => Safe.of_ok (modGa_run _ _)))

/-! ## new generation -/

/-- `NewGeneration.execute` on a population that is not sorted. -/
theorem newGen_unsorted_safe [LinearOrder σ] {tr : Transfer} {s : St σ}
    (hsc : ∀ r ∈ s.ga.population, (s.heap r).score.isSome)
    (hg : ∀ r ∈ s.ga.population, ∃ g, (s.heap r).genotype = some g) (hp : 2 ≤ s.ga.population.length)
    (hn : s.ga.attrs.numIndivid ≤ s.ga.population.length)
    (hr : tr = .random → s.ga.attrs.numIndivid < s.ga.population.length + s.ga.children.length) : Safe (newGenExec tr) s := by
  unfold newGenExec
  refine Safe.bind (ensureSorted_safe hsc) ?_
  intro u s1 h1
  obtain ⟨pop, rfl, hperm, _⟩ := ensureSorted_ok h1
  have hl := hperm.length_eq
  refine Safe.bind_ok (getGa_run _) (Safe.ite (fun hk => ?_) (fun _ => ?_))
  · simp only at hk ⊢
    refine Safe.bind ?_ (fun es s1 _ => Safe.of_ok (modGa_run _ _))
    cases tr with
    | best => exact addBest_safe (fun r hr => hg r (hperm.subset hr)) (by simp only; omega) (by simp only; omega)
    | random =>
      have := hr rfl
      exact addRandom_safe (fun r hr => hg r (hperm.subset hr)) (by simp only; omega)
  · have hne : pop ≠ [] := by rintro rfl; simp at hl; omega
    simp only [List.getLast?_eq_some_getLast hne]
    exact Safe.of_ok (modGa_run _ _)

theorem multiNewGen_safe {tr : Transfer} {s : St σ} (hready : ∀ r ∈ s.ga.population, (s.heap r).phenotype.isSome)
    (hg : ∀ r ∈ s.ga.population, ∃ g, (s.heap r).genotype = some g)
    (hr : tr = .random → 10 < s.ga.population.length) : Safe (multiNewGenExec tr) s := by
  unfold multiNewGenExec
  refine Safe.bind (ensurePhenotype_safe fun r hr => .inl (hready r hr)) ?_
  intro u s1 h1
  obtain rfl := ensurePhenotype_ready (fun _ => hready) h1
  refine Safe.bind ?_ (fun _ _ _ => Safe.of_ok (modGa_run _ _))
  unfold chooseFront
  refine Safe.bind_ok (getGa_run _) ?_
  cases tr with
  | best => exact Safe.of_ok (frontPrefix_run _ _)
  | random => exact addRandom_safe hg (hr rfl)

end BaumEva
