import Verif.Proofs.SureWheel
import Verif.Props.HandConvergence
import Verif.Props.AlmostSure
/-!
# C112: programs assembled by hand return, and find what there is to find, with probability one
-/
namespace BaumEva
open Spec

section
variable {fit : Fit ℚ} {sel : SelOp} {op : CrossOp} {mop : MutOp} {tr : Transfer} {P : List Val → Prop} {s0 : St ℚ} {goal : Option ℚ}

/-- In every generation, whatever was drawn before, the selection raises nothing and succeeds with probability one. -/
def Picks (B : Nat) (fit : Fit ℚ) (sel : SelOp) (op : CrossOp) (mop : MutOp) (tr : Transfer) (s0 : St ℚ) : Prop :=
  ∀ (w : List Nat) (k : Nat) (s : St ℚ), After (singleOps fit sel op mop tr) { s0 with tape := w } k s →
    Safe (selExec sel) s ∧ Sure B (selExec sel) s

theorem generation_ext_any (fit : Fit ℚ) (sel : SelOp) (op : CrossOp) (mop : MutOp) (tr : Transfer) :
    ExtOk (generation (singleOps fit sel op mop tr)) :=
  ExtOk.bind (selExec_ext sel) fun _ => (breedRest_tame fit sel op mop tr).ext

theorem SafeCore.generation_sure (h0 : SafeCore fit op mop tr P s0) (hn : s0.seed = none) {B : Nat} (hB : 0 < B)
    (hp : Picks B fit sel op mop tr s0) {w : List Nat} {k : Nat} {s : St ℚ}
    (h : After (singleOps fit sel op mop tr) { s0 with tape := w } k s) :
    Sure B (BaumEva.generation (singleOps fit sel op mop tr)) s := by
  have hn' : ({ s0 with tape := w } : St ℚ).seed = none := hn
  obtain ⟨_, hseed⟩ := h.more_any hn' []
  refine Sure.bind (m := selExec sel) (f := fun _ => breedRest (singleOps fit sel op mop tr)) hB hseed (selExec_ext sel)
    (hp w k s h).2 ?_
  intro u _ s1 e
  obtain ⟨_, n1⟩ := selExec_ext sel (s.more u) s1 () [] hseed e
  refine Sure.of_tame n1 (breedRest_tame _ _ _ _ _) ?_
  intro v
  obtain ⟨e2, _⟩ := selExec_ext sel (s.more u) s1 () v hseed e
  rw [St.more_more] at e2
  have hA := (h.more_any hn' (u ++ v)).1
  have hsafe := (h0.withTape (w ++ (u ++ v))).generation hA (hp _ k _ hA).1
  intro er s2 hx
  refine hsafe er s2 ?_
  show (selExec sel >>= fun _ => breedRest (singleOps fit sel op mop tr)) _ = _
  rw [bind_of_ok e2]
  exact hx

theorem goalReached_tame (g : ℚ) : Tame (goalReached g : M ℚ Bool) := by
  unfold goalReached
  refine Tame.getGa.bind fun ga => ?_
  cases ga.best with
  | none => exact Tame.throwE _
  | some b =>
    cases b with
    | single b k => exact (Tame.getInd _).bind fun _ => Tame.pure _
    | pareto _ _ => exact Tame.throwE _

theorem mainLoop_sure_any (h0 : SafeCore fit op mop tr P s0) (hn : s0.seed = none) {B : Nat} (hB : 0 < B)
    (hp : Picks B fit sel op mop tr s0) : ∀ {n k : Nat} {w : List Nat} {s : St ℚ},
    After (singleOps fit sel op mop tr) { s0 with tape := w } k s → Sure B (mainLoop (singleOps fit sel op mop tr) n) s := by
  intro n
  induction n with
  | zero =>
    intro k w s h
    exact Sure.of_ok (h.more_any (by exact hn) []).2 (Tame.pure ()).ext rfl
  | succ n ih =>
    intro k w s h
    rw [mainLoop]
    obtain ⟨_, hseed⟩ := h.more_any (by exact hn) []
    refine Sure.bind hB hseed (generation_ext_any fit sel op mop tr) (h0.generation_sure hn hB hp h) ?_
    intro u _ s1 e
    have h' := After.next (h.more_any (by exact hn) u).1 e
    obtain ⟨_, n1⟩ := h'.more_any (by exact hn) []
    refine Sure.bind hB n1 Tame.getGa.ext (Sure.of_ok n1 Tame.getGa.ext (getGa_run s1)) ?_
    intro v ga s2 e2
    obtain ⟨e3, rfl⟩ := Prod.mk.inj ((getGa_run _).symm.trans e2)
    injection e3 with e3
    subst e3
    have hI := (h0.withTape (w ++ u)).inv h'
    show Sure B (match s1.ga.earlyStop with | none => _ | some e => _) _
    cases he : s1.ga.earlyStop with
    | none => exact absurd (hI.stop.symm.trans he) h0.stop
    | some e =>
      simp only
      split
      · exact Sure.of_ok n1 (Tame.pure ()).ext rfl
      · exact ih (w := w ++ u ++ v) (h'.more_any (by exact hn) v).1

theorem advancedLoop_sure (h0 : SafeCore fit op mop tr P s0) (hn : s0.seed = none) {B : Nat} (hB : 0 < B)
    (hp : Picks B fit sel op mop tr s0) : ∀ {n k : Nat} {w : List Nat} {s : St ℚ},
    After (singleOps fit sel op mop tr) { s0 with tape := w } k s → Sure B (advancedLoop (singleOps fit sel op mop tr) goal n) s := by
  intro n
  induction n with
  | zero =>
    intro k w s h
    exact Sure.of_ok (h.more_any (by exact hn) []).2 (Tame.pure ()).ext rfl
  | succ n ih =>
    intro k w s h
    rw [advancedLoop_succ]
    obtain ⟨_, hseed⟩ := h.more_any (by exact hn) []
    refine Sure.bind hB hseed (generation_ext_any fit sel op mop tr) (h0.generation_sure hn hB hp h) ?_
    intro u _ s1 e
    have h' := After.next (h.more_any (by exact hn) u).1 e
    obtain ⟨_, n1⟩ := h'.more_any (by exact hn) []
    refine Sure.bind hB n1 Tame.getGa.ext (Sure.of_ok n1 Tame.getGa.ext (getGa_run s1)) ?_
    intro v ga s2 e2
    obtain ⟨e3, rfl⟩ := Prod.mk.inj ((getGa_run _).symm.trans e2)
    injection e3 with e3
    subst e3
    have hI := (h0.withTape (w ++ u)).inv h'
    show Sure B (match s1.ga.earlyStop with | none => _ | some e => _) _
    cases he : s1.ga.earlyStop with
    | none => exact absurd (hI.stop.symm.trans he) h0.stop
    | some e =>
      simp only
      split
      · exact Sure.of_ok n1 (Tame.pure ()).ext rfl
      · cases goal with
        | none => exact ih (w := w ++ u ++ v) (h'.more_any (by exact hn) v).1
        | some g =>
          obtain ⟨b, gen, x, r, t1, _⟩ := (h'.inv (singleOps_run fit sel op mop tr) (h0.withTape (w ++ u)).fresh).top
          obtain ⟨hit, eh⟩ : ∃ hit, goalReached g (s1.more v) = (.ok hit, s1.more v) := by
            unfold goalReached
            refine ⟨decide ((s1.heap b).objScore = some (.sc g)), (bind_of_ok (getGa_run _)).trans ?_⟩
            rw [show (s1.more v).ga.best = some (.single b gen) from t1]
            exact (bind_of_ok (getInd_run _ _)).trans rfl
          refine Sure.bind hB n1 (goalReached_tame g).ext (Sure.of_ok n1 (goalReached_tame g).ext eh) ?_
          intro z hit s3 e3
          obtain ⟨rfl, _⟩ := goalReached_ok e3
          split
          · exact Sure.of_ok n1 (Tame.pure ()).ext rfl
          · exact ih (w := w ++ u ++ v ++ z) (((h'.more_any (by exact hn) v).1).more_any (by exact hn) z).1

/-- The first generation, and whatever follows it. -/
theorem opening_sure {α : Type} {rest : GaData ℚ → M ℚ α} (h0 : SafeCore fit op mop tr P s0) (hn : s0.seed = none) {B : Nat} (hB : 0 < B)
    (hr : ∀ w s, After (singleOps fit sel op mop tr) { s0 with tape := w } 1 s → Sure B (rest s.ga) s) :
    Sure B (baseFitnessExec fit >>= fun _ => gaUpdate >>= fun _ => getGa >>= fun ga => rest ga) s0 := by
  have hops := singleOps_run fit sel op mop tr
  refine Sure.bind hB hn (Tame.baseFitness fit).ext (Sure.of_tame hn (Tame.baseFitness fit) fun u => ?_) ?_
  · have hc := h0.withTape (s0.tape ++ u)
    exact hc.fitness (b := s0.ga.attrs.isSorted) rfl (hc.fresh.distinct.sublist (unscored_sublist _ _))
      (fun r hr => .inr (hc.first r hr)) (.inl hc.fresh.idx)
  intro u _ s1 e1
  obtain ⟨_, n1⟩ := (Tame.baseFitness fit).ext (s0.more u) s1 () [] hn e1
  refine Sure.bind hB n1 Tame.gaUpdate.ext (Sure.of_tame n1 Tame.gaUpdate fun w => ?_) ?_
  · have hc := h0.withTape (s0.tape ++ u)
    have hF := hops.fitness (s0.more u) s1 () (hc.fresh.distinct.sublist (unscored_sublist _ _)) e1
    have hfull : s0.ga.population ≠ [] := by
      intro he
      have h1 := h0.full
      have h2 := h0.two
      rw [he] at h1
      simp at h1
      omega
    refine gaUpdate_safe (s := s1.more w) ?_ ?_ (.inl ?_)
    · show s1.ga.population ≠ []
      rw [hF.ga]; exact hfull
    · show ∀ r ∈ s1.ga.population, _
      rw [hF.ga]; exact hF.done
    · show s1.ga.best = none
      rw [hF.ga]; exact h0.fresh.best
  intro w _ s2 e2
  obtain ⟨_, n2⟩ := Tame.gaUpdate.ext (s1.more w) s2 () [] n1 e2
  obtain ⟨e1', _⟩ := (Tame.baseFitness fit).ext (s0.more u) s1 () w hn e1
  have hA : After (singleOps fit sel op mop tr) ((s0.more u).more w) 1 s2 := After.first e1' e2
  refine Sure.bind hB n2 Tame.getGa.ext (Sure.of_ok n2 Tame.getGa.ext (getGa_run s2)) ?_
  intro z ga s3 e3
  obtain ⟨e4, rfl⟩ := Prod.mk.inj ((getGa_run _).symm.trans e3)
  injection e4 with e4
  subst e4
  exact hr (s0.tape ++ u ++ w ++ z) _ (hA.more_any (by exact hn) z).1

theorem mainLoop_ext_any (fit : Fit ℚ) (sel : SelOp) (op : CrossOp) (mop : MutOp) (tr : Transfer) : ∀ n,
    ExtOk (mainLoop (singleOps fit sel op mop tr) n) := by
  intro n
  induction n with
  | zero => exact (Tame.pure ()).ext
  | succ n ih =>
    rw [mainLoop]
    refine ExtOk.bind (generation_ext_any fit sel op mop tr) fun _ => ExtOk.bind Tame.getGa.ext fun ga => ?_
    cases ga.earlyStop with
    | none => exact (Tame.throwE _).ext
    | some e =>
      show ExtOk (if _ then _ else _)
      split
      · exact (Tame.pure ()).ext
      · exact ih

theorem advancedLoop_ext (fit : Fit ℚ) (sel : SelOp) (op : CrossOp) (mop : MutOp) (tr : Transfer) (goal : Option ℚ) : ∀ n,
    ExtOk (advancedLoop (singleOps fit sel op mop tr) goal n) := by
  intro n
  induction n with
  | zero => exact (Tame.pure ()).ext
  | succ n ih =>
    rw [advancedLoop_succ]
    refine ExtOk.bind (generation_ext_any fit sel op mop tr) fun _ => ExtOk.bind Tame.getGa.ext fun ga => ?_
    cases ga.earlyStop with
    | none => exact (Tame.throwE _).ext
    | some e =>
      show ExtOk (if _ then _ else _)
      split
      · exact (Tame.pure ()).ext
      · cases goal with
        | none => exact ih
        | some g =>
          refine ExtOk.bind (goalReached_tame g).ext fun hit => ?_
          split
          · exact (Tame.pure ()).ext
          · exact ih

end

/-! ## programs that return -/

/-- The components and parameters fit together, and the selection cannot get stuck: a generation has at least as many children as
a tournament needs; the roulettes get any evaluated population, plain scores being positive with a target value.  `B`: how many random
numbers there are. -/
def Lively (c : Cfg) (ov : Option ℚ) (B : Nat) : SelOp → Prop
  | .tournament size => 2 ≤ size ∧ size < c.numIndivid ∧ size ≤ c.children ∧ max c.numIndivid c.children < B
  | .balanced => c.arith = .exact ∧ 2 ^ 53 ≤ B ∧ ov.isSome
  | .ranked => c.arith = .exact ∧ 2 ^ 53 ≤ B

section
variable {f : SingleFacade} {c : Cfg} {sel : SelOp} {op : CrossOp} {mop : MutOp} {ov goal : Option ℚ} {s s0 : St ℚ}
  {p : Fit ℚ × Transfer} {B : Nat}

theorem Lively.pos (h : Lively c ov B sel) : 0 < B := by
  cases sel with
  | tournament size => obtain ⟨_, _, _, h⟩ := h; omega
  | balanced => obtain ⟨_, h, _⟩ := h; omega
  | ranked => obtain ⟨_, h⟩ := h; omega

theorem Lively.assembled (h : Lively c ov B sel) (ha : Composed f c op mop s) (t : List Nat) :
    Assembled f c sel op mop ov { s with tape := t } where
  genes := ha.genes
  operators := ha.operators
  input := ha.input
  room := ha.room
  two := ha.two
  level := ha.level
  transfer := ha.transfer
  objective := ha.objective
  arith := ha.arith
  selection := by
    cases sel with
    | tournament size => exact ⟨h.1, h.2.1⟩
    | balanced =>
      obtain ⟨h1, _, h2⟩ := h
      exact ⟨h2, .inl h1⟩
    | ranked => exact .inl h.1

/-- The selection of such a program never gets stuck. -/
theorem hand_picks (ha : Composed f c op mop s) (hl : Lively c ov B sel) (hseed : s.seed = none) {t : List Nat}
    (e : handInit c f.spec mop ov (some c.stop) { s with tape := t } = (.ok p, s0)) : Picks B p.1 sel op mop p.2 s0 := by
  intro w k sk h
  obtain ⟨pre, _, kp⟩ := (handInit_tame c f.spec mop ov (some c.stop)).trim { s with tape := t } _ _ hseed e
  have hn0 : ({ s0 with tape := w } : St ℚ).seed = none :=
    ((handInit_tame c f.spec mop ov (some c.stop)).ext { s with tape := t } _ _ [] hseed e).2
  have hA := hl.assembled ha (pre ++ w)
  obtain ⟨⟨sb, a1⟩, a4, a6, a7, _, hmod⟩ := handInit_ok (kp w)
  have h0 : SafeCore p.1 op mop p.2 (f.Geno s0.ga.attrs) { s0 with tape := w } :=
    assembled_core hA.toComposed a1 a4 a6 a7
  refine ⟨assembled_selects hA a1 a7 hmod h0 h, ?_⟩
  obtain ⟨hlen, hnum, _⟩ := a7.cells
  obtain ⟨_, hcr⟩ := a7.created
  obtain ⟨_, hd, _⟩ := createPopulation_ok hcr
  have hpairs : numPairs ({ s0 with tape := w } : St ℚ).ga 1 = c.children := numPairs_children hnum a7.percent a7.arith
  have hI := h0.inv h
  have hal := hI.run.settled.alive
  have hks : sk.seed = none := (h.more_any hn0 []).2
  have har : sk.ga.attrs.arith = c.arith := by rw [hI.attrs]; exact a7.arith
  have hnk : sk.ga.attrs.numIndivid = c.numIndivid := by rw [hI.attrs]; exact hnum
  have hk : Keyed scoreKey sk := by
    intro r hr
    obtain ⟨v, hv⟩ := Option.isSome_iff_exists.mp (hI.run.settled.asc.1 r hr)
    exact ⟨v, by unfold scoreKey; rw [hv]⟩
  have htwo : c.numIndivid ≤ sk.ga.population.length := by rw [← hnk]; exact hI.full
  have h2 := ha.two
  have hpos := hl.pos
  cases sel with
  | tournament size =>
    obtain ⟨l1, l2, l3, l4⟩ := hl
    have hset : SafeSetup p.1 (.tournament size) op mop p.2 (f.Geno s0.ga.attrs) { s0 with tape := w } :=
      ⟨h0, fun s' e1 e2 e3 e4 => tournamentExec_safe l1 (by rw [e1, hnum]; exact l2) e2 e3 e4⟩
    refine tournamentExec_sure hpos l1 (by rw [hnk]; exact l2) hks hal hk
      (hset.spread (by rw [hpairs]; exact l3) (by rw [hnum]; exact l2) h) ?_
    have := population_le h0 (by rw [hlen, hnum]) h
    rw [hnum, hpairs] at this
    omega
  | ranked =>
    obtain ⟨l1, l2⟩ := hl
    exact rankedExec_sure l2 (har.trans l1) hks hal (by omega) hk
  | balanced =>
    obtain ⟨l1, l2, l3⟩ := hl
    obtain ⟨t', rfl⟩ := Option.isSome_iff_exists.mp l3
    have hL := ledger a7.fresh (fun r hr => a7.cells.2.2.2 r hr) rfl (posScore_verdict _)
      (posScore_judges ha.arith.rounding hA.objective a1 _) h
    refine balancedExec_sure l2 (har.trans l1) hks hal (Balance.of_ascending (by omega) hI.run.settled.asc fun r hr => ?_)
    obtain ⟨_, v, hv, h0⟩ := hL.members r hr
    exact ⟨v, hv, h0⟩

theorem printBest_sure {s1 : St ℚ} (n1 : s1.seed = none) {b : Nat} {g : Nat} (t1 : s1.ga.best = some (.single b g)) :
    Sure B printBest s1 := by
  refine Sure.of_ok (a := ()) (s' := s1) n1 Tame.printBest.ext ?_
  unfold printBest
  rw [bind_of_ok (getS_run s1), t1]
  rfl

/-- A program in collector mode succeeds with probability one. -/
theorem collectorGA_sure (ha : Composed f c op mop s) (hl : Lively c ov B sel) (hseed : s.seed = none) :
    Sure B (collectorGA c f.spec sel op mop ov) { s with tape := [] } := by
  have hB := hl.pos
  have hsafe : ∀ u, Safe (collectorGA c f.spec sel op mop ov) { s with tape := u } :=
    fun u e s' h => C102_assembled_no_exception (hl.assembled ha u) h
  rw [collectorGA_eq] at hsafe ⊢
  have htame := handInit_tame c f.spec mop ov (some c.stop)
  refine Sure.bind hB hseed htame.ext ?_ ?_
  · exact Sure.of_tame hseed htame fun u e s' hx => hsafe u e s' (bind_of_err hx)
  intro u p s0 e1
  have n0 : s0.seed = none := (htame.ext { s with tape := u } _ _ [] hseed e1).2
  have hp := hand_picks ha hl hseed e1
  obtain ⟨⟨sb, a1⟩, a4, a6, a7, _, _⟩ := handInit_ok e1
  have h0 := assembled_core (hl.assembled ha u).toComposed a1 a4 a6 a7
  refine Sure.bind hB n0 ?_ ?_ ?_
  · exact ExtOk.bind (Tame.baseFitness p.1).ext fun _ => ExtOk.bind Tame.gaUpdate.ext fun _ => ExtOk.bind Tame.getGa.ext fun _ =>
      mainLoop_ext_any p.1 sel op mop p.2 _
  · exact opening_sure (rest := fun ga => mainLoop (singleOps p.1 sel op mop p.2) (ga.numGenerations - 1)) h0 n0 hB
      fun w s h => mainLoop_sure_any h0 n0 hB hp h
  · intro w _ s1 e2
    obtain ⟨_, k, _, _, _, hk, _⟩ := evolve_after e2
    obtain ⟨b, g, v, r, t1, _⟩ := (hk.inv (singleOps_run p.1 sel op mop p.2) (h0.withTape (s0.tape ++ w)).fresh).top
    exact printBest_sure (hk.more_any (by exact n0) []).2 t1

theorem advancedGA_sure {e : Int} (he : c.earlyStop = some e) (ha : Composed f c op mop s) (hl : Lively c ov B sel)
    (hseed : s.seed = none) : Sure B (advancedGA c f.spec sel op mop ov goal) { s with tape := [] } := by
  have hB := hl.pos
  have hsafe : ∀ u, Safe (advancedGA c f.spec sel op mop ov goal) { s with tape := u } :=
    fun u x s' h => C109_no_exception he (hl.assembled ha u) h
  have hstop : c.earlyStop = some c.stop := by rw [Cfg.stop, he]; rfl
  rw [advancedGA_eq, hstop] at hsafe ⊢
  have htame := handInit_tame c f.spec mop ov (some c.stop)
  refine Sure.bind hB hseed htame.ext ?_ ?_
  · exact Sure.of_tame hseed htame fun u e s' hx => hsafe u e s' (bind_of_err hx)
  intro u p s0 e1
  have n0 : s0.seed = none := (htame.ext { s with tape := u } _ _ [] hseed e1).2
  have hp := hand_picks ha hl hseed e1
  obtain ⟨⟨sb, a1⟩, a4, a6, a7, _, _⟩ := handInit_ok e1
  have h0 := assembled_core (hl.assembled ha u).toComposed a1 a4 a6 a7
  refine opening_sure (sel := sel) (rest := fun ga => advancedLoop (singleOps p.1 sel op mop p.2) goal ga.numGenerations >>= fun _ =>
    if c.isPrint then printBest else pure ()) h0 n0 hB fun w s1 h => ?_
  have n1 := (h.more_any (by exact n0) []).2
  refine Sure.bind hB n1 (advancedLoop_ext _ _ _ _ _ _ _) (advancedLoop_sure h0 n0 hB hp h) ?_
  intro v _ s2 e2
  obtain ⟨k, _, _, hk, _⟩ := advancedLoop_after (h.more_any (by exact n0) v).1 e2
  have n2 := (hk.more_any (by exact n0) []).2
  split
  · obtain ⟨b, g, x, r, t1, _⟩ := (hk.inv (singleOps_run p.1 sel op mop p.2) (h0.withTape (w ++ v)).fresh).top
    exact printBest_sure n2 t1
  · exact Sure.of_ok n2 (Tame.pure ()).ext rfl

theorem Sure.chance {α : Type} {m : M ℚ α} {s : St ℚ} {B : Nat} (h : Sure B m { s with tape := [] }) (hB : 0 < B) {ε : ℚ} (hε : 0 < ε) :
    ∃ N, ∀ L, N ≤ L → 1 - ε ≤ Spec.chance B L (fun t => ∃ a s', m { s with tape := t } = (.ok a, s')) := by
  obtain ⟨N, hN⟩ := h ε hε
  refine ⟨N, fun L hL => ?_⟩
  have h1 := chance_compl (L := L) (p := fun t => ∃ a s', m { s with tape := t } = (.ok a, s')) hB
  have h2 : Spec.chance B L (fun t => ¬ ∃ a s', m { s with tape := t } = (.ok a, s')) ≤ ε := hN L hL
  linarith

/-- C112: with independent uniform random numbers, a program in collector mode whose components fit together returns with
probability one, whatever selection, crossover, mutation and transfer it uses: the chance that `L` random numbers are enough tends
to 1 with `L`. -/
theorem C112_returns (ha : Composed f c op mop s) (hl : Lively c ov B sel) (hseed : s.seed = none) {ε : ℚ} (hε : 0 < ε) :
    ∃ N, ∀ L, N ≤ L → 1 - ε ≤ chance B L (fun t => ∃ s', collectorGA c f.spec sel op mop ov { s with tape := t } = (.ok (), s')) := by
  obtain ⟨N, hN⟩ := (collectorGA_sure ha hl hseed).chance hl.pos hε
  exact ⟨N, fun L hL => (hN L hL).trans (chance_mono fun t ⟨_, h⟩ => h)⟩

/-- C112: the same for the loop the README recommends for advanced mode. -/
theorem C112_advanced_returns {e : Int} (he : c.earlyStop = some e) (ha : Composed f c op mop s) (hl : Lively c ov B sel)
    (hseed : s.seed = none) {ε : ℚ} (hε : 0 < ε) :
    ∃ N, ∀ L, N ≤ L → 1 - ε ≤
      chance B L (fun t => ∃ s', advancedGA c f.spec sel op mop ov goal { s with tape := t } = (.ok (), s')) := by
  obtain ⟨N, hN⟩ := (advancedGA_sure (goal := goal) he ha hl hseed).chance hl.pos hε
  exact ⟨N, fun L hL => (hN L hL).trans (chance_mono fun t ⟨_, h⟩ => h)⟩

/-- C112: without early stop, `num_generations` generations find a given point with probability at least
`1 - (1 - δ) ^ (num_generations - 1)`. -/
theorem C112_found (ha : Composed f c op f.mutOp s) (hl : Lively c ov B sel) (hxa : c.arith = .exact) (hseed : s.seed = none)
    (hch : 1 ≤ c.children) (hun : f.Uncertain c.mutationLvl) (hes : c.earlyStop = none) {δ : ℚ} (hδ : f.Odds B δ) {x : List Val}
    (hx : f.Point x) {ε : ℚ} (hε : 0 < ε) :
    ∃ N, ∀ L, N ≤ L → 1 - ε - (1 - δ) ^ (c.numGenerations - 1) ≤
      chance B L (fun t => ∃ s', collectorGA c f.spec sel op f.mutOp ov { s with tape := t } = (.ok (), s') ∧ x ∈ evaluated s s') := by
  obtain ⟨N, hN⟩ := C112_returns ha hl hseed hε
  refine ⟨N, fun L hL => ?_⟩
  refine (chance_and hl.pos
    (q := fun t => ∃ s', collectorGA c f.spec sel op f.mutOp ov { s with tape := t } = (.ok (), s') ∧ x ∈ evaluated s s')
    (hN L hL) (le_trans (chance_mono ?_)
      (C111_missed (sel := sel) (ov := ov) ha hxa hseed hch hun hl.pos hδ hx c.numGenerations L))).trans (chance_mono fun t h => h.2)
  rintro t ⟨⟨s', h⟩, hno⟩
  refine ⟨s', h, ?_, fun hm => hno ⟨s', h, hm⟩⟩
  rw [(C110_stops h).2.2.1 hes]
  exact le_max_right _ _

/-- C112: and, in an unconstrained task, return a best solution at least as good as the point. -/
theorem C112_optimum (ha : Composed f c op f.mutOp s) (hl : Lively c ov B sel) (hxa : c.arith = .exact)
    (hu : ¬ Constrained c s.conds) (hseed : s.seed = none) (hch : 1 ≤ c.children) (hun : f.Uncertain c.mutationLvl)
    (hes : c.earlyStop = none) {δ : ℚ} (hδ : f.Odds B δ) {x : List Val} (hx : f.Point x) {o : ℚ}
    (ho : c.objective x = .ok (.sc o)) {ε : ℚ} (hε : 0 < ε) :
    ∃ N, ∀ L, N ≤ L → 1 - ε - (1 - δ) ^ (c.numGenerations - 1) ≤
      chance B L (fun t => ∃ s', collectorGA c f.spec sel op f.mutOp ov { s with tape := t } = (.ok (), s') ∧
        ∃ b g y ob, s'.ga.best = some (.single b g) ∧ argument f.spec.hasPhenotype (s'.heap b) = some y ∧
          c.objective y = .ok (.sc ob) ∧ cost ov ob ≤ cost ov o) := by
  obtain ⟨N, hN⟩ := C112_found ha hl hxa hseed hch hun hes hδ hx hε
  refine ⟨N, fun L hL => (hN L hL).trans (chance_mono ?_)⟩
  rintro t ⟨s', h, hmem⟩
  refine ⟨s', h, ?_⟩
  obtain ⟨b, g, y, ob, b1, b2, _, b4, _, b6⟩ := C110_best_of_all (s := { s with tape := t }) hxa hu h
  obtain ⟨o', o1, o2⟩ := b6 x hmem
  rw [ho] at o1
  injection o1 with o1
  injection o1 with o1
  subst o1
  exact ⟨b, g, y, ob, b1, b2, b4, o2⟩

/-- C112: the loop of the README that looks for the value `v` finds it, unless `early_stop` generations without improvement end it
before, with probability at least `1 - (1 - δ) ^ num_generations`. -/
theorem C112_goal {e : Int} {v : ℚ} (he : c.earlyStop = some e) (ha : Composed f c op f.mutOp s) (hl : Lively c (some v) B sel)
    (hxa : c.arith = .exact) (hu : ¬ Constrained c s.conds) (hseed : s.seed = none) (hch : 1 ≤ c.children)
    (hun : f.Uncertain c.mutationLvl) {δ : ℚ} (hδ : f.Odds B δ) {x : List Val} (hx : f.Point x)
    (ho : c.objective x = .ok (.sc v)) {ε : ℚ} (hε : 0 < ε) :
    ∃ N, ∀ L, N ≤ L → 1 - ε - (1 - δ) ^ c.numGenerations ≤
      chance B L (fun t => ∃ s', advancedGA c f.spec sel op f.mutOp (some v) (some v) { s with tape := t } = (.ok (), s') ∧
        (Achieved (some v) s' ∨ e ≤ s'.ga.noImprove)) := by
  obtain ⟨N, hN⟩ := C112_advanced_returns (goal := some v) he ha hl hseed hε
  refine ⟨N, fun L hL => ?_⟩
  refine (chance_and hl.pos
    (q := fun t => ∃ s', advancedGA c f.spec sel op f.mutOp (some v) (some v) { s with tape := t } = (.ok (), s') ∧
        (Achieved (some v) s' ∨ e ≤ s'.ga.noImprove))
    (hN L hL) (le_trans (chance_mono ?_)
      (C111_advanced_missed (sel := sel) (ov := some v) (goal := some v) he ha hxa hseed hch hun hl.pos hδ hx
        (c.numGenerations + 1) L))).trans (chance_mono fun t h => h.2)
  rintro t ⟨⟨s', h⟩, hno⟩
  have hbad : ¬ (Achieved (some v) s' ∨ e ≤ s'.ga.noImprove) := fun hq => hno ⟨s', h, hq⟩
  refine ⟨s', h, ?_, fun hm => ?_⟩
  · by_contra hlt
    rcases (C109_stops h).2.2.2 (by omega) with ⟨e', e1, e2⟩ | h'
    · rw [he] at e1
      injection e1 with e1
      exact hbad (.inr (e1 ▸ e2))
    · exact hbad (.inl h')
  · exact hbad (.inl ((C109_goal (s := { s with tape := t }) hxa hu h).1.mp ⟨x, hm, ho⟩))

end

/-! ## how long it may take -/

/-- If all draws left stop at the same place, no second parent is found. -/
theorem secondIndex_stuck {sel : List ℚ} {i : Int} : ∀ {k : Nat} {s s' : St ℚ} {j : Int},
    (∀ x ∈ s.tape, stopAt s.ga.attrs.arith.rnd sel x = i) → secondIndex sel i k s ≠ (.ok j, s') := by
  intro k
  induction k with
  | zero => intro s s' j _ h; simp [secondIndex, throwE_run] at h
  | succ k ih =>
    intro s s' j hi h
    rw [secondIndex] at h
    cases ht : s.tape with
    | nil =>
      rcases getIndex_run sel s with ⟨s1, e1⟩ | ⟨r, s1, _, _, _, e2, _⟩
      · rw [bind_of_err e1] at h; simp at h
      · rw [ht] at e2; simp at e2
    | cons x t =>
      rw [bind_of_ok (getIndex_cons ht)] at h
      have hx := hi x (by rw [ht]; simp)
      unfold stopAt at hx
      rw [hx, ite_run, if_neg (by simp)] at h
      exact ih (s := { s with tape := t }) (fun y hy => hi y (by rw [ht]; exact List.mem_cons_of_mem _ hy)) h

/-- C112: probability one is no promise about time.  If the best score exceeds `2 ^ 53 - 1` times the sum of the others, the roulette
stops somewhere else only if `random()` returns 0.0: no pair of parents is found before that. -/
theorem C112_slow {s s' : St ℚ} {rest : List Nat} {b : Nat} {a : ℚ} {qs : List ℚ} (hx : s.ga.attrs.arith = .exact)
    (hseed : s.seed = none) (hp : s.ga.population = rest ++ [b]) (hb : (s.heap b).score = some a)
    (hr : List.Forall₂ (fun r q => (s.heap r).score = some q ∧ 0 < q) rest qs) (hdom : (2 ^ 53 - 1) * qs.sum < a)
    (hpairs : 1 ≤ numPairs s.ga 1) (h : selExec .balanced s = (.ok (), s')) : ∃ x ∈ s.tape, x % 2 ^ 53 = 0 := by
  by_contra hno
  have hno : ∀ x ∈ s.tape, x % 2 ^ 53 ≠ 0 := fun x hx h0 => hno ⟨x, hx, h0⟩
  have h : balancedWith (pure ()) scoreKey 1 s = (.ok (), s') := h
  unfold balancedWith at h
  obtain ⟨_, s1, h1, h2⟩ := bind_ok.mp h
  obtain ⟨r1, _⟩ := baseSelection_relabelled h1
  obtain ⟨_, s2, h3, h4⟩ := bind_ok.mp h2
  obtain ⟨_, rfl⟩ := pure_ok.mp h3
  obtain ⟨pre, htape, _⟩ := Tame.baseSelection.trim s s2 () hseed h1
  have hpop : s2.ga.population = s.ga.population := by rw [r1.ga]
  have har : s2.ga.attrs.arith = .exact := by rw [r1.ga]; exact hx
  have hnp : numPairs s2.ga 1 = numPairs s.ga 1 := by rw [r1.ga]; rfl
  have hsc : ∀ r, (s2.heap r).score = (s.heap r).score := fun r => (r1.core r).score
  obtain ⟨ws, s3, h5, h6⟩ := bind_ok.mp h4
  obtain ⟨rfl, hw⟩ := weights_ok h5
  rw [bind_of_ok (getGa_run s3)] at h6
  obtain ⟨sel, s4, h7, h8⟩ := bind_ok.mp h6
  obtain ⟨hs, rfl⟩ := liftE_ok.mp h7
  have hws : ws = qs ++ [a] := by
    rw [hpop, hp] at hw
    clear hp hdom h7 hs h5 h6
    induction hr generalizing ws with
    | nil =>
      cases hw with
      | cons hq hw =>
        cases hw
        unfold scoreKey at hq
        rw [hsc, hb] at hq
        injection hq with hq
        rw [hq]; rfl
    | cons e _ ih =>
      cases hw with
      | cons hq' hw' =>
        rw [List.cons_append]
        congr 1
        · unfold scoreKey at hq'
          rw [hsc, e.1] at hq'
          injection hq' with hq'
          exact hq'.symm
        · exact ih _ hw'
  have hqs : ∀ q ∈ qs, 0 < q := by
    intro q hq
    obtain ⟨r, _, h⟩ := forall₂_mem hr hq
    exact h.2
  have hsum0 : 0 ≤ qs.sum := List.sum_nonneg fun q hq => (hqs q hq).le
  have ha0 : 0 < a := lt_of_le_of_lt (by positivity) hdom
  have hpos : ∀ q ∈ qs ++ [a], 0 < q := by
    intro q hq
    rcases List.mem_append.mp hq with hq | hq
    · exact hqs q hq
    · rw [List.mem_singleton.mp hq]; exact ha0
  have hsum : 0 < (qs ++ [a]).sum := by simp only [List.sum_append, List.sum_singleton]; linarith
  subst hws
  rw [har, Arith.exact_rnd, selectionScoresR_id] at hs
  have hstop : ∀ x ∈ s4.tape, stopAt s4.ga.attrs.arith.rnd sel x = (qs.length : Int) := by
    intro x hm
    have hne := hno x (by rw [htape]; exact List.mem_append_right _ hm)
    unfold stopAt
    rw [har, Arith.exact_rnd, rouletteIndexR_id]
    have hlt := Nat.mod_lt x (show 0 < 2 ^ 53 by norm_num)
    have hq : ((x % 2 ^ 53 : Nat) : ℚ) < 2 ^ 53 := by exact_mod_cast hlt
    have hq1 : (1 : ℚ) ≤ ((x % 2 ^ 53 : Nat) : ℚ) := by exact_mod_cast Nat.pos_of_ne_zero hne
    have hc : ((2 ^ 53 : Nat) : ℚ) = 2 ^ 53 := by norm_num
    have h1 : ((x % 2 ^ 53 : Nat) : ℚ) / ((2 ^ 53 : Nat) : ℚ) < 1 := by
      rw [hc, div_lt_one (by norm_num)]; exact hq
    refine (rouletteIndex_iff hs hsum.ne' (fun q hq => div_pos (hpos q hq) hsum) (by positivity) h1 qs.length (by simp)).mpr ⟨?_, ?_⟩
    · have : share (qs ++ [a]) qs.length = qs.sum / (qs ++ [a]).sum := by simp [share]
      rw [this, hc, div_le_div_iff₀ hsum (by norm_num)]
      simp only [List.sum_append, List.sum_singleton]
      nlinarith
    · rw [show qs.length + 1 = (qs ++ [a]).length by simp, share_full hsum.ne']
      exact h1
  unfold roulette at h8
  rw [bind_of_ok (getGa_run _)] at h8
  obtain ⟨n, hn⟩ : ∃ n, numPairs s4.ga 1 = n + 1 := ⟨numPairs s4.ga 1 - 1, by omega⟩
  rw [hn, List.range_succ_eq_map, forEach] at h8
  obtain ⟨_, s5, h9, _⟩ := bind_ok.mp h8
  unfold roulettePair at h9
  obtain ⟨i, s6, k1, k2⟩ := bind_ok.mp h9
  rw [bind_of_ok (getS_run _)] at k2
  obtain ⟨j, s7, k3, _⟩ := bind_ok.mp k2
  cases ht : s4.tape with
  | nil =>
    rcases getIndex_run sel s4 with ⟨s1, e1⟩ | ⟨r, s1, _, _, _, e2, _⟩
    · rw [e1] at k1; simp at k1
    · rw [ht] at e2; simp at e2
  | cons x t =>
    rw [getIndex_cons ht] at k1
    obtain ⟨e1, rfl⟩ := Prod.mk.inj k1
    injection e1 with e1
    have e2 := hstop x (by rw [ht]; simp)
    unfold stopAt at e2
    rw [e2] at e1
    subst e1
    exact secondIndex_stuck (s := { s4 with tape := t }) (fun y hy => hstop y (by rw [ht]; exact List.mem_cons_of_mem _ hy)) k3

/-! ## concrete cases -/

/-- Two individuals; one has the value looked for, the other is `2 ^ 60` away. -/
def exFarCfg : Cfg :=
  { numGenerations := 2, numIndivid := 2, obj1 := fun x => .ok (.sc (1152921504606846976 * sumNums x)), childrenPercent := 1,
    input := some [[.num 0], [.num 1]], mutationLvl := .float (1 / 100) }

def exFar : SingleFacade := .categorical [.range 0 1 1]

/-- The first generation. -/
def exFarStart : M ℚ Unit :=
  handInit exFarCfg exFar.spec .categorical (some 0) (some exFarCfg.stop) >>= fun p => baseFitnessExec p.1 >>= fun _ => gaUpdate

set_option maxRecDepth 100000 in
theorem exFar_start : (exFarStart {}).1 = .ok () ∧ (exFarStart {}).2.ga.population = [1, 0] ∧
    ((exFarStart {}).2.heap 0).score = some 1 ∧ ((exFarStart {}).2.heap 1).score = some (1 / 1152921504606846977) ∧
    numPairs (exFarStart {}).2.ga 1 = 2 ∧ (exFarStart {}).2.ga.numGenerations = 2 := by
  decide +kernel

theorem exFar_composed : Composed exFar exFarCfg .uniform .categorical {} where
  genes := by
    intro g hg
    simp only [List.mem_cons, List.not_mem_nil, or_false] at hg
    rcases hg with rfl
    exact ⟨⟨.num 0, 0, by norm_num, .inl (by norm_num)⟩, fun l h => by cases h⟩
  operators := ⟨.inr (.inr rfl), rfl, (fun h => by cases h), (fun h => by cases h)⟩
  input := by
    intro x hx
    simp only [exFarCfg, Option.getD_some, List.mem_cons, List.not_mem_nil, or_false] at hx
    rcases hx with rfl | rfl
    · exact .cons ⟨0, by norm_num, .inl (by norm_num)⟩ .nil
    · exact .cons ⟨1, by norm_num, .inl (by norm_num)⟩ .nil
  room := by simp [exFarCfg]
  two := by simp [exFarCfg]
  level := .inl ⟨_, rfl, by norm_num, by norm_num⟩
  transfer := .inl rfl
  objective := .inl ⟨.inl rfl, fun x _ => ⟨_, rfl⟩⟩
  arith := .inl rfl

/-- C112: this program, whose components fit together, returns with probability one, but only if `random()` returned exactly 0.0. -/
theorem C112_patience :
    (∀ ε : ℚ, 0 < ε → ∃ N, ∀ L, N ≤ L → 1 - ε ≤ chance (2 ^ 53) L (fun t => ∃ s',
      collectorGA exFarCfg exFar.spec .balanced .uniform .categorical (some 0) { tape := t } = (.ok (), s'))) ∧
    ∀ (t : List Nat) (s' : St ℚ), collectorGA exFarCfg exFar.spec .balanced .uniform .categorical (some 0) { tape := t } = (.ok (), s') →
      ∃ x ∈ t, x % 2 ^ 53 = 0 := by
  refine ⟨fun ε hε => C112_returns (f := exFar) (s := {}) (sel := .balanced) (ov := some 0) exFar_composed ⟨rfl, le_rfl, rfl⟩ rfl hε, fun t s' h => ?_⟩
  obtain ⟨f1, f2, f3, f4, f6, f7⟩ := exFar_start
  have htame : Tame exFarStart := (handInit_tame _ _ _ _ _).bind fun p => (Tame.baseFitness p.1).bind fun _ => Tame.gaUpdate
  obtain ⟨e1, e2⟩ := htame.ext {} (exFarStart {}).2 () t rfl (by rw [← f1])
  obtain ⟨pre, e4, _⟩ := htame.trim {} (exFarStart {}).2 () rfl (by rw [← f1])
  rw [collectorGA_eq] at h
  obtain ⟨p, s0, a1, a2⟩ := bind_ok.mp h
  unfold exFarStart at e1
  have e1 := e1.symm.trans (bind_of_ok a1)
  obtain ⟨_, s1, a3, _⟩ := bind_ok.mp a2
  unfold evolve at a3
  obtain ⟨_, s2, b1, b2⟩ := bind_ok.mp a3
  obtain ⟨_, s3, b3, b4⟩ := bind_ok.mp b2
  have e3 := e1.trans ((bind_of_ok b1).trans b3)
  obtain ⟨_, e3⟩ := Prod.mk.inj e3
  have e3 : (exFarStart {}).2.more t = s3 := e3
  have f5 : ((exFarStart {}).2.more t).ga.attrs.arith = .exact := by
    obtain ⟨⟨sb, c1⟩, c4, c6, c7, _, _⟩ := handInit_ok a1
    have h0 : SafeCore p.1 .uniform .categorical p.2 (exFar.Geno s0.ga.attrs) s0 :=
      assembled_core (ov := some 0) (sa := { tape := t }) ⟨exFar_composed.genes, exFar_composed.operators, exFar_composed.input,
        exFar_composed.room, exFar_composed.two, exFar_composed.level, exFar_composed.transfer, exFar_composed.objective,
        exFar_composed.arith⟩ c1 c4 c6 c7
    rw [e3, (h0.inv (After.first b1 b3)).attrs]
    exact c7.arith
  rw [bind_of_ok (getGa_run _), ← e3] at b4
  rw [show ((exFarStart {}).2.more t).ga.numGenerations = 2 from f7] at b4
  rw [mainLoop] at b4
  obtain ⟨_, s4, b5, _⟩ := bind_ok.mp b4
  unfold generation at b5
  obtain ⟨_, s5, b6, _⟩ := bind_ok.mp b5
  obtain ⟨x, x1, x2⟩ := C112_slow (s := (exFarStart {}).2.more t) (rest := [1]) (qs := [1 / 1152921504606846977]) f5 e2 f2 f3
    (.cons ⟨f4, by norm_num⟩ .nil) (by norm_num) (by rw [St.more_ga, f6]; omega) b6
  refine ⟨x, ?_, x2⟩
  have e4 : (exFarStart {}).2.tape = [] := by
    have : ([] : List Nat) = pre ++ (exFarStart {}).2.tape := e4
    exact (List.append_eq_nil_iff.mp this.symm).2
  have x1 : x ∈ (exFarStart {}).2.tape ++ t := x1
  rwa [e4] at x1

theorem exSum_odds_large : (SingleFacade.binary true [⟨0, 3, 1⟩, ⟨-1, 1, 1 / 2⟩]).Odds (1000 * 2 ^ 53) ((1 / 1000) ^ 5) :=
  ⟨dvd_mul_right _ _, exSum_odds.2⟩

/-- Ranked selection: two runs in three of so many generations find the minimum of the sum of two numbers from `{0, 1, 2, 3}` and
`{-1, -5/7, …, 1}`. -/
example : ∃ m N, ∀ L, N ≤ L → 2 / 3 ≤ chance (1000 * 2 ^ 53) L (fun t => ∃ s', collectorGA
      { exSumCfg with numGenerations := m, earlyStop := none } (.binary true [⟨0, 3, 1⟩, ⟨-1, 1, 1 / 2⟩]) .ranked .uniform .binString none
      { tape := t } = (.ok (), s') ∧ [.num 0, .num (-1)] ∈ evaluated {} s') := by
  obtain ⟨n, hn⟩ := exists_pow_lt_of_lt_one (show (0 : ℚ) < 1 / 6 by norm_num) (show (1 : ℚ) - (1 / 1000) ^ 5 < 1 by norm_num)
  obtain ⟨N, hN⟩ := C112_found (f := .binary true [⟨0, 3, 1⟩, ⟨-1, 1, 1 / 2⟩]) (s := {}) (sel := .ranked) (ov := none)
    (B := 1000 * 2 ^ 53) (exSum_composed (n + 1) none) ⟨rfl, by norm_num⟩ rfl rfl (show 1 ≤ exSumCfg.children by decide +kernel)
    exSum_uncertain rfl exSum_odds_large exSum_point (show (0 : ℚ) < 1 / 6 by norm_num)
  refine ⟨n + 1, N, fun L hL => le_trans ?_ (hN L hL)⟩
  show (2 : ℚ) / 3 ≤ 1 - 1 / 6 - (1 - (1 / 1000) ^ 5) ^ n
  linarith

/-- The loop of the README with the roulette and `early_stop=40`. -/
example (m : Nat) {ε : ℚ} (hε : 0 < ε) : ∃ N, ∀ L, N ≤ L → 1 - ε - (1 - (1 / 1000) ^ 5) ^ m ≤ chance (1000 * 2 ^ 53) L (fun t => ∃ s', advancedGA
      { exSumCfg with numGenerations := m, earlyStop := some 40 } (.binary true [⟨0, 3, 1⟩, ⟨-1, 1, 1 / 2⟩]) .balanced .uniform .binString
      (some (-1)) (some (-1)) { tape := t } = (.ok (), s') ∧ (Achieved (some (-1)) s' ∨ (40 : Int) ≤ s'.ga.noImprove)) := by
  have ho : ({ exSumCfg with numGenerations := m, earlyStop := some 40 } : Cfg).objective [.num 0, .num (-1)] = .ok (.sc (-1)) := by
    show Except.ok (Ret.sc (sumNums [.num 0, .num (-1)])) = _
    simp [sumNums]
  have hl : Lively { exSumCfg with numGenerations := m, earlyStop := some 40 } (some (-1)) (1000 * 2 ^ 53) .balanced :=
    ⟨rfl, by norm_num, rfl⟩
  exact C112_goal (f := .binary true [⟨0, 3, 1⟩, ⟨-1, 1, 1 / 2⟩]) (s := {}) (e := 40) (v := -1) rfl
    (exSum_composed m (some 40)) hl rfl (by simp [Constrained, exSumCfg]) rfl
    (show 1 ≤ exSumCfg.children by decide +kernel) exSum_uncertain exSum_odds_large exSum_point ho hε

end BaumEva
