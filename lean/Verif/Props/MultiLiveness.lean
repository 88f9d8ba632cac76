import Mathlib.Data.List.TakeWhile
import Verif.Proofs.LiveMulti
import Verif.Props.Liveness
import Verif.Props.MultiNoCrash
/-!
# C89, C90: can a multi-objective run always be completed?
-/
namespace BaumEva
open BaumEva.Spec
variable {σ : Type}

/-! ## the facade -/

/-- A facade whose generations can always succeed can be completed. -/
theorem facade_poss [DecidableEq σ] {c : Cfg} {spec : PopSpec} {task : Task σ} {fitExec : Fit σ → M σ Unit} {update selection : M σ Unit}
    {cross : CrossOp} {mutOp : MutOp} {newGen : Transfer → M σ Unit} {s : St σ} (hseed : s.seed = none)
    (hsafe : ∀ u, Safe (facade c spec task fitExec update selection cross mutOp newGen) (s.more u))
    (hlive : ∀ (p : Fit σ × Transfer) (s0 : St σ), s0.seed = none →
      (∀ w, ∃ sa sb, newFitness task sa = (.ok p.1, sb) ∧ sa.conds = s.conds ∧ checkTransfer c.transfer = .ok p.2 ∧
        (∃ l, checkMutation mutOp c.mutationLvl = .ok l ∧ (s0.more w).mutLvl = l.stored c.arith) ∧
        Started spec c.numIndivid c.numGenerations c.input c.childrenPercent (some c.stop) c.arith (s0.more w)) →
      ∃ P, MultiLive { fitness := fitExec p.1, update := update, selection := selection, crossover := crossExec cross,
                       mutation := mutExec mutOp, newGen := newGen p.2 } p.1 cross mutOp P s0) :
    Poss (facade c spec task fitExec update selection cross mutOp newGen) s := by
  rw [facade_eq] at hsafe ⊢
  have htame := startUp_tame c spec task mutOp
  refine Poss.bind hseed htame.ext ?_ ?_
  · refine Poss.of_tame hseed htame fun u e s' h => hsafe u e s' (bind_of_err h)
  intro u p s0 e1
  obtain ⟨_, n0⟩ := htame.ext (s.more u) s0 p [] hseed e1
  obtain ⟨P, hl⟩ := hlive p s0 n0 (by
    intro w
    obtain ⟨e2, _⟩ := htame.ext (s.more u) s0 p w hseed e1
    obtain ⟨sa, sb, a1, a2, _, a4, _, a6, a7⟩ := startUp_ok e2
    exact ⟨sa, sb, a1, a2, a4, a6, a7⟩)
  refine Poss.bind n0 hl.evolve_ext hl.evolve_poss ?_
  intro w _ s1 e2
  obtain ⟨_, n1⟩ := hl.evolve_ext (s0.more w) s1 () [] n0 e2
  obtain ⟨_, k, _, _, _, hk, _⟩ := evolve_after e2
  split
  · refine Poss.of_tame n1 Tame.printBest fun v => ?_
    have := ((hl.more w).after_more hk v).1
    exact ((hl.more w).safe v).print this
  · exact Poss.of_ok rfl

/-! ## FFGA: no weight is negligible -/

theorem ffga_evaluated {fit : Fit ℚ} (hsc : fit.task.score = ffgaScore .exact) {ga : GaData ℚ} {best : BestArg} {m y : Ind ℚ} {q : ℚ}
    (he : Evaluated fit ga best m y) (hr : m.rank = some (.sc q)) (hq : 1 ≤ q) : y.score = some (1 / (1 + q)) := by
  have key : ∀ {g : List Val} {a b : Ind ℚ}, EvalTo fit ga.idxGeneration best g a b → a.rank = some (.sc q) → b.score = some (1 / (1 + q)) := by
    rintro g a b ⟨ret, vals, os, feas, pen, sc, _, _, e3, e4, _⟩ ha
    rw [hsc] at e4
    unfold ffgaScore at e4
    simp only [ha] at e4
    rw [if_neg (by linarith)] at e4
    injection e4 with e4
    rw [e3, ← e4]
    rfl
  obtain ⟨g, _, he⟩ := he
  split at he
  · exact key (a := swapInd m) (b := swapInd y) he hr
  · exact key he hr

/-- The scores of one evaluation. -/
theorem ffga_scored {fit : Fit ℚ} (hv : UniformVecs fit.task.obj1) (hsc : fit.task.score = ffgaScore .exact) {s s' : St ℚ}
    (h : multiFitnessExec fit s = (.ok (), s')) (hnd : (unscored s.heap s.ga.population).Nodup) :
    (∀ r ∈ s.ga.population, (s.heap r).score.isSome → (s'.heap r).score = (s.heap r).score) ∧
    ∀ r ∈ s.ga.population, (s.heap r).score = none → (s'.heap r).score = some (1 / (1 + rankIn fit.task.obj1 s'.heap s.ga.population r)) := by
  obtain ⟨_, _, a3, _⟩ := multiFitness_ok h hnd fun h' _ => hv.fit _ _
  refine ⟨fun r hr hs => ?_, fun r hr hs => ?_⟩
  · obtain ⟨m, b1, b2, _⟩ := a3 r hr
    rw [b2 hs]
    simp only
    rw [b1.keeps]
  · obtain ⟨m, _, _, b3, _⟩ := a3 r hr
    obtain ⟨best, he⟩ := b3 hs
    exact ffga_evaluated hsc he rfl (rankIn_ge _ _ _ _)

theorem rankIn_single_le {f : List Val → Except PyErr Ret} {h : Nat → Ind σ} {l : List Nat} {r : Nat} (hc : l.count r ≤ 1) :
    rankIn f h l r ≤ 1 + l.length := by
  unfold rankIn
  have h1 : dominators f (l.map h) (h r) ≤ l.length := by
    unfold dominators
    exact List.countP_le_length.trans (by simp)
  have : l.count r * dominators f (l.map h) (h r) ≤ 1 * l.length := Nat.mul_le_mul hc h1
  have : ((l.count r * dominators f (l.map h) (h r) : Nat) : ℚ) ≤ (l.length : ℚ) := by exact_mod_cast (by omega)
  linarith

/-- What is known about the scores in a run of FFGA; `B` bounds the sizes with transfer "random". -/
def FfgaWeights (tr : Transfer) (B : Nat) (s : St ℚ) : Prop := ∀ r ∈ s.ga.population, ∃ q, (s.heap r).score = some q ∧ 0 < q ∧ q ≤ 1 / 2 ∧
  (tr = .best → 1 / (2 + (s.ga.population.length : ℚ)) ≤ q ∧ ((s.heap r).rank = some (.sc 1) → q = 1 / 2)) ∧
  (tr = .random → 1 / (2 + (B : ℚ)) ≤ q)

theorem new_weight {q n : ℚ} (h1 : 1 ≤ q) (h2 : q ≤ 1 + n) : 0 < 1 / (1 + q) ∧ 1 / (1 + q) ≤ 1 / 2 ∧ 1 / (2 + n) ≤ 1 / (1 + q) :=
  ⟨by positivity, one_div_le_one_div_of_le (by norm_num) (by linarith), one_div_le_one_div_of_le (by linarith) (by linarith)⟩

theorem ffga_weights {fit : Fit ℚ} {sel : SelOp} {op : CrossOp} {mop : MutOp} {tr : Transfer} {s0 : St ℚ} (hsr : sel ≠ .ranked) (hv : UniformVecs fit.task.obj1) (hsc : fit.task.score = ffgaScore .exact)
    (h0 : Fresh s0) {B : Nat} (hB0 : s0.ga.population.length ≤ B) (hB1 : s0.ga.attrs.arith.share s0.ga.childrenPercent s0.ga.attrs.numIndivid 1 + 11 ≤ B)
    {k : Nat} {s : St ℚ} (h : After (ffgaOps fit sel op mop tr) s0 k s) : FfgaWeights tr B s := by
  have hops := ffgaOps_run hv sel op mop tr
  induction h with
  | @first s1 s a b =>
    obtain ⟨hI, hperm, hS, hheap, _⟩ := multi_first hv h0 a b
    obtain ⟨_, hnew⟩ := ffga_scored hv hsc a (h0.distinct.sublist (unscored_sublist s0.heap s0.ga.population))
    obtain ⟨_, _, a3, _⟩ := multiFitness_ok (show multiFitnessExec fit s0 = (.ok (), s1) from a)
      (h0.distinct.sublist (unscored_sublist s0.heap s0.ga.population)) fun h' _ => hv.fit _ _
    intro r hr
    have hr0 := hperm.subset hr
    have hcell := hheap r (h0.alive r hr0)
    have hc : s0.ga.population.count r ≤ 1 := List.nodup_iff_count_le_one.mp h0.distinct r
    have hge := rankIn_ge fit.task.obj1 s1.heap s0.ga.population r
    have hle := rankIn_single_le (f := fit.task.obj1) (h := s1.heap) hc
    obtain ⟨w1, w2, w3⟩ := new_weight hge hle
    refine ⟨_, by rw [hcell]; exact hnew r hr0 (h0.unscored r hr0), w1, w2, fun _ => ⟨?_, ?_⟩, fun _ => ?_⟩
    · rw [hperm.length_eq]; exact w3
    · intro h1
      rw [hcell, (a3 r hr0).choose_spec.2.2.2.2] at h1
      simp only [Option.some.injEq, Rank.sc.injEq] at h1
      rw [h1]; norm_num
    · refine (one_div_le_one_div_of_le (by positivity) ?_).trans w3
      have : (s0.ga.population.length : ℚ) ≤ B := by exact_mod_cast hB0
      linarith
  | @next k s s' a b ih =>
    have hs := a.multi hops h0
    obtain ⟨es', k1, k2, k3, k4⟩ := ffga_sizes hv h0 a b
    obtain ⟨hI', a0, s1, s2, s3, es, t, hsel, hb1, hb2, hb3, hB, hready, hng, hes, e2, hun, hfit, hF, hBU, _, hperm, hheap, _, _, _, _, hcore⟩ :=
      multi_generation hops hs b
    have hp2 : s2.ga.population = s1.ga.children ++ es := by rw [e2]
    obtain ⟨n0, hn0, hrange, hn1⟩ := hB.range
    have hnd : s1.ga.children.Nodup := by rw [hrange]; exact List.nodup_range'
    obtain ⟨_, hnew⟩ := ffga_scored hv hsc hfit (by rw [hun]; exact hnd)
    obtain ⟨_, _, a3, _⟩ := multiFitness_ok hfit (by rw [hun]; exact hnd) fun h' _ => hv.fit _ _
    have hees : tr = .best → ∀ r ∈ es, (s.heap r).rank = some (.sc 1) := by
      intro htr r hr
      obtain ⟨es2, t', _, hbest, _, e2'⟩ := multiNewGen_ok hready (show multiNewGenExec tr s1 = (.ok (), s2) from hng)
      have hsame : es = es2 := by
        have h2 : s2.ga.population = s1.ga.children ++ es2 := by rw [e2']
        rw [hp2] at h2
        exact List.append_cancel_left h2
      have hx := hs.alive r (hes r hr)
      rw [hsame, hbest htr] at hr
      have := List.mem_takeWhile_imp hr
      rw [hb1 r (hx.trans_le hb2), selExec_keepsRank hsr s a0 () hs.alive hsel r hx] at this
      simpa using this
    intro r hr
    have hm := hperm.subset hr
    have hlen' : s'.ga.population.length = s2.ga.population.length := by rw [hperm.length_eq, hp2]
    rcases List.mem_append.mp hm with hc | he
    · have hr2 : r ∈ s2.ga.population := by rw [hp2]; exact List.mem_append_left _ hc
      have hlt : s.next ≤ r ∧ r < s1.next := by
        rw [hrange, List.mem_range'_1] at hc
        omega
      have hcell : s'.heap r = s3.heap r := hheap r hlt.2
      have hnone : (s2.heap r).score = none := by
        have : r ∈ unscored s2.heap s2.ga.population := by rw [hun]; exact hc
        simpa using (List.mem_filter.mp this).2
      have hcount : s2.ga.population.count r ≤ 1 := by
        rw [hp2, List.count_append, List.count_eq_zero_of_not_mem (a := r) (l := es), add_zero]
        · exact List.nodup_iff_count_le_one.mp hnd r
        · intro he
          have := hs.alive r (hes r he)
          omega
      have hge := rankIn_ge fit.task.obj1 s3.heap s2.ga.population r
      have hle := rankIn_single_le (f := fit.task.obj1) (h := s3.heap) hcount
      obtain ⟨w1, w2, w3⟩ := new_weight hge hle
      refine ⟨_, by rw [hcell]; exact hnew r hr2 hnone, w1, w2, fun _ => ⟨?_, ?_⟩, fun htr => ?_⟩
      · rw [hlen']; exact w3
      · intro h1
        rw [hcell, (a3 r hr2).choose_spec.2.2.2.2] at h1
        simp only [Option.some.injEq, Rank.sc.injEq] at h1
        rw [h1]; norm_num
      · refine (one_div_le_one_div_of_le (by positivity) ?_).trans w3
        have : s2.ga.population.length ≤ B := by
          rw [← hlen', k2, (k4 htr).1]; exact hB1
        have : (s2.ga.population.length : ℚ) ≤ B := by exact_mod_cast this
        linarith
    · obtain ⟨q, q1, q2, q3, q4, q5⟩ := ih r (hes r he)
      refine ⟨q, by rw [(hcore r he).score]; exact q1, q2, q3, fun hb => ?_, q5⟩
      have hq := (q4 hb).2 (hees hb r he)
      refine ⟨?_, fun _ => hq⟩
      rw [hq]
      exact one_div_le_one_div_of_le (by norm_num) (by have : (0 : ℚ) ≤ s'.ga.population.length := by positivity
                                                       linarith)

theorem FfgaWeights.twoStops {tr : Transfer} {B : Nat} {s : St ℚ} (h : FfgaWeights tr B s) (h2 : 2 ≤ s.ga.population.length)
    (hB : tr = .random → B ≤ 2 ^ 53) {ws sel : List ℚ}
    (hws : List.Forall₂ (fun r q => scoreKey (s.heap r) = .ok q) s.ga.population ws) (hsel : selectionScores ws = .ok sel) : TwoStops id sel := by
  have hl := hws.length_eq
  have hval : ∀ q ∈ ws, q ≤ 1 / 2 ∧ (tr = .best → 1 / (2 + (s.ga.population.length : ℚ)) ≤ q) ∧ (tr = .random → 1 / (2 + (B : ℚ)) ≤ q) := by
    intro q hq
    obtain ⟨r, hm, hrq⟩ := forall₂_mem hws hq
    obtain ⟨q', e, _, q3, q4, q5⟩ := h r hm
    unfold scoreKey at hrq
    rw [e] at hrq
    injection hrq with hrq
    rw [← hrq]
    exact ⟨q3, fun e => (q4 e).1, q5⟩
  have hN : (2 : ℚ) ≤ s.ga.population.length := by exact_mod_cast h2
  rw [hl] at h2
  cases tr with
  | best =>
    refine BaumEva.twoStops hsel h2 (lo := 1 / (2 + (s.ga.population.length : ℚ))) (hi := 1 / 2) (by positivity)
      (fun q hq => (hval q hq).2.1 rfl) (fun q hq => (hval q hq).1) ?_
    rw [← hl, ← mul_div_assoc, mul_one, ← mul_div_assoc, le_div_iff₀ (by linarith)]
    norm_num
    linarith
  | random =>
    refine BaumEva.twoStops hsel h2 (lo := 1 / (2 + (B : ℚ))) (hi := 1 / 2) (by positivity)
      (fun q hq => (hval q hq).2.2 rfl) (fun q hq => (hval q hq).1) ?_
    have : (B : ℚ) ≤ 2 ^ 53 := by exact_mod_cast hB rfl
    rw [← hl, ← mul_div_assoc, mul_one, ← mul_div_assoc, le_div_iff₀ (by positivity)]
    have h53 : (2 : ℚ) ^ 53 = 9007199254740992 := by norm_num
    rw [h53] at this ⊢
    linarith

/-- C89, FFGA: an admissible run with at least two individuals can always be completed.  Whatever has been drawn so far, some further
draws let `optimize()` return.  (With transfer "random" the numbers must not exceed what the 53 bits of `random()` can distinguish.) -/
theorem C89_ffga_completable {c : Cfg} {gray : Bool} {gens : List BinGene} {s : St ℚ} (ha : FfgaAdmissible gray gens c s.conds)
    (hseed : s.seed = none) (htwo : 2 ≤ c.numIndivid ∨ c.childrenPercent * c.numIndivid < 1)
    (hbig : c.transfer = "random" → c.numIndivid ≤ 2 ^ 53 ∧ c.childrenPercent * c.numIndivid + 11 ≤ 2 ^ 53) :
    ∃ (u : List Nat) (s' : St ℚ), ffga c gray gens { s with tape := s.tape ++ u } = (.ok (), s') := by
  suffices h : Poss (ffga c gray gens) s by
    obtain ⟨u, _, s', h⟩ := h
    exact ⟨u, s', h⟩
  obtain ⟨n, ht⟩ := ha.task
  refine facade_poss hseed (fun u e s' h => C87_ffga_no_exception (s := s.more u) ha h) ?_
  rintro ⟨fit, tr⟩ s0 n0 hst
  have hfit0 : ∃ sa sb, newFitness (ffgaTask c.obj1 c.obj2 c.inputTruthy c.penalty c.arith) sa = (.ok fit, sb) := by
    obtain ⟨sa, sb, a1, _⟩ := hst []
    exact ⟨sa, sb, a1⟩
  obtain ⟨sa, sb, hfit0⟩ := hfit0
  have htask : fit.task = ffgaTask c.obj1 c.obj2 c.inputTruthy c.penalty c.arith := (newFitness_ok hfit0).1
  have hv : UniformVecs fit.task.obj1 := by rw [htask]; exact ht.uniform
  refine ⟨BitsOf s0.ga.attrs, ⟨?_, n0, Tame.multiNewGen tr, balanced_ext scoreKey 1, ?_⟩⟩
  · intro u
    obtain ⟨sa, sb, a1, a2, a3, a4, a5⟩ := hst u
    exact (ffga_multiSafe (s0 := s0.more u) (by rw [a2]; exact ha.toFfgaCall) a1 a3 a4 a5 (ffga_wheel_exact ha)).1
  · intro u k x hk hx
    obtain ⟨sa, sb, a1, a2, a3, a4, a5⟩ := hst u
    obtain ⟨hsafe, hsize⟩ := ffga_multiSafe (s0 := s0.more u) (by rw [a2]; exact ha.toFfgaCall) a1 a3 a4 a5 (ffga_wheel_exact ha)
    have hops := ffgaOps_run hv .balanced .onePoint .binString tr
    have hI := hk.multi hops a5.fresh
    obtain ⟨b4, b5, _, _⟩ := a5.cells
    have hpct : (s0.more u).ga.childrenPercent = c.childrenPercent := a5.percent
    set B := max c.numIndivid (c.children + 11) with hBdef
    have hW : FfgaWeights tr B x := by
      refine ffga_weights (sel := .balanced) (op := .onePoint) (mop := .binString) (by simp) hv (by rw [htask]; exact congrArg ffgaScore ha.exact) a5.fresh ?_ ?_ hk
      · rw [b4]; exact le_max_left _ _
      · rw [hpct, b5, a5.arith]; exact le_max_right _ _
    have hnp : numPairs x.ga 1 = c.children :=
      numPairs_children (by rw [hsafe.attrs k x hk]; exact b5) ((hk.keeps sameSetup_frame hsafe.keep).1.2.1.trans hpct)
        (by rw [hsafe.attrs k x hk]; exact a5.arith)
    refine balanced_poss (w := scoreKey) ?_ (by rw [hsafe.attrs k x hk]; exact a5.arith.trans ha.exact) hx hI.alive (hsize k x hk).1 ?_ ?_
    · intro a b h; unfold scoreKey; rw [h.score]
    · intro r hr
      obtain ⟨q, q1, q2, _⟩ := hW r hr
      exact ⟨q, by unfold scoreKey; rw [q1], q2⟩
    · by_cases hc : c.children = 0
      · exact .inl (hnp.trans hc)
      · right
        intro ws sel hws hsel
        refine hW.twoStops ?_ ?_ hws hsel
        · have hpos : 1 ≤ c.childrenPercent * c.numIndivid := by
            by_contra hlt
            push Not at hlt
            apply hc
            rw [Cfg.children_exact ha.exact]
            have : ⌊c.childrenPercent * c.numIndivid⌋ < 1 := Int.floor_lt.mpr (by exact_mod_cast hlt)
            omega
          have hnum : 2 ≤ c.numIndivid := by
            rcases htwo with h | h
            · exact h
            · linarith
          cases hk with
          | @first s1 _ a b =>
            rw [(multi_first hv a5.fresh a b).2.1.length_eq, b4]; exact hnum
          | @next k y _ a b =>
            obtain ⟨es, k1, k2, k3, k4⟩ := ffga_sizes (fit := fit) (sel := .balanced) (op := .onePoint) (mop := .binString) (tr := tr) hv a5.fresh a b
            rw [k2, hpct, b5, a5.arith]
            have : 1 ≤ es.length := by
              cases tr with
              | best =>
                rw [k3 rfl (by simp)]
                exact List.length_pos_iff.mpr ((a.multi hops a5.fresh).front_nonempty (hsize _ _ a).1)
              | random => rw [(k4 rfl).1]; omega
            have : c.arith.share c.childrenPercent c.numIndivid 1 = c.children := rfl
            omega
        · intro htr
          have htrn : c.transfer = "random" := by
            rcases ha.transfer with h | h
            · rw [h] at a3
              have e : checkTransfer "best" = .ok tr := a3
              rw [htr] at e
              simp [checkTransfer] at e
            · exact h.1
          obtain ⟨h1, h2⟩ := hbig htrn
          refine max_le h1 ?_
          have h3 : (c.children : ℤ) + 11 ≤ 2 ^ 53 := by
            rw [Cfg.children_exact ha.exact]
            have : ⌊c.childrenPercent * c.numIndivid⌋ ≤ 2 ^ 53 - 11 := by
              have := Int.floor_le (c.childrenPercent * (c.numIndivid : ℚ))
              have h4 : ((⌊c.childrenPercent * c.numIndivid⌋ : ℤ) : ℚ) ≤ ((2 ^ 53 - 11 : ℤ) : ℚ) := by push_cast; linarith
              exact_mod_cast h4
            omega
          exact_mod_cast h3

/-- The hypotheses can be met. -/
example (t : List Nat) : ∃ (u : List Nat) (s' : St ℚ), ffga exPairCfg true [⟨0, 3, 1⟩, ⟨-1, 1, 1 / 2⟩] { tape := t ++ u } = (.ok (), s') :=
  C89_ffga_completable (s := { tape := t }) exPair_ffga rfl (.inl (by simp [exPairCfg])) (fun _ => by norm_num [exPairCfg])

/-- One individual can not be paired: the roulette looks for a second parent forever. -/
theorem balancedExec_alone {s s' : St ℚ} (hx : s.ga.attrs.arith = .exact) (hal : ∀ r ∈ s.ga.population, r < s.next) (h1 : s.ga.population.length = 1)
    (hp : 1 ≤ numPairs s.ga 1) : balancedExec s ≠ (.ok (), s') := by
  intro h
  obtain ⟨_, s2, ws, sel, ps, _, _, _, _, hw, hs, hl, _, hps⟩ := balancedWith_ok (fun s s' u e => by
    obtain ⟨_, rfl⟩ := pure_ok.mp e
    exact ⟨Relabelled.refl _, rfl⟩) hal h
  rw [hx, Arith.exact_rnd, selectionScoresR_id] at hs
  simp only [hx, Arith.exact_rnd] at hps
  obtain ⟨p, hpm⟩ : ∃ p, p ∈ ps := List.exists_mem_of_length_pos (by omega)
  obtain ⟨_, _, i, j, q, r, q0, q1, r0, r1, hi, hj, hne, _⟩ := hps p hpm
  have hlen := hw.length_eq
  have hsum : ws.sum ≠ 0 := (selectionScores_ok hs).2.1 (by rintro rfl; rw [h1] at hlen; simp at hlen)
  obtain ⟨i', e1, l1⟩ := rouletteIndex_range hs hsum q0 q1
  obtain ⟨j', e2, l2⟩ := rouletteIndex_range hs hsum r0 r1
  apply hne
  rw [hi, hj, rouletteIndexR_id, rouletteIndexR_id, e1, e2]
  omega

/-- C89, the other side: with a single individual and at least one child an `FFGA` run of two or more generations never returns,
whatever is drawn. -/
theorem C89_ffga_single_never_returns {c : Cfg} {gray : Bool} {gens : List BinGene} {s : St ℚ} (ha : FfgaAdmissible gray gens c s.conds)
    (h1 : c.numIndivid = 1) (hc : 1 ≤ c.childrenPercent) (hg : 2 ≤ c.numGenerations) :
    (ffga c gray gens s).1 = .error .exhausted := by
  rcases hx : ffga c gray gens s with ⟨o, s'⟩
  cases o with
  | error e => rw [(C87_ffga_no_exception ha hx).1]
  | ok v =>
    exfalso
    unfold ffga at hx
    rw [facade_eq] at hx
    obtain ⟨⟨fit, tr⟩, s0, e1, hx⟩ := bind_ok.mp hx
    obtain ⟨_, s1, e2, _⟩ := bind_ok.mp hx
    obtain ⟨sa, sb, a1, a2, _, a4, _, a6, a7⟩ := startUp_ok e1
    obtain ⟨hsafe, _⟩ := ffga_multiSafe (s0 := s0) (by rw [a2]; exact ha.toFfgaCall) a1 a4
      a6 a7 (ffga_wheel_exact ha)
    obtain ⟨t1, k, b1, b2, b3, b4, b5, _⟩ := evolve_after e2
    have hk2 : 2 ≤ k := by
      by_contra hlt
      have hgen : t1.ga.numGenerations = c.numGenerations := (b1.keeps sameSetup_frame hsafe.keep).1.1.trans a7.gens
      have := (b5 (by omega)).1
      omega
    have hone : ∀ {j : Nat} {x : St ℚ}, After (ffgaOps fit .balanced .onePoint .binString tr) s0 j x → ¬ 2 ≤ j := by
      intro j x hj
      induction hj with
      | first _ _ => omega
      | @next j y x a b ih =>
        cases a with
        | @first _ _ a a' =>
          obtain ⟨_, _, _, _, _, _, _, hsel, _⟩ := multi_generation hsafe.run ((After.first a a').multi hsafe.run a7.fresh) b
          obtain ⟨c4, c5, _, _⟩ := a7.cells
          refine absurd hsel (balancedExec_alone (by rw [hsafe.attrs 1 y (.first a a')]; exact a7.arith.trans ha.exact) ((After.first a a').multi hsafe.run a7.fresh).alive ?_ ?_)
          · rw [(multi_first hsafe.run.uniform a7.fresh a a').2.1.length_eq, c4, h1]
          · rw [numPairs_children (by rw [hsafe.attrs 1 y (.first a a')]; exact c5)
              (((After.first a a').keeps sameSetup_frame hsafe.keep).1.2.1.trans a7.percent)
              (by rw [hsafe.attrs 1 y (.first a a')]; exact a7.arith)]
            rw [Cfg.children_exact ha.exact, h1, Nat.cast_one, mul_one]
            have : 1 ≤ ⌊c.childrenPercent⌋ := by rw [Int.le_floor]; exact_mod_cast hc
            omega
        | @next j _ _ a a' =>
          have := a.pos
          exact absurd (by omega : 2 ≤ j + 1) ih
    exact hone b4 hk2

/-! ## VEGA -/

theorem vegaTournamentExec_ext (m : Nat) (size : Int) : ExtOk (vegaTournamentExec m size) := by
  unfold vegaTournamentExec
  exact ExtOk.bind (Tame.checkTournament _).ext fun _ => ExtOk.bind Tame.baseSelection.ext fun _ =>
    ExtOk.forEach (fun _ => tournament_ext _ _) _

theorem vegaTournamentExec_poss {m : Nat} {size : Int} {s : St (List ℚ)} (h1 : 2 ≤ size) (h2 : size < s.ga.attrs.numIndivid)
    (hseed : s.seed = none) (hal : ∀ r ∈ s.ga.population, r < s.next) (hlen : size ≤ s.ga.population.length)
    (hk : ∀ r ∈ s.ga.population, ∃ l, (s.heap r).score = some l ∧ m ≤ l.length)
    (hsp : numPairs s.ga m = 0 ∨ Spread size s.ga.population) : Poss (vegaTournamentExec m size) s := by
  unfold vegaTournamentExec
  have hc : ∀ s : St (List ℚ), size < s.ga.attrs.numIndivid → checkTournament size s = (.ok (), s) := by
    intro s h2
    unfold checkTournament
    rw [bind_of_ok (getGa_run s), ite_run, if_neg (by omega)]
    rfl
  refine Poss.bind hseed (Tame.checkTournament size).ext (Poss.of_ok (hc s h2)) ?_
  intro u _ s1 e
  rw [hc (s.more u) h2] at e
  obtain ⟨_, rfl⟩ := Prod.mk.inj e
  obtain ⟨s2, e2⟩ := baseSelection_run (s.more u)
  refine Poss.bind hseed Tame.baseSelection.ext (Poss.of_ok e2) ?_
  intro w _ s3 e3
  obtain ⟨hr, _⟩ := baseSelection_relabelled e3
  have hp : s3.ga.population = s.ga.population := by rw [hr.ga]; rfl
  have hsc : ∀ r, (s3.heap r).score = (s.heap r).score := fun r => (hr.core r).score
  have hn : numPairs s3.ga m = numPairs s.ga m := by rw [hr.ga]; rfl
  have aux : ∀ (l : List Nat), (∀ i ∈ l, i < m) → ∀ x : St (List ℚ), x.seed = none → (∀ r ∈ x.ga.population, r < x.next) →
      x.ga.population = s.ga.population → numPairs x.ga m = numPairs s.ga m →
      (numPairs s.ga m = 0 ∨ ∀ i, i < m → TwoWinners (scoreAt i) size x) →
      Poss (forEach l fun i => tournament (scoreAt i) size m) x := by
    intro l
    induction l with
    | nil => intro _ x _ _ _ _ _; exact Poss.of_ok rfl
    | cons i is ih =>
      intro hl x x1 x2 x3 x4 x5
      rw [BaumEva.forEach]
      refine Poss.bind x1 (tournament_ext size m) ?_ ?_
      · rcases x5 with h | h
        · refine Poss.of_ok (a := ()) (s' := x) ?_
          unfold tournament
          rw [bind_of_ok (getGa_run x), x4, h]
          rfl
        · exact tournament_poss (by omega) x1 x2 (by rw [x3]; exact hlen) (h i (hl i (by simp)))
      · intro v _ y hy
        obtain ⟨ps, _, hcp, _⟩ := tournament_ok (s := x.more v) x2 hy
        have hp : y.ga.population = x.ga.population := by rw [hcp.ga]; rfl
        refine ih (fun j hj => hl j (List.mem_cons_of_mem _ hj)) y (hcp.seed.trans x1) ?_ (hp.trans x3) ?_ ?_
        · rw [hp, hcp.next]; intro r hr; have := x2 r hr; show r < x.next + _; omega
        · rw [← x4, hcp.ga]; rfl
        · exact x5.imp id fun h j hj => TwoWinners.copied (s := x.more v) x2 hcp (h j hj)
  refine aux _ (fun i hi => List.mem_range.mp hi) s3 (hr.seed.trans hseed) ?_ hp hn ?_
  · rw [hp, hr.next]; exact hal
  · refine hsp.imp id fun hsp i hi => ?_
    obtain ⟨a, ha, b, hb, hab, hca, hcb⟩ := spread_winners (size := size) (by omega) hsp
      (fun r => (((s.heap r).score.getD [])[i]?).getD 0)
    refine ⟨fun r => (((s.heap r).score.getD [])[i]?).getD 0, a, b, ?_, ?_, ?_, ?_, ?_, baseSelection_idx e3 ha hb hab⟩
    · rw [hp]; intro r h
      obtain ⟨l, e, hl⟩ := hk r h
      unfold scoreAt
      rw [hsc, e]
      simp only [e, Option.getD_some]
      rw [List.getElem?_eq_getElem (by omega)]
      rfl
    · rw [hp]; exact ha
    · rw [hp]; exact hca
    · rw [hp]; exact hb
    · rw [hp]; exact hcb

theorem nodup_spread {pop : List Nat} (h : pop.Nodup) {size : Int} (hs : size + 1 ≤ pop.length) : Spread size pop := by
  intro r
  have h2 : pop.count r ≤ 1 := List.nodup_iff_count_le_one.mp h r
  have h1 : pop.length ≤ pop.countP (fun p => decide (p ≠ r)) + pop.count r := by
    rw [List.count, List.length_eq_countP_add_countP (fun p => decide (p ≠ r))]
    have : (pop.countP fun a => decide ¬ (decide (a ≠ r)) = true) = pop.countP fun p => p == r := by
      congr 1; funext a; by_cases h : a = r <;> simp [h]
    omega
  omega

theorem vegaNumObjectives_tame (c : Cfg) (n : Nat) : Tame (vegaNumObjectives c n) := by
  have key : ∀ s : St (List ℚ), vegaNumObjectives c n s = (match s.conds with
      | some l => (.ok (l.count .optimize), s)
      | none => (match c.obj1 (List.replicate n (.num 0)) with
        | .ok (.tup l) => .ok l.length
        | .ok (.sc _) => .error .typeError
        | .error e => .error e, { s with calls := s.calls ++ [List.replicate n (.num 0)] })) := by
    intro s
    unfold vegaNumObjectives
    rw [bind_of_ok (getS_run s)]
    cases hco : s.conds with
    | some l => rfl
    | none =>
      simp only
      unfold callObj
      rw [bind_assoc_at, bind_of_ok (modifyS_run _ _)]
      cases hf : c.obj1 (List.replicate n (.num 0)) with
      | error e => rw [← hco]; rfl
      | ok v => cases v <;> (rw [← hco]; rfl)
  refine Tame.blind (fun s t => ?_) fun s => ?_
  · rw [key, key]
    cases hco : s.conds <;> simp only [hco]
  · rw [key]
    cases hco : s.conds <;> simp only

/-- No member dominates a population of a run whose generations have at least three children. -/
theorem vega_spread {c : Cfg} {gray : Bool} {gens : List BinGene} {ov : Option (List ℚ)} {fit : Fit (List ℚ)} {tr : Transfer}
    {sa sb s0 : St (List ℚ)} {m n : Nat} (ha : VegaAdmissible gray gens c ov sa.conds m n)
    (hch : 3 ≤ c.vegaChildren m ∨ c.vegaChildren m = 0)
    (hfit : newFitness (vegaTask c.obj1 c.obj2 c.inputTruthy c.penalty ov c.arith) sa = (.ok fit, sb))
    (htr : checkTransfer c.transfer = .ok tr) (hlvl : ∃ l, checkMutation .binString c.mutationLvl = .ok l ∧ s0.mutLvl = l.stored c.arith)
    (a5 : Started (.binary gray gens) c.numIndivid c.numGenerations c.input c.childrenPercent (some c.stop) c.arith s0)
    {k : Nat} {x : St (List ℚ)} (hk : After (vegaOps fit m (.tournament 3) .onePoint .binString tr) s0 k x) :
    numPairs x.ga m = 0 ∨ Spread 3 x.ga.population := by
  obtain ⟨hsafe, hsize⟩ := vega_multiSafe ha hfit htr hlvl a5
  obtain ⟨b4, b5, _, _⟩ := a5.cells
  have h4 := ha.size
  have hpct : s0.ga.childrenPercent = c.childrenPercent := a5.percent
  have hnp : ∀ {k : Nat} {x : St (List ℚ)}, After (vegaOps fit m (.tournament 3) .onePoint .binString tr) s0 k x →
      m * numPairs x.ga m = c.vegaChildren m := by
    intro k x hk
    unfold Cfg.vegaChildren
    rw [numPairs_share, hsafe.attrs k x hk, (hk.keeps sameSetup_frame hsafe.keep).1.2.1, hpct, b5]
    exact congrArg (m * Arith.share · _ _ _) a5.arith
  by_cases hm : m = 0
  · subst hm
    left
    rw [numPairs_share, hsafe.attrs k x hk, a5.arith]
    simp [Arith.share, ha.task.arith.rounding.zero]
  rcases hch with hch | hch
  · right
    cases hk with
    | @first s1 _ a b =>
      have hperm := (multi_first hsafe.run.uniform a5.fresh a b).2.1
      refine nodup_spread (hperm.nodup_iff.mpr a5.fresh.distinct) ?_
      rw [hperm.length_eq, b4]; omega
    | @next k y _ a b =>
      have hy := a.multi hsafe.run a5.fresh
      obtain ⟨_, a0, s1, s2, s3, es, t, hsel, _, _, hpar, hB, hready, hng, hes, e2, _, _, _, _, _, hperm, _⟩ :=
        multi_generation hsafe.run hy b
      obtain ⟨pop, es2, t', k1, _, _, k4, k5, _⟩ := newGenExec_ok (show newGenExec tr s1 = (.ok (), s2) from hng)
      have hes2 : es = es2 := by
        have h5 : s2.ga.population = s1.ga.children ++ es2 := by rw [k5]
        rw [e2] at h5
        exact List.append_cancel_left h5
      obtain ⟨n3, hn3, hrange, _⟩ := hB.range
      have hp1 : s1.ga.population = y.ga.population := by rw [hB.ga]
      have hsp : Spread 3 (s1.ga.children ++ es) := by
        refine spread_children ?_ ?_ ?_ ?_
        · rw [hrange]; exact List.nodup_range'
        · intro r hr hre
          rw [hrange, List.mem_range'_1] at hr
          have := hy.alive r (hes r hre)
          omega
        · intro e
          have := k4.last
          rw [← hes2, e] at this
          have := List.getLast?_eq_none_iff.mp this.symm
          rw [this] at k1
          have := k1.length_eq
          rw [hp1] at this
          have := (hsize _ _ a).1
          simp at *
          omega
        · have q1 := hB.size
          have q2 := (C60_tournament_blocks hy.alive hsel).1
          rw [hpar, q2] at q1
          have q3 := hnp a
          rw [numPairs_share] at q3
          have : s1.ga.children.length = c.vegaChildren m := by
            rw [← q3]
            have : m * (2 * y.ga.attrs.arith.share y.ga.childrenPercent y.ga.attrs.numIndivid m) =
              2 * (m * y.ga.attrs.arith.share y.ga.childrenPercent y.ga.attrs.numIndivid m) := by ring
            omega
          omega
      intro r
      rw [hperm.countP_eq]
      exact hsp r
  · left
    have := hnp hk
    rw [hch] at this
    exact (Nat.mul_eq_zero.mp this).resolve_left hm

/-- C90: an admissible run whose generations have at least three children (or none) can always be completed. -/
theorem C90_vega_completable_partial {c : Cfg} {gray : Bool} {gens : List BinGene} {ov : Option (List ℚ)} {s : St (List ℚ)} {m n : Nat}
    (ha : VegaAdmissible gray gens c ov s.conds m n) (hseed : s.seed = none)
    (hch : 3 ≤ c.vegaChildren m ∨ c.vegaChildren m = 0) :
    ∃ (u : List Nat) (s' : St (List ℚ)), vega c gray gens ov { s with tape := s.tape ++ u } = (.ok (), s') := by
  suffices h : Poss (vega c gray gens ov) s by
    obtain ⟨u, _, s', h⟩ := h
    exact ⟨u, s', h⟩
  have hsafe : ∀ u, Safe (vega c gray gens ov) (s.more u) := fun u e s' h => C87_vega_no_exception (s := s.more u) ha h
  unfold vega at hsafe ⊢
  obtain ⟨s1, e1, c1, n1⟩ := ha.count
  refine Poss.bind hseed (vegaNumObjectives_tame c gens.length).ext (Poss.of_ok e1) ?_
  intro v m' s2 e2
  obtain ⟨s2', e2', c2, n2⟩ := VegaAdmissible.count (s := s.more v) ha
  rw [e2'] at e2
  obtain ⟨e3, rfl⟩ := Prod.mk.inj e2
  injection e3 with e3
  subst e3
  have n2 : s2'.seed = none := n2.trans hseed
  refine facade_poss n2 ?_ ?_
  · intro u e s' h
    obtain ⟨k1, _⟩ := (vegaNumObjectives_tame c gens.length).ext (s.more v) s2' m u hseed e2'
    refine hsafe (v ++ u) e s' ?_
    rw [← St.more_more, bind_of_ok k1]
    exact h
  rintro ⟨fit, tr⟩ s0 n0 hst
  refine ⟨BitsOf s0.ga.attrs, ⟨?_, n0, Tame.newGenExec tr, vegaTournamentExec_ext m 3, ?_⟩⟩
  · intro u
    obtain ⟨sa, sb, a1, a2, a3, a4, a5⟩ := hst u
    exact (vega_multiSafe (s0 := s0.more u) (by rw [a2, c2]; exact ha) a1 a3 a4 a5).1
  · intro u k x hk hx
    obtain ⟨sa, sb, a1, a2, a3, a4, a5⟩ := hst u
    obtain ⟨hsafe, hsize⟩ := vega_multiSafe (s0 := s0.more u) (by rw [a2, c2]; exact ha) a1 a3 a4 a5
    have hI := hk.multi hsafe.run a5.fresh
    obtain ⟨b4, b5, _, _⟩ := a5.cells
    have h4 := ha.size
    obtain ⟨z1, z2, _⟩ := hsize k x hk
    exact vegaTournamentExec_poss (by norm_num) (by rw [hsafe.attrs k x hk, b5]; omega) hx hI.alive (by omega) z2
      (vega_spread (s0 := s0.more u) (by rw [a2, c2]; exact ha) hch a1 a3 a4 a5 hk)

/-- The hypotheses can be met. -/
example (t : List Nat) : ∃ (u : List Nat) (s' : St (List ℚ)),
    vega exPairCfg true [⟨0, 3, 1⟩, ⟨-1, 1, 1 / 2⟩] (some [0, 0]) { tape := t ++ u } = (.ok (), s') :=
  C90_vega_completable_partial (s := { tape := t }) exPair_vega rfl (.inl (by decide +kernel))

/-- If only one member can win a tournament of the first objective, the selection never ends. -/
theorem vegaTournamentExec_stuck {m : Nat} {size : Int} {s : St (List ℚ)} {v : Nat → ℚ} {w : Nat} (hm : 1 ≤ m)
    (hal : ∀ r ∈ s.ga.population, r < s.next) (hsc : ∀ r ∈ s.ga.population, scoreAt 0 (s.heap r) = .ok (v r))
    (hall : ∀ a ∈ s.ga.population, (size ≤ s.ga.population.countP fun p => v p ≤ v a) → a = w)
    (hp : 1 ≤ numPairs s.ga m) (s' : St (List ℚ)) : vegaTournamentExec m size s ≠ (.ok (), s') := by
  intro h
  unfold vegaTournamentExec at h
  obtain ⟨_, s1, h1, h2⟩ := bind_ok.mp h
  have e1 : s1 = s := by
    unfold checkTournament at h1
    rw [bind_of_ok (getGa_run s), ite_run] at h1
    split at h1
    · rw [throwE_ok] at h1; exact h1.elim
    · exact (pure_ok.mp h1).2
  subst e1
  obtain ⟨_, s2, h3, h4⟩ := bind_ok.mp h2
  obtain ⟨hr, _⟩ := baseSelection_relabelled h3
  have hpop : s2.ga.population = s1.ga.population := by rw [hr.ga]
  have hnp : numPairs s2.ga m = numPairs s1.ga m := by rw [hr.ga]; rfl
  obtain ⟨m', rfl⟩ : ∃ m', m = m' + 1 := ⟨m - 1, by omega⟩
  rw [List.range_succ_eq_map, BaumEva.forEach] at h4
  obtain ⟨_, s3, h5, _⟩ := bind_ok.mp h4
  obtain ⟨ps, hl, _, hps⟩ := tournament_ok (by rw [hpop, hr.next]; exact hal) h5
  obtain ⟨p, hpm⟩ : ∃ p, p ∈ ps := List.exists_mem_of_length_pos (by omega)
  obtain ⟨p1, p2, w1, w2, hne⟩ := hps p hpm
  have hv : ∀ r ∈ s2.ga.population, scoreAt 0 (s2.heap r) = .ok (v r) := by
    rw [hpop]
    intro r hr'
    have := hsc r hr'
    unfold scoreAt at this ⊢
    rw [(hr.core r).score]
    exact this
  obtain ⟨_, c1⟩ := w1.count hv
  obtain ⟨_, c2⟩ := w2.count hv
  rw [hpop] at p1 p2 c1 c2
  apply hne
  rw [hall _ p1 c1, hall _ p2 c2]

/-- Four individuals, one child per generation and objective. -/
def exStuckCfg : Cfg :=
  { numGenerations := 4, numIndivid := 4, obj1 := fun x => .ok (.tup [sumNums x, sumNums x]), childrenPercent := 1 / 2,
    mutationLvl := .str "strong",
    input := some [[.num 0, .num 0], [.num 0, .num 0], [.num 0, .num 0], [.num 3, .num 3]] }

@[inherit_doc exStuckCfg]
def exStuckGenes : List BinGene := [⟨0, 3, 1⟩, ⟨0, 3, 1⟩]

/-- The draws of the first two generations after the initial one. -/
def exStuckTape : List Nat :=
  [17, 53, 35, 0, 58, 33, 34, 15, 36, 48, 0, 54, 56, 10, 25, 32, 35, 38, 3, 15, 21, 41, 57, 14, 55, 34, 40, 52, 46, 32, 57, 46, 17, 12, 8,
    28, 49, 39, 53, 0, 59, 6, 49, 52, 4, 31, 9, 12, 23, 54]

/-- The state after counting the objectives. -/
def exStuckStart : St (List ℚ) := { tape := exStuckTape, calls := [[.num 0, .num 0]] }

/-- The start of the run and its state after the initial generation and `n` further ones. -/
def exStuck (n : Nat) : Except PyErr (Fit (List ℚ) × Transfer) × St (List ℚ) :=
  (startUp exStuckCfg (.binary false exStuckGenes)
    (vegaTask exStuckCfg.obj1 exStuckCfg.obj2 exStuckCfg.inputTruthy exStuckCfg.penalty none exStuckCfg.arith) .binString >>= fun p => match n with
      | 0 => pure p
      | n + 1 => do
        (vegaOps p.1 2 (.tournament 3) .onePoint .binString p.2).fitness
        (vegaOps p.1 2 (.tournament 3) .onePoint .binString p.2).update
        forEach (List.range n) fun _ => generation (vegaOps p.1 2 (.tournament 3) .onePoint .binString p.2)
        pure p) exStuckStart

theorem exStuck_ok : ∃ p s0 s1 s2 s3, startUp exStuckCfg (.binary false exStuckGenes) (vegaTask exStuckCfg.obj1 exStuckCfg.obj2
      exStuckCfg.inputTruthy exStuckCfg.penalty none exStuckCfg.arith) .binString exStuckStart = (.ok p, s0) ∧
    After (vegaOps p.1 2 (.tournament 3) .onePoint .binString p.2) s0 1 s1 ∧
    After (vegaOps p.1 2 (.tournament 3) .onePoint .binString p.2) s0 2 s2 ∧
    After (vegaOps p.1 2 (.tournament 3) .onePoint .binString p.2) s0 3 s3 ∧
    (exStuck 1).2 = s1 ∧ (exStuck 2).2 = s2 ∧ (exStuck 3).2 = s3 := by
  have hs : succeeded (exStuck 3) = true := by
    set_option maxRecDepth 100000 in decide +kernel
  rcases hx : exStuck 3 with ⟨o, s3⟩
  rw [hx] at hs
  cases o with
  | error e => cases hs
  | ok q =>
    have hx' := hx
    unfold exStuck at hx
    obtain ⟨p, s0, h0, h⟩ := bind_ok.mp hx
    simp only at h
    obtain ⟨_, sa, h1, h⟩ := bind_ok.mp h
    obtain ⟨_, s1, h2, h⟩ := bind_ok.mp h
    obtain ⟨_, sb, h3, h⟩ := bind_ok.mp h
    obtain ⟨_, rfl⟩ := pure_ok.mp h
    rw [show List.range 2 = [0, 1] from rfl, BaumEva.forEach] at h3
    obtain ⟨_, s2, h4, h5⟩ := bind_ok.mp h3
    rw [BaumEva.forEach] at h5
    obtain ⟨_, s3', h6, h7⟩ := bind_ok.mp h5
    rw [BaumEva.forEach] at h7
    obtain ⟨_, rfl⟩ := pure_ok.mp h7
    refine ⟨p, s0, s1, s2, _, h0, .first h1 h2, .next (.first h1 h2) h4, .next (.next (.first h1 h2) h4) h6, ?_, ?_, rfl⟩
    · unfold exStuck
      rw [bind_of_ok h0]
      simp only
      rw [bind_of_ok h1, bind_of_ok h2]
      rfl
    · unfold exStuck
      rw [bind_of_ok h0]
      simp only
      rw [bind_of_ok h1, bind_of_ok h2, show List.range 1 = [0] from rfl, BaumEva.forEach, bind_assoc_at, bind_of_ok h4]
      rfl

set_option maxRecDepth 100000 in
/-- What happened so far: nothing stops the loop, and three of five places hold object 2, which wins every tournament
of three. -/
theorem exStuck_facts : (exStuck 1).2.ga.numGenerations = 4 ∧
    ¬ (exStuck 2).2.ga.earlyStop.getD 0 < (exStuck 2).2.ga.noImprove ∧
    ¬ (exStuck 3).2.ga.earlyStop.getD 0 < (exStuck 3).2.ga.noImprove ∧
    (∀ r ∈ (exStuck 3).2.ga.population, r < (exStuck 3).2.next ∧
      (scoreAt 0 ((exStuck 3).2.heap r)).toOption.isSome = true) ∧
    (∀ a ∈ (exStuck 3).2.ga.population, (3 ≤ ((exStuck 3).2.ga.population.countP fun p =>
      ((scoreAt 0 ((exStuck 3).2.heap p)).toOption).getD 0 ≤ ((scoreAt 0 ((exStuck 3).2.heap a)).toOption).getD 0)) → a = 2) ∧
    numPairs (exStuck 3).2.ga 2 = 1 := by decide +kernel

theorem exStuck_admissible : VegaAdmissible false exStuckGenes exStuckCfg none none 2 2 where
  task := {
    genes := by
      refine ⟨?_, ?_, .inl (by simp [exStuckGenes])⟩
      · intro g hg
        simp only [exStuckGenes, List.mem_cons, List.not_mem_nil, or_false] at hg
        rcases hg with rfl | rfl <;> norm_num
      · intro g hg
        unfold Degenerate
        simp only [exStuckGenes, List.mem_cons, List.not_mem_nil, or_false] at hg
        rcases hg with rfl | rfl <;> norm_num [abs_of_pos]
    input := by
      have h : ∀ q : ℚ, 0 ≤ q → q ≤ 3 → (SingleFacade.binary false exStuckGenes).Space [.num q, .num q] :=
        fun q h0 h3 => .cons ⟨q, rfl, h0, h3⟩ (.cons ⟨q, rfl, h0, h3⟩ .nil)
      intro x hx
      simp only [exStuckCfg, Option.getD_some, List.mem_cons, List.not_mem_nil, or_false] at hx
      rcases hx with rfl | rfl | rfl | rfl <;> exact h _ (by norm_num) (by norm_num)
    room := by simp [exStuckCfg]
    level := .inr ⟨by simp, by simp [exStuckCfg]⟩
    plain := rfl
    arith := .inl rfl
    uniform := by
      intro x y p q hx hy
      simp only [exStuckCfg, Except.ok.injEq, Ret.tup.injEq] at hx hy
      subst hx hy
      rfl
    objective := .inl ⟨.inl rfl, fun x _ => ⟨_, rfl, rfl⟩⟩ }
  counts := ⟨_, rfl, rfl⟩
  enough := le_rfl
  target := by intro ts h; cases h
  size := by simp [exStuckCfg]
  transfer := .inl rfl

/-- C90 fails without the hypothesis on the number of children: an admissible call with one child per objective, and draws
after which no further draws whatsoever let `optimize()` return. -/
theorem C90_vega_hang_refuted : ∃ (gray : Bool) (gens : List BinGene) (c : Cfg) (s : St (List ℚ)) (m n : Nat),
    VegaAdmissible gray gens c none s.conds m n ∧ s.seed = none ∧ c.vegaChildren m = 2 ∧
    ∀ u : List Nat, (vega c gray gens none { s with tape := s.tape ++ u }).1 = .error .exhausted := by
  refine ⟨false, exStuckGenes, exStuckCfg, { tape := exStuckTape }, 2, 2, exStuck_admissible, rfl, by decide +kernel, fun u => ?_⟩
  rcases hx : vega exStuckCfg false exStuckGenes none (({ tape := exStuckTape } : St (List ℚ)).more u) with ⟨o, s'⟩
  cases o with
  | error e =>
    have := (C87_vega_no_exception (s := ({ tape := exStuckTape } : St (List ℚ)).more u) exStuck_admissible hx).1
    show (vega exStuckCfg false exStuckGenes none (({ tape := exStuckTape } : St (List ℚ)).more u)).1 = _
    rw [hx, this]
  | ok _ =>
    exfalso
    obtain ⟨p, s0, s1, s2, s3, h0, a1, a2, a3, e1, e2, e3⟩ := exStuck_ok
    unfold vega at hx
    have hm : vegaNumObjectives exStuckCfg exStuckGenes.length (({ tape := exStuckTape } : St (List ℚ)).more u) =
      (.ok 2, exStuckStart.more u) := rfl
    rw [bind_of_ok hm, facade_eq] at hx
    obtain ⟨h0', n0⟩ := (startUp_tame _ _ _ _).ext _ _ _ u rfl h0
    rw [bind_of_ok h0'] at hx
    obtain ⟨_, se, hx, _⟩ := bind_ok.mp hx
    have hrun : MultiRun (vegaOps p.1 2 (.tournament 3) .onePoint .binString p.2) p.1 .onePoint .binString := by
      obtain ⟨sa, sb, k1, _⟩ := startUp_ok h0
      refine vegaTour_run ?_ 2 3 .onePoint .binString p.2
      rw [(newFitness_ok k1).1]
      exact exStuck_admissible.task.uniform
    obtain ⟨t1, k, b1, b2, b3, b4, b5, _⟩ := evolve_after hx
    have m1 := (hrun.after_more (Tame.newGenExec p.2) (vegaTournamentExec_ext 2 3) n0 a1 u).1
    have m2 := (hrun.after_more (Tame.newGenExec p.2) (vegaTournamentExec_ext 2 3) n0 a2 u).1
    have m3 := (hrun.after_more (Tame.newGenExec p.2) (vegaTournamentExec_ext 2 3) n0 a3 u).1
    cases m1.unique b1
    obtain ⟨g1, g2, g3, hs, hw, hn⟩ := exStuck_facts
    rw [e1] at g1
    rw [e2] at g2
    rw [e3] at g3 hs hw hn
    clear e1 e2 e3 h0'
    rw [show (s1.more u).ga.numGenerations = 4 from g1] at b3 b5
    have hk : k = 4 := by
      by_contra hne
      obtain ⟨c1, e, c2, c3⟩ := b5 (by omega)
      rcases (by omega : k = 2 ∨ k = 3) with rfl | rfl
      · cases m2.unique b4
        rw [show s2.ga.earlyStop = some e from c2] at g2
        exact g2 c3
      · cases m3.unique b4
        rw [show s3.ga.earlyStop = some e from c2] at g3
        exact g3 c3
    subst hk
    cases b4 with
    | next d1 d2 =>
      cases m3.unique d1
      obtain ⟨_, sf, d3, _⟩ := bind_ok.mp d2
      refine vegaTournamentExec_stuck (s := s3.more u) (v := fun r => ((scoreAt 0 (s3.heap r)).toOption).getD 0) (w := 2) (by norm_num)
        (fun r h => (hs r h).1) (fun r h => ?_) (fun a h c => hw a h (Int.ofNat_le.mp c)) (le_of_eq hn.symm) sf d3
      have := (hs r h).2
      show scoreAt 0 (s3.heap r) = _
      cases hq : scoreAt 0 (s3.heap r) with
      | error e => rw [hq] at this; cases this
      | ok q => rfl

end BaumEva
