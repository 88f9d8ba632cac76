import Verif.Proofs.SureMulti
import Verif.Props.MultiLiveness
import Verif.Props.AlmostSure
/-!
# C113: multi-objective runs return with probability one
-/
namespace BaumEva
open Spec
variable {σ : Type}

/-- A facade whose generations succeed with probability one returns with probability one. -/
theorem facade_sure [DecidableEq σ] {B : Nat} (hB : 0 < B) {c : Cfg} {spec : PopSpec} {task : Task σ} {fitExec : Fit σ → M σ Unit}
    {update selection : M σ Unit} {cross : CrossOp} {mutOp : MutOp} {newGen : Transfer → M σ Unit} {s : St σ} (hseed : s.seed = none)
    (hsafe : ∀ u, Safe (facade c spec task fitExec update selection cross mutOp newGen) (s.more u))
    (hsure : ∀ (p : Fit σ × Transfer) (s0 : St σ), s0.seed = none →
      (∀ w, ∃ sa sb, newFitness task sa = (.ok p.1, sb) ∧ sa.conds = s.conds ∧ checkTransfer c.transfer = .ok p.2 ∧
        (∃ l, checkMutation mutOp c.mutationLvl = .ok l ∧ (s0.more w).mutLvl = l.stored c.arith) ∧
        Started spec c.numIndivid c.numGenerations c.input c.childrenPercent (some c.stop) c.arith (s0.more w)) →
      ∃ P, MultiSure B { fitness := fitExec p.1, update := update, selection := selection, crossover := crossExec cross,
                         mutation := mutExec mutOp, newGen := newGen p.2 } p.1 cross mutOp P s0) :
    Sure B (facade c spec task fitExec update selection cross mutOp newGen) s := by
  rw [facade_eq] at hsafe ⊢
  have htame := startUp_tame c spec task mutOp
  refine Sure.bind hB hseed htame.ext ?_ ?_
  · refine Sure.of_tame hseed htame fun u e s' h => hsafe u e s' (bind_of_err h)
  intro u p s0 e1
  obtain ⟨_, n0⟩ := htame.ext (s.more u) s0 p [] hseed e1
  obtain ⟨P, hs⟩ := hsure p s0 n0 (by
    intro w
    obtain ⟨e2, _⟩ := htame.ext (s.more u) s0 p w hseed e1
    obtain ⟨sa, sb, a1, a2, _, a4, _, a6, a7⟩ := startUp_ok e2
    exact ⟨sa, sb, a1, a2, a4, a6, a7⟩)
  have hl := hs.live hB
  refine Sure.bind hB n0 hl.evolve_ext (hs.evolve hB) ?_
  intro w _ s1 e2
  obtain ⟨_, n1⟩ := hl.evolve_ext (s0.more w) s1 () [] n0 e2
  obtain ⟨_, k, _, _, _, hk, _⟩ := evolve_after e2
  split
  · refine Sure.of_tame n1 Tame.printBest fun v => ?_
    have := ((hl.more w).after_more hk v).1
    exact ((hl.more w).safe v).print this
  · exact Sure.of_ok n1 (Tame.pure ()).ext rfl

/-! ## FFGA -/

theorem FfgaWeights.balance {tr : Transfer} {B : Nat} {s : St ℚ} (h : FfgaWeights tr B s) (h2 : 2 ≤ s.ga.population.length)
    (hB : tr = .random → B ≤ 2 ^ 53) : Balance scoreKey s := by
  have hN : (2 : ℚ) ≤ s.ga.population.length := by exact_mod_cast h2
  have key : ∀ r q, (s.heap r).score = some q → scoreKey (s.heap r) = .ok q := by
    intro r q e
    unfold scoreKey
    rw [e]
  cases tr with
  | best =>
    refine Balance.of_range h2 (lo := 1 / (2 + (s.ga.population.length : ℚ))) (hi := 1 / 2) (by positivity) ?_ ?_
    · intro r hr
      obtain ⟨q, q1, _, q3, q4, _⟩ := h r hr
      exact ⟨q, key r q q1, (q4 rfl).1, q3⟩
    · rw [← mul_div_assoc, mul_one, ← mul_div_assoc, le_div_iff₀ (by linarith)]
      norm_num
      linarith
  | random =>
    refine Balance.of_range h2 (lo := 1 / (2 + (B : ℚ))) (hi := 1 / 2) (by positivity) ?_ ?_
    · intro r hr
      obtain ⟨q, q1, _, q3, _, q5⟩ := h r hr
      exact ⟨q, key r q q1, q5 rfl, q3⟩
    · have : (B : ℚ) ≤ 2 ^ 53 := by exact_mod_cast hB rfl
      rw [← mul_div_assoc, mul_one, ← mul_div_assoc, le_div_iff₀ (by positivity)]
      have h53 : (2 : ℚ) ^ 53 = 9007199254740992 := by norm_num
      rw [h53] at this ⊢
      linarith

theorem ffga_sure {c : Cfg} {gray : Bool} {gens : List BinGene} {s : St ℚ} (ha : FfgaAdmissible gray gens c s.conds)
    (hseed : s.seed = none) (htwo : 2 ≤ c.numIndivid ∨ c.childrenPercent * c.numIndivid < 1)
    (hbig : c.transfer = "random" → c.numIndivid ≤ 2 ^ 53 ∧ c.childrenPercent * c.numIndivid + 11 ≤ 2 ^ 53) {B : Nat} (hB : 2 ^ 53 ≤ B) :
    Sure B (ffga c gray gens) s := by
  have hB0 : 0 < B := by omega
  obtain ⟨n, ht⟩ := ha.task
  refine facade_sure hB0 hseed (fun u e s' h => C87_ffga_no_exception (s := s.more u) ha h) ?_
  rintro ⟨fit, tr⟩ s0 n0 hst
  have hfit0 : ∃ sa sb, newFitness (ffgaTask c.obj1 c.obj2 c.inputTruthy c.penalty c.arith) sa = (.ok fit, sb) := by
    obtain ⟨sa, sb, a1, _⟩ := hst []
    exact ⟨sa, sb, a1⟩
  obtain ⟨sa, sb, hfit0⟩ := hfit0
  have htask : fit.task = ffgaTask c.obj1 c.obj2 c.inputTruthy c.penalty c.arith := (newFitness_ok hfit0).1
  have hv : UniformVecs fit.task.obj1 := by rw [htask]; exact ht.uniform
  refine ⟨BitsOf s0.ga.attrs, ⟨?_, n0, Tame.multiNewGen tr, balanced_ext scoreKey 1, ?_⟩⟩
  · intro u
    obtain ⟨sa, sb, a1, a2, a3, a4, a5⟩ := hst u
    exact (ffga_multiSafe (s0 := s0.more u) (by rw [a2]; exact ha.toFfgaCall) a1 a3 a4 a5 (ffga_wheel_exact ha)).1
  · intro u k x hk hx
    obtain ⟨sa, sb, a1, a2, a3, a4, a5⟩ := hst u
    obtain ⟨hsafe, hsize⟩ := ffga_multiSafe (s0 := s0.more u) (by rw [a2]; exact ha.toFfgaCall) a1 a3 a4 a5 (ffga_wheel_exact ha)
    have hops := ffgaOps_run hv .balanced .onePoint .binString tr
    have hI := hk.multi hops a5.fresh
    obtain ⟨b4, b5, _, _⟩ := a5.cells
    have hpct : (s0.more u).ga.childrenPercent = c.childrenPercent := a5.percent
    set N := max c.numIndivid (c.children + 11) with hNdef
    have hW : FfgaWeights tr N x := by
      refine ffga_weights (sel := .balanced) (op := .onePoint) (mop := .binString) (by simp) hv (by rw [htask]; exact congrArg ffgaScore ha.exact) a5.fresh ?_ ?_ hk
      · rw [b4]; exact le_max_left _ _
      · rw [hpct, b5, a5.arith]; exact le_max_right _ _
    have hnp : numPairs x.ga 1 = c.children :=
      numPairs_children (by rw [hsafe.attrs k x hk]; exact b5) ((hk.keeps sameSetup_frame hsafe.keep).1.2.1.trans hpct)
        (by rw [hsafe.attrs k x hk]; exact a5.arith)
    have hxa : x.ga.attrs.arith = .exact := by rw [hsafe.attrs k x hk]; exact a5.arith.trans ha.exact
    have hcore : ∀ a b : Ind ℚ, SameCore a b → scoreKey b = scoreKey a := by
      intro a b h; unfold scoreKey; rw [h.score]
    by_cases hc : c.children = 0
    · refine balanced_sure_none (w := scoreKey) hB0 hcore hxa hx hI.alive (hsize k x hk).1 ?_ (hnp.trans hc)
      intro r hr
      obtain ⟨q, q1, q2, _⟩ := hW r hr
      exact ⟨q, by unfold scoreKey; rw [q1], q2⟩
    · refine balanced_sure (w := scoreKey) hB hcore hxa hx hI.alive (hW.balance ?_ ?_)
      · have hpos : 1 ≤ c.childrenPercent * c.numIndivid := by
          by_contra hlt
          push Not at hlt
          apply hc
          rw [Cfg.children_exact ha.exact]
          have : ⌊c.childrenPercent * c.numIndivid⌋ < 1 := Int.floor_lt.mpr (by exact_mod_cast hlt)
          omega
        have hnum : 2 ≤ c.numIndivid := by
          rcases htwo with h | h
          · exact h
          · linarith
        cases hk with
        | @first s1 _ a b =>
          rw [(multi_first hv a5.fresh a b).2.1.length_eq, b4]; exact hnum
        | @next k y _ a b =>
          obtain ⟨es, k1, k2, k3, k4⟩ := ffga_sizes (fit := fit) (sel := .balanced) (op := .onePoint) (mop := .binString) (tr := tr) hv a5.fresh a b
          rw [k2, hpct, b5, a5.arith]
          have : 1 ≤ es.length := by
            cases tr with
            | best =>
              rw [k3 rfl (by simp)]
              exact List.length_pos_iff.mpr ((a.multi hops a5.fresh).front_nonempty (hsize _ _ a).1)
            | random => rw [(k4 rfl).1]; omega
          have : c.arith.share c.childrenPercent c.numIndivid 1 = c.children := rfl
          omega
      · intro htr
        have htrn : c.transfer = "random" := by
          rcases ha.transfer with h | h
          · rw [h] at a3
            have e : checkTransfer "best" = .ok tr := a3
            rw [htr] at e
            simp [checkTransfer] at e
          · exact h.1
        obtain ⟨h1, h2⟩ := hbig htrn
        refine max_le h1 ?_
        have h3 : (c.children : ℤ) + 11 ≤ 2 ^ 53 := by
          rw [Cfg.children_exact ha.exact]
          have : ⌊c.childrenPercent * c.numIndivid⌋ ≤ 2 ^ 53 - 11 := by
            have := Int.floor_le (c.childrenPercent * (c.numIndivid : ℚ))
            have h4 : ((⌊c.childrenPercent * c.numIndivid⌋ : ℤ) : ℚ) ≤ ((2 ^ 53 - 11 : ℤ) : ℚ) := by push_cast; linarith
            exact_mod_cast h4
          omega
        exact_mod_cast h3

/-- C113, FFGA: an admissible run with at least two individuals returns with probability one.  The draws are independent and each takes the
values below `B` with equal chances; the chance that `optimize()` has not returned after `L` draws tends to zero. -/
theorem C113_ffga_returns {c : Cfg} {gray : Bool} {gens : List BinGene} {s : St ℚ} (ha : FfgaAdmissible gray gens c s.conds)
    (hseed : s.seed = none) (htwo : 2 ≤ c.numIndivid ∨ c.childrenPercent * c.numIndivid < 1)
    (hbig : c.transfer = "random" → c.numIndivid ≤ 2 ^ 53 ∧ c.childrenPercent * c.numIndivid + 11 ≤ 2 ^ 53) {B : Nat} (hB : 2 ^ 53 ≤ B)
    {ε : ℚ} (hε : 0 < ε) :
    ∃ N, ∀ L, N ≤ L → 1 - ε ≤ chance B L (fun t => ∃ s', ffga c gray gens { s with tape := t } = (.ok (), s')) := by
  obtain ⟨N, hN⟩ := ffga_sure (s := { s with tape := [] }) ha hseed htwo hbig hB ε hε
  refine ⟨N, fun L hL => ?_⟩
  have h1 := chance_compl (L := L) (p := fun t => ∃ s', ffga c gray gens { s with tape := t } = (.ok (), s')) (show 0 < B by omega)
  have h2 : chance B L (fun t => ¬ ∃ s', ffga c gray gens { s with tape := t } = (.ok (), s')) ≤ ε := by
    refine le_trans (chance_mono ?_) (hN L hL)
    rintro t hno ⟨a, s', h⟩
    exact hno ⟨s', h⟩
  linarith

/-- The hypotheses can be met. -/
example {ε : ℚ} (hε : 0 < ε) : ∃ N, ∀ L, N ≤ L → 1 - ε ≤
    chance (2 ^ 53) L (fun t => ∃ s', ffga exPairCfg true [⟨0, 3, 1⟩, ⟨-1, 1, 1 / 2⟩] { tape := t } = (.ok (), s')) :=
  C113_ffga_returns (s := { tape := [] }) exPair_ffga rfl (.inl (by simp [exPairCfg])) (fun _ => by norm_num [exPairCfg]) le_rfl hε

/-! ## VEGA -/

theorem vegaTournamentExec_sure {B : Nat} (hB : 0 < B) {m : Nat} {size : Int} {s : St (List ℚ)} (h1 : 2 ≤ size)
    (h2 : size < s.ga.attrs.numIndivid)
    (hseed : s.seed = none) (hal : ∀ r ∈ s.ga.population, r < s.next) (hlen : size ≤ s.ga.population.length)
    (hb : s.ga.population.length ≤ B)
    (hk : ∀ r ∈ s.ga.population, ∃ l, (s.heap r).score = some l ∧ m ≤ l.length)
    (hsp : numPairs s.ga m = 0 ∨ Spread size s.ga.population) : Sure B (vegaTournamentExec m size) s := by
  unfold vegaTournamentExec
  have hc : ∀ s : St (List ℚ), size < s.ga.attrs.numIndivid → checkTournament size s = (.ok (), s) := by
    intro s h2
    unfold checkTournament
    rw [bind_of_ok (getGa_run s), ite_run, if_neg (by omega)]
    rfl
  refine Sure.bind hB hseed (Tame.checkTournament size).ext (Sure.of_ok hseed (Tame.checkTournament size).ext (hc s h2)) ?_
  intro u _ s1 e
  rw [hc (s.more u) h2] at e
  obtain ⟨_, rfl⟩ := Prod.mk.inj e
  obtain ⟨s2, e2⟩ := baseSelection_run (s.more u)
  refine Sure.bind hB hseed Tame.baseSelection.ext (Sure.of_ok hseed Tame.baseSelection.ext e2) ?_
  intro w _ s3 e3
  obtain ⟨hr, _⟩ := baseSelection_relabelled e3
  have hp : s3.ga.population = s.ga.population := by rw [hr.ga]; rfl
  have hsc : ∀ r, (s3.heap r).score = (s.heap r).score := fun r => (hr.core r).score
  have hn : numPairs s3.ga m = numPairs s.ga m := by rw [hr.ga]; rfl
  have aux : ∀ (l : List Nat), (∀ i ∈ l, i < m) → ∀ x : St (List ℚ), x.seed = none → (∀ r ∈ x.ga.population, r < x.next) →
      x.ga.population = s.ga.population → numPairs x.ga m = numPairs s.ga m →
      (numPairs s.ga m = 0 ∨ ∀ i, i < m → TwoWinners (scoreAt i) size x) →
      Sure B (forEach l fun i => tournament (scoreAt i) size m) x := by
    intro l
    induction l with
    | nil => intro _ x x1 _ _ _ _; exact Sure.of_ok x1 (Tame.pure ()).ext rfl
    | cons i is ih =>
      intro hl x x1 x2 x3 x4 x5
      rw [BaumEva.forEach]
      refine Sure.bind hB x1 (tournament_ext size m) ?_ ?_
      · rcases x5 with h | h
        · refine Sure.of_ok (a := ()) (s' := x) x1 (tournament_ext size m) ?_
          unfold tournament
          rw [bind_of_ok (getGa_run x), x4, h]
          rfl
        · exact tournament_sure hB (by omega) x1 x2 (by rw [x3]; exact hlen) (by rw [x3]; exact hb) (h i (hl i (by simp)))
      · intro v _ y hy
        obtain ⟨ps, _, hcp, _⟩ := tournament_ok (s := x.more v) x2 hy
        have hp : y.ga.population = x.ga.population := by rw [hcp.ga]; rfl
        refine ih (fun j hj => hl j (List.mem_cons_of_mem _ hj)) y (hcp.seed.trans x1) ?_ (hp.trans x3) ?_ ?_
        · rw [hp, hcp.next]; intro r hr; have := x2 r hr; show r < x.next + _; omega
        · rw [← x4, hcp.ga]; rfl
        · exact x5.imp id fun h j hj => TwoWinners.copied (s := x.more v) x2 hcp (h j hj)
  refine aux _ (fun i hi => List.mem_range.mp hi) s3 (hr.seed.trans hseed) ?_ hp hn ?_
  · rw [hp, hr.next]; exact hal
  · refine hsp.imp id fun hsp i hi => ?_
    obtain ⟨a, ha, b, hb, hab, hca, hcb⟩ := spread_winners (size := size) (by omega) hsp
      (fun r => (((s.heap r).score.getD [])[i]?).getD 0)
    refine ⟨fun r => (((s.heap r).score.getD [])[i]?).getD 0, a, b, ?_, ?_, ?_, ?_, ?_, baseSelection_idx e3 ha hb hab⟩
    · rw [hp]; intro r h
      obtain ⟨l, e, hl⟩ := hk r h
      unfold scoreAt
      rw [hsc, e]
      simp only [e, Option.getD_some]
      rw [List.getElem?_eq_getElem (by omega)]
      rfl
    · rw [hp]; exact ha
    · rw [hp]; exact hca
    · rw [hp]; exact hb
    · rw [hp]; exact hcb

theorem vega_sure {c : Cfg} {gray : Bool} {gens : List BinGene} {ov : Option (List ℚ)} {s : St (List ℚ)} {m n : Nat}
    (ha : VegaAdmissible gray gens c ov s.conds m n) (hseed : s.seed = none)
    (hch : 3 ≤ c.vegaChildren m ∨ c.vegaChildren m = 0) {B : Nat} (hb : max c.numIndivid (c.vegaChildren m) < B) :
    Sure B (vega c gray gens ov) s := by
  have hB : 0 < B := by omega
  have hsafe : ∀ u, Safe (vega c gray gens ov) (s.more u) := fun u e s' h => C87_vega_no_exception (s := s.more u) ha h
  unfold vega at hsafe ⊢
  obtain ⟨s1, e1, c1, n1⟩ := ha.count
  refine Sure.bind hB hseed (vegaNumObjectives_tame c gens.length).ext (Sure.of_ok hseed (vegaNumObjectives_tame c gens.length).ext e1) ?_
  intro v m' s2 e2
  obtain ⟨s2', e2', c2, n2⟩ := VegaAdmissible.count (s := s.more v) ha
  rw [e2'] at e2
  obtain ⟨e3, rfl⟩ := Prod.mk.inj e2
  injection e3 with e3
  subst e3
  have n2 : s2'.seed = none := n2.trans hseed
  refine facade_sure hB n2 ?_ ?_
  · intro u e s' h
    obtain ⟨k1, _⟩ := (vegaNumObjectives_tame c gens.length).ext (s.more v) s2' m u hseed e2'
    refine hsafe (v ++ u) e s' ?_
    rw [← St.more_more, bind_of_ok k1]
    exact h
  rintro ⟨fit, tr⟩ s0 n0 hst
  refine ⟨BitsOf s0.ga.attrs, ⟨?_, n0, Tame.newGenExec tr, vegaTournamentExec_ext m 3, ?_⟩⟩
  · intro u
    obtain ⟨sa, sb, a1, a2, a3, a4, a5⟩ := hst u
    exact (vega_multiSafe (s0 := s0.more u) (by rw [a2, c2]; exact ha) a1 a3 a4 a5).1
  · intro u k x hk hx
    obtain ⟨sa, sb, a1, a2, a3, a4, a5⟩ := hst u
    obtain ⟨hsafe, hsize⟩ := vega_multiSafe (s0 := s0.more u) (by rw [a2, c2]; exact ha) a1 a3 a4 a5
    have hI := hk.multi hsafe.run a5.fresh
    obtain ⟨b4, b5, _, _⟩ := a5.cells
    have h4 := ha.size
    obtain ⟨z1, z2, z3⟩ := hsize k x hk
    refine vegaTournamentExec_sure hB (by norm_num) (by rw [hsafe.attrs k x hk, b5]; omega) hx hI.alive (by omega) ?_ z2
      (vega_spread (s0 := s0.more u) (by rw [a2, c2]; exact ha) hch a1 a3 a4 a5 hk)
    refine z3.trans ?_
    unfold Cfg.vegaLargest Cfg.vegaPairs
    simp only
    omega

/-- C113, VEGA: an admissible run whose generations have at least three children (or none) returns with probability one. -/
theorem C113_vega_returns {c : Cfg} {gray : Bool} {gens : List BinGene} {ov : Option (List ℚ)} {s : St (List ℚ)} {m n : Nat}
    (ha : VegaAdmissible gray gens c ov s.conds m n) (hseed : s.seed = none)
    (hch : 3 ≤ c.vegaChildren m ∨ c.vegaChildren m = 0) {B : Nat} (hb : max c.numIndivid (c.vegaChildren m) < B) {ε : ℚ} (hε : 0 < ε) :
    ∃ N, ∀ L, N ≤ L → 1 - ε ≤ chance B L (fun t => ∃ s', vega c gray gens ov { s with tape := t } = (.ok (), s')) := by
  obtain ⟨N, hN⟩ := vega_sure (s := { s with tape := [] }) ha hseed hch hb ε hε
  refine ⟨N, fun L hL => ?_⟩
  have h1 := chance_compl (L := L) (p := fun t => ∃ s', vega c gray gens ov { s with tape := t } = (.ok (), s')) (show 0 < B by omega)
  have h2 : chance B L (fun t => ¬ ∃ s', vega c gray gens ov { s with tape := t } = (.ok (), s')) ≤ ε := by
    refine le_trans (chance_mono ?_) (hN L hL)
    rintro t hno ⟨a, s', h⟩
    exact hno ⟨s', h⟩
  linarith

/-- The hypotheses can be met. -/
example {ε : ℚ} (hε : 0 < ε) : ∃ N, ∀ L, N ≤ L → 1 - ε ≤ chance (2 ^ 53) L (fun t =>
    ∃ s', vega exPairCfg true [⟨0, 3, 1⟩, ⟨-1, 1, 1 / 2⟩] (some [0, 0]) { tape := t } = (.ok (), s')) :=
  C113_vega_returns (s := { tape := [] }) exPair_vega rfl (.inl (by decide +kernel)) (by decide +kernel) hε

end BaumEva
