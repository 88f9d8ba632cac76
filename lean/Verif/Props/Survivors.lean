import Verif.Props.MultiLiveness
import Verif.Props.RunRanks
/-!
# Property C58, continued: the scores of survivors
-/
namespace BaumEva
open Spec

/-- C58: FFGA with `transfer_parents` "best" (and any selection but the ranked one).  A survivor has the score 1/2, whatever its rank is now, and no member has a
higher score: a survivor that has come to be dominated weighs as much as the Pareto set for one more selection. -/
theorem C58_survivors {fit : Fit ℚ} {sel : SelOp} {op : CrossOp} {mop : MutOp} {s0 s s' : St ℚ} {k : Nat} (hsr : sel ≠ .ranked) (hv : UniformVecs fit.task.obj1)
    (hscore : fit.task.score = ffgaScore .exact) (h0 : Fresh s0) (h : After (ffgaOps fit sel op mop .best) s0 k s)
    (hg : generation (ffgaOps fit sel op mop .best) s = (.ok (), s')) :
    (∀ r ∈ s.ga.population, r ∈ s'.ga.population → (s'.heap r).score = some (1 / 2)) ∧
      ∀ r ∈ s'.ga.population, ∃ q, (s'.heap r).score = some q ∧ 0 < q ∧ q ≤ 1 / 2 := by
  have hops := ffgaOps_run hv sel op mop .best
  have hs := h.multi hops h0
  have hw : ∀ {j : Nat} {x : St ℚ}, After (ffgaOps fit sel op mop .best) s0 j x →
      FfgaWeights .best (s0.ga.population.length + (s0.ga.attrs.arith.share s0.ga.childrenPercent s0.ga.attrs.numIndivid 1 + 11)) x :=
    fun hj => ffga_weights hsr hv hscore h0 (by omega) (by omega) hj
  constructor
  · obtain ⟨_, a0, s1, s2, s3, es, t, hsel, hb1, hb2, hb3, hB, hready, hng, hes, e2, _, _, _, _, _, hperm, _, _, _, _, _, hcore⟩ := multi_generation hops hs hg
    obtain ⟨es', t', _, hbest, _, e2'⟩ := multiNewGen_ok hready (show multiNewGenExec .best s1 = (.ok (), s2) from hng)
    obtain rfl : es = es' := by
      have h1 : s2.ga.population = s1.ga.children ++ es := by rw [e2]
      rw [show s2.ga.population = s1.ga.children ++ es' by rw [e2']] at h1
      exact (List.append_cancel_left h1).symm
    obtain ⟨n0, hn0, hrange, hn1⟩ := hB.range
    intro r hr hr'
    have hx := hs.alive r hr
    rcases List.mem_append.mp (hperm.subset hr') with hc | he
    · rw [hrange, List.mem_range'_1] at hc
      omega
    · rw [(hcore r he).score]
      obtain ⟨q, e, _, _, hq, _⟩ := hw h r hr
      rw [e, (hq rfl).2 ?_]
      rw [hbest rfl] at he
      have := List.mem_takeWhile_imp he
      rw [hb1 r (hx.trans_le hb2), selExec_keepsRank hsr s a0 () hs.alive hsel r hx] at this
      simpa using this
  · intro r hr
    obtain ⟨q, e, h1, h2, _⟩ := hw (.next h hg) r hr
    exact ⟨q, e, h1, h2⟩

/-! ## example -/

/-- Five binary individuals: 6, 5, 4, 7 and 4. -/
def exStale : St ℚ :=
  { tape := exDraws 100 (exSeed 2)
    mutLvl := .float (1 / 2)
    next := 5
    heap := fun r => { genotype := some (([[bit1, bit1, bit0], [bit1, bit0, bit1], [bit1, bit0, bit0], [bit1, bit1, bit1], [bit1, bit0, bit0]] : List (List Val)).getD r []) }
    ga := { population := [0, 1, 2, 3, 4], childrenPercent := 3 / 5, attrs := { numIndivid := 5, spec := .binary false [⟨0, 7, 1⟩], params := [⟨3, 8, 1⟩], idxBits := [0, 3], isPhenotype := true } } }

theorem exStale_fresh : Fresh exStale :=
  ⟨by decide, by decide, fun _ _ => rfl, rfl, rfl, rfl, rfl, rfl, rfl, rfl, rfl, rfl⟩

/-- The first evaluation of `exStale`. -/
def exStale1 : Except PyErr Unit × St ℚ := multiUpdate (multiFitnessExec exReverseFit exStale).2

/-- The second generation. -/
def exStale2 : Except PyErr Unit × St ℚ := generation (ffgaOps exReverseFit .balanced .onePoint .binString .best) exStale1.2

set_option maxRecDepth 100000 in
theorem exStale_ok : (multiFitnessExec exReverseFit exStale).1 = .ok () ∧ exStale1.1 = .ok () ∧ exStale2.1 = .ok () := by decide +kernel

set_option maxRecDepth 100000 in
theorem exStale_ranks : 2 ∈ exStale1.2.ga.population ∧ 2 ∈ exStale2.2.ga.population ∧ (exStale2.2.heap 2).rank = some (.sc 2) ∧
    (exStale2.2.heap 2).score = some (1 / 2) := by decide +kernel

/-- The hypotheses of `C58_survivors` hold for this run, and a survivor is dominated by a child: its score is still the highest there is. -/
theorem C58_survivors_dominated : ∃ s s', After (ffgaOps exReverseFit .balanced .onePoint .binString .best) exStale 1 s ∧
    generation (ffgaOps exReverseFit .balanced .onePoint .binString .best) s = (.ok (), s') ∧
    ∃ r ∈ s.ga.population, r ∈ s'.ga.population ∧ (s'.heap r).rank = some (.sc 2) ∧ (s'.heap r).score = some (1 / 2) := by
  refine ⟨exStale1.2, exStale2.2, .first (s1 := (multiFitnessExec exReverseFit exStale).2) ?_ ?_, ?_, 2, exStale_ranks⟩
  · exact run_eq exStale_ok.1
  · exact run_eq exStale_ok.2.1
  · exact run_eq exStale_ok.2.2

end BaumEva
