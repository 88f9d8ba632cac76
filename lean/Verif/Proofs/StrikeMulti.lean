import Verif.Proofs.Strike
import Verif.Proofs.LiveMulti
import Verif.Props.Optimum
/-!
# The chance that a mutation strikes a given genotype, multi-objective runs
-/
namespace BaumEva
open Spec
variable {σ : Type}

/-- Selection and crossover. -/
def mateOf (ops : Ops σ) : M σ Unit := ops.selection >>= fun _ => ops.crossover

/-- What follows the crossover in a generation. -/
def afterMate (ops : Ops σ) : M σ Unit :=
  ops.mutation >>= fun _ => ops.newGen >>= fun _ => ops.fitness >>= fun _ => ops.update

theorem mateOf_then (ops : Ops σ) (m : M σ Unit) :
    (mateOf ops >>= fun _ => m) = ops.selection >>= fun _ => ops.crossover >>= fun _ => m := by
  funext s
  unfold mateOf
  rw [bind_run, bind_run, bind_run]
  rcases ops.selection s with ⟨_ | a, s1⟩
  · rfl
  · rfl

theorem generation_mateOf (ops : Ops σ) (s : St σ) : BaumEva.generation ops s = (mateOf ops >>= fun _ => afterMate ops) s := by
  rw [mateOf_then]
  rfl

/-- A multi-objective run that raises nothing and makes at least one child per generation, whatever the draws. -/
structure MultiDraws [DecidableEq σ] (ops : Ops σ) (fit : Fit σ) (op : CrossOp) (mop : MutOp) (P : List Val → Prop) (s0 : St σ) :
    Prop where
  safe : ∀ t, MultiSafe ops fit op mop P { s0 with tape := t }
  seed : s0.seed = none
  newGen : Tame ops.newGen
  sel : ExtOk ops.selection
  trim : Trim ops.selection
  child : ∀ t k s a, After ops { s0 with tape := t } k s → ops.selection s = (.ok (), a) → a.ga.parents ≠ []

section
variable [DecidableEq σ] {ops : Ops σ} {fit : Fit σ} {op : CrossOp} {mop : MutOp} {P : List Val → Prop} {s0 : St σ}

theorem MultiDraws.run (h : MultiDraws ops fit op mop P s0) : MultiRun ops fit op mop := (h.safe []).run

theorem MultiDraws.mate_trim (h : MultiDraws ops fit op mop P s0) : Trim (mateOf ops) := by
  unfold mateOf
  rw [h.run.crossover]
  exact Trim.bind h.sel h.trim fun _ => (Tame.crossExec op).trim

theorem MultiDraws.mate_ext (h : MultiDraws ops fit op mop P s0) : ExtOk (mateOf ops) := by
  unfold mateOf
  rw [h.run.crossover]
  exact ExtOk.bind h.sel fun _ => (Tame.crossExec op).ext

theorem MultiDraws.rest_tame (h : MultiDraws ops fit op mop P s0) : Tame (afterMate ops) := by
  unfold afterMate
  rw [h.run.mutation, h.run.fitness, h.run.update]
  exact (Tame.mutExec mop).bind fun _ => h.newGen.bind fun _ => (Tame.multiFitness fit).bind fun _ => Tame.multiUpdate

theorem MultiSafe.low_after (h0 : MultiSafe ops fit op mop P s0)
    (hl : LowNext s0.ga.attrs.arith mop (s0.ga.attrs.idxBits.getLastD 0) s0.mutLvl) {k : Nat} {s : St σ} (h : After ops s0 k s) :
    LowNext s0.ga.attrs.arith mop (s0.ga.attrs.idxBits.getLastD 0) s.mutLvl := by
  have hops := h0.run
  induction h with
  | @first s1 s a b =>
    rw [hops.fitness] at a
    rw [hops.update] at b
    obtain ⟨_, _, hS, _⟩ := multi_first hops.uniform h0.fresh a b
    rw [multiUpdate_mutLvl b (by rw [hS.ga]; exact h0.fresh.unsorted) (by rw [hS.ga, hS.next]; exact h0.fresh.alive), hS.shape]
    exact hl
  | @next k s s' a b ih =>
    have hinv := a.multi hops h0.fresh
    obtain ⟨_, z0, s1, s2, s3, es, t, _, _, _, _, hB, _, _, _, e2, _, _, hF, hBU, hup, _⟩ := multi_generation hops hinv b
    have hl : s'.mutLvl = s1.mutLvl := by
      rw [multiUpdate_mutLvl hup hBU.unsorted hBU.alive, hF.shape, e2]
    rw [hl]
    obtain ⟨q, q0, q1, q2, q3⟩ := ih
    by_cases hop : mop = .binString
    · have hu := hB.lvl.2 hop
      rw [h0.attrs _ _ a] at hu
      have e := (q3 hop).symm.trans hu
      injection e with e
      rw [← e]
      exact ⟨q, q0, q1, fun h => absurd hop h, fun _ => rfl⟩
    · rw [hB.lvl.1 hop]; exact ⟨q, q0, q1, q2, q3⟩

/-- After selection and crossover there are residues with which the first child becomes `g'`. -/
theorem MultiDraws.strikes (h0 : MultiDraws ops fit op mop P s0) {k : Nat} {pre : List Nat} {s s2 : St σ} {x : Unit}
    (hs : ∀ v, After ops { s0 with tape := pre ++ v } k { s with tape := v }) (hm : mateOf ops s = (.ok x, s2))
    {lvl : MutLvl} (hlvl : NextLvl mop s lvl) {g' : List Val} {Q : List (Nat × Nat) → Prop}
    (hmut : ∀ g0 p1 p2 g1, P g0 → P p1 → P p2 → CrossResult σ op g0.length p1 p2 g1 →
      ∃ R, Q R ∧ MutBy σ mop s0.ga.attrs.spec (lvl.effective s0.ga.attrs.arith) R g1 g') :
    ∃ R, Q R ∧ ∀ t u s' y, Fits R t → afterMate ops { s2 with tape := t ++ u } = (.ok y, s') → Holds g' s' := by
  have hops := h0.run
  have h := hs s.tape
  have hset := h0.safe (pre ++ s.tape)
  have hseed : s.seed = none := (hops.after_more h0.newGen h0.sel (s0 := { s0 with tape := pre ++ s.tape }) h0.seed h []).2
  have hI := h.multi hops hset.fresh
  have hgood := hset.good k s h
  obtain ⟨pm, _, km⟩ := h0.mate_trim s s2 x hseed hm
  unfold mateOf at hm
  obtain ⟨⟨⟩, s1, e1, e2⟩ := bind_ok.mp hm
  have hal : ∀ r ∈ s.ga.population, r < s.next := hI.alive
  have hS : Selected s s1 := hops.selection s s1 () hal e1
  have hne := h0.child _ k s s1 h e1
  rw [hops.crossover] at e2
  obtain ⟨r0, g0, a1, a2, sx, gs1, hd, hga, hb, hlp, hch⟩ := crossExec_ok e2 (fun r hr => (hS.fresh r hr).2.1)
  have hPof : ∀ z q, z ∈ s.ga.population → (s.heap z).genotype = some q → P q := by
    intro z q hz hq
    obtain ⟨q', d1, d2, _⟩ := hgood z hz
    have d1 : (s.heap z).genotype = some q' := d1
    rw [hq] at d1
    injection d1 with d1
    rw [d1]; exact d2
  have hpop1 : s1.ga.population = s.ga.population := by rw [hS.ga]
  have hxn : sx.next = s1.next := by obtain ⟨t, ht⟩ := hd; simp at ht; simp [ht]
  have hxml : sx.mutLvl = s1.mutLvl := by obtain ⟨t, ht⟩ := hd; simp at ht; simp [ht]
  have hchild : s2.ga.children = List.range' s1.next gs1.length := by rw [hb.ga, hga, hxn]; simp
  have hspec : s2.ga.attrs = s.ga.attrs := by rw [hb.ga, hga, hS.ga]
  have hat : s.ga.attrs = s0.ga.attrs := hset.attrs k s h
  have hml2 : s2.mutLvl = s.mutLvl := by rw [hb.mutLvl, hxml, hS.mutLvl]
  have hr0 : r0 ∈ s.ga.population := by rw [← hpop1]; exact List.mem_of_mem_head? a1
  have hP0 : P g0 := by
    refine hPof r0 g0 hr0 ?_
    rw [← a2, (hS.core r0 (hal r0 hr0)).genotype]
  obtain ⟨g1, gs2, hgs⟩ : ∃ g1 gs2, gs1 = g1 :: gs2 := by
    cases gs1 with
    | nil =>
      simp only [List.length_nil] at hlp
      exact absurd (List.length_eq_zero_iff.mp (by omega)) hne
    | cons a b => exact ⟨a, b, rfl⟩
  subst hgs
  obtain ⟨a, b, p1, p2, pa, pb, ga1, gb1, hcr⟩ := hch 0 g1 rfl
  obtain ⟨_, _, a', ham, hac⟩ := hS.fresh a (List.mem_of_getElem? pa)
  obtain ⟨_, _, b', hbm, hbc⟩ := hS.fresh b (List.mem_of_getElem? pb)
  rw [hac.genotype] at ga1
  rw [hbc.genotype] at gb1
  obtain ⟨R, hQ, hby⟩ := hmut g0 p1 p2 g1 hP0 (hPof a' p1 ham ga1) (hPof b' p2 hbm gb1) hcr
  refine ⟨R, hQ, fun t u s' y ht hrun => ?_⟩
  have hg1 : (s2.heap s1.next).genotype = some g1 := by
    have := hb.new 0 g1 rfl
    rw [hxn, Nat.add_zero] at this
    rw [this]
  have hchc : s2.ga.children = s1.next :: List.range' (s1.next + 1) gs2.length := by
    rw [hchild, List.length_cons, List.range'_succ]
  have hrun' := hrun
  unfold afterMate at hrun
  obtain ⟨⟨⟩, s3, m1, m2⟩ := bind_ok.mp hrun
  rw [hops.mutation] at m1
  have hgeno := mutExec_by (s := s2) hchc (by rw [← hchc, hchild]; exact List.nodup_range') hg1 (lvl := lvl)
    (by unfold NextLvl at hlvl ⊢; rw [hml2, hspec]; exact hlvl)
    (by rw [hspec, hat]; exact hby) ht m1
  have hga3 : s3.ga = s2.ga := by
    obtain ⟨⟨t, hp, es⟩, _⟩ := mutExec_ok m1 (by simp only; rw [hchild]; exact List.nodup_range')
    have := congrArg St.ga es
    exact this
  have hw : BaumEva.generation ops { s with tape := pm ++ (t ++ u) } = (.ok y, s') := by
    rw [generation_mateOf, bind_of_ok (km _)]
    exact hrun'
  have hI2 := (hs (pm ++ (t ++ u))).multi hops (h0.safe _).fresh
  obtain ⟨_, z0, b1, b2, b3, es, _, _, _, _, _, hbr, hB, _, _, hes, d2, _, _, hF, _, hup, hperm, hheap, _⟩ := multi_steps hops hI2 hw
  have hb1 : b1 = s3 := by
    have hbr : (ops.selection >>= fun _ => crossExec op >>= fun _ => mutExec mop) { s with tape := pm ++ (t ++ u) } =
        (.ok (), b1) := hbr
    have hbr2 : (mateOf ops >>= fun _ => mutExec mop) { s with tape := pm ++ (t ++ u) } = (.ok (), b1) := by
      rw [mateOf_then, hops.crossover]
      exact hbr
    rw [bind_of_ok (km _), m1] at hbr2
    exact (Prod.mk.inj hbr2).2.symm
  have hrc : s1.next ∈ b1.ga.children := by rw [hb1, hga3, hchc]; exact List.mem_cons_self
  have hrp : s1.next ∈ b2.ga.population := by rw [d2]; exact List.mem_append_left _ hrc
  have hrlt : s1.next < b1.next := by
    obtain ⟨n0, _, q1, q2⟩ := hB.range
    rw [q1, List.mem_range'_1] at hrc
    omega
  refine ⟨s1.next, hperm.symm.subset (List.mem_append_left _ hrc), ?_⟩
  rw [hheap _ hrlt, hF.geno _ hrp, d2]
  show (b1.heap s1.next).genotype = _
  rw [hb1]
  exact hgeno

/-- The same for the rest of a generation and `n` more. -/
def AvoidsAfter (ops : Ops σ) (g : List Val) (n : Nat) (s : St σ) (w : List Nat) : Prop :=
  ∃ c v, (EndsIn (afterMate ops) s w c v ∧ ¬ Holds g c.2) ∧ Avoids ops g n { c.2 with tape := v }

/-- The chance to avoid a genotype for `n` generations, if it is struck with chance `δ` in each. -/
theorem MultiDraws.chance_avoids (h0 : MultiDraws ops fit op mop P s0) {B : Nat} (hB : 0 < B) {δ : ℚ} (hδ : δ ≤ 1) {g' : List Val}
    (hlow : ∀ v k s, After ops { s0 with tape := v } k s →
      ∃ lvl, NextLvl mop s lvl ∧ ∀ g0 p1 p2 g1, P g0 → P p1 → P p2 → CrossResult σ op g0.length p1 p2 g1 →
        ∃ R, (Possible B R ∧ δ ≤ odds R) ∧ MutBy σ mop s0.ga.attrs.spec (lvl.effective s0.ga.attrs.arith) R g1 g') :
    ∀ (n k : Nat) (pre : List Nat) (s : St σ), (∀ v, After ops { s0 with tape := pre ++ v } k { s with tape := v }) →
      ∀ L, chance B L (fun t => Avoids ops g' n { s with tape := t }) ≤ (1 - δ) ^ n := by
  intro n
  induction n with
  | zero =>
    intro k pre s _ L
    rw [pow_zero]
    exact chance_le_one hB
  | succ n ih =>
    intro k pre s hs L
    have hseed : s.seed = none :=
      (h0.run.after_more h0.newGen h0.sel (s0 := { s0 with tape := pre ++ [] }) h0.seed (hs []) []).2
    have hpow : 0 ≤ (1 - δ) ^ n := pow_nonneg (by linarith) n
    -- selection and crossover
    have hexp := outcome_experiment h0.mate_trim (s := s) hseed
    have hstep : ∀ t b v, EndsIn (mateOf ops) s t b v →
        ∀ L, chance B L (AvoidsAfter ops g' n b.2) ≤ (1 - δ) ^ (n + 1) := by
      rintro t ⟨y, s2⟩ v ⟨hb1, hb2⟩ L
      simp only at hb1 hb2
      have hseed2 : s2.seed = none := (h0.mate_ext { s with tape := t } _ _ [] hseed hb2).2
      obtain ⟨pm, _, km⟩ := h0.mate_trim { s with tape := t } _ _ hseed hb2
      have hexp2 := (outcome_experiment h0.rest_tame.trim (s := s2) hseed2).only fun c => ¬ Holds g' c.2
      obtain ⟨lvl, hl1, hl2⟩ := hlow _ _ _ (hs t)
      obtain ⟨R, ⟨hR1, hR2⟩, hR3⟩ := h0.strikes (s := { s with tape := t }) hs hb2 hl1 (g' := g')
        (Q := fun R => Possible B R ∧ δ ≤ odds R) hl2
      have hmiss := chance_miss hB (L := L) hexp2 hR1 (by
        rintro t u ⟨z, s'⟩ v ht ⟨⟨c1, c2⟩, c3⟩
        exact c3 (hR3 t u { s' with tape := v } z ht c2))
      have hbind := chance_bind hB (c := (1 - δ) ^ n) (L := L) (G := fun w c v' => EndsIn (afterMate ops) s2 w c v' ∧ ¬ Holds g' c.2)
        (ψ := fun c v' => Avoids ops g' n { c.2 with tape := v' }) hexp2 (by
          rintro w ⟨z, s'⟩ v' ⟨⟨c1, c2⟩, c3⟩ L
          simp only at c1 c2
          obtain ⟨p3, _, k3⟩ := h0.rest_tame.trim { s2 with tape := w } _ _ hseed2 c2
          refine ih (k + 1) (pre ++ (pm ++ p3)) s' (fun v => ?_) L
          have h1 := hs (pm ++ (p3 ++ v))
          have h2 : BaumEva.generation ops { s with tape := pm ++ (p3 ++ v) } = (.ok (), { s' with tape := v }) := by
            rw [generation_mateOf, bind_of_ok (km _)]
            exact k3 v
          have h3 := After.next h1 h2
          rw [show pre ++ (pm ++ p3) ++ v = pre ++ (pm ++ (p3 ++ v)) by simp]
          exact h3)
      refine hbind.trans ?_
      rw [pow_succ]
      exact mul_le_mul_of_nonneg_left (hmiss.trans (by linarith)) hpow
    have hall := chance_bind hB (L := L) (c := (1 - δ) ^ (n + 1)) (G := EndsIn (mateOf ops) s)
      (ψ := fun b : Unit × St σ => AvoidsAfter ops g' n b.2) hexp hstep
    refine le_trans (chance_mono ?_) (hall.trans ?_)
    · rintro t ⟨s', e1, e2, e3⟩
      rw [generation_mateOf] at e1
      obtain ⟨y, s2, d1, d2⟩ := bind_ok.mp e1
      exact ⟨_, _, EndsIn.of_run d1, _, _, ⟨EndsIn.of_run (s := { s2 with tape := [] }) d2, e2⟩, e3⟩
    · have := pow_nonneg (show 0 ≤ 1 - δ by linarith) (n + 1)
      have h1 := chance_le_one (p := fun t => ∃ b v, EndsIn (mateOf ops) s t b v) (L := L) hB
      nlinarith

end

end BaumEva
