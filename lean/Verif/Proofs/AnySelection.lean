import Verif.Proofs.LiveMulti
import Verif.Proofs.Exact
/-!
# Runs with any single-objective selection depend on the draws they use only
-/
namespace BaumEva
open BaumEva.Spec
variable {σ α β : Type}

/-! ## the wheel -/

theorem random01_shrinks {s s' : St σ} {q : ℚ} (h : random01 s = (.ok q, s')) : s'.tape.length < s.tape.length := by
  unfold random01 at h
  obtain ⟨x, s1, h1, h2⟩ := bind_ok.mp h
  obtain ⟨_, rfl⟩ := pure_ok.mp h2
  unfold draw at h1
  cases ht : s.tape with
  | nil => rw [ht] at h1; cases h1
  | cons a l =>
    rw [ht] at h1
    cases h1
    simp

theorem getIndex_shrinks {sel : List ℚ} {s s' : St σ} {i : Int} (h : getIndex sel s = (.ok i, s')) :
    s'.tape.length < s.tape.length := by
  unfold getIndex at h
  rw [bind_of_ok (getGa_run s)] at h
  obtain ⟨q, s1, h1, h2⟩ := bind_ok.mp h
  obtain ⟨_, rfl⟩ := pure_ok.mp h2
  exact random01_shrinks h1

theorem secondIndex_trim (sel : List ℚ) (i : Int) : ∀ f : Nat, Trim (secondIndex sel i f : M σ Int) := by
  intro f
  induction f with
  | zero => exact (Tame.throwE _).trim
  | succ f ih =>
    rw [secondIndex]
    refine Trim.bind (Tame.getIndex sel).ext (Tame.getIndex sel).trim fun j => ?_
    split
    · exact (Tame.pure _).trim
    · exact ih

theorem secondIndex_mono {sel : List ℚ} {a : Int} : ∀ {f g : Nat} {s s' : St σ} {r : Int}, f ≤ g →
    secondIndex sel a f s = (.ok r, s') → secondIndex sel a g s = (.ok r, s') := by
  intro f
  induction f with
  | zero => intro g s s' r _ h; rw [secondIndex, throwE_ok] at h; exact h.elim
  | succ f ih =>
    intro g s s' r hg h
    obtain ⟨g, rfl⟩ : ∃ k, g = k + 1 := ⟨g - 1, by omega⟩
    rw [secondIndex] at h ⊢
    obtain ⟨b, s1, h1, h2⟩ := bind_ok.mp h
    rw [bind_of_ok h1]
    split at h2
    · rename_i hc; rw [if_pos hc]; exact h2
    · rename_i hc; rw [if_neg hc]; exact ih (by omega) h2

/-- The search for a second index needs at most one round per draw it uses. -/
theorem secondIndex_rounds {sel : List ℚ} {a : Int} : ∀ {f : Nat} {s s' : St σ} {r : Int},
    secondIndex sel a f s = (.ok r, s') → s'.tape.length < s.tape.length ∧
      secondIndex sel a (s.tape.length - s'.tape.length) s = (.ok r, s') := by
  intro f
  induction f with
  | zero => intro s s' r h; rw [secondIndex, throwE_ok] at h; exact h.elim
  | succ f ih =>
    intro s s' r h
    rw [secondIndex] at h
    obtain ⟨b, s1, h1, h2⟩ := bind_ok.mp h
    have hs := getIndex_shrinks h1
    split at h2
    · rename_i hc
      obtain ⟨rfl, rfl⟩ := pure_ok.mp h2
      refine ⟨hs, ?_⟩
      obtain ⟨n, hn⟩ : ∃ n, s.tape.length - s'.tape.length = n + 1 := ⟨s.tape.length - s'.tape.length - 1, by omega⟩
      rw [hn, secondIndex, bind_of_ok h1, if_pos hc]
      rfl
    · rename_i hc
      obtain ⟨g1, g2⟩ := ih h2
      refine ⟨by omega, ?_⟩
      obtain ⟨n, hn⟩ : ∃ n, s.tape.length - s'.tape.length = n + 1 := ⟨s.tape.length - s'.tape.length - 1, by omega⟩
      rw [hn, secondIndex, bind_of_ok h1, if_neg hc]
      exact secondIndex_mono (by omega) g2

theorem roulettePair_trim (sel : List ℚ) : Trim (roulettePair sel : M σ Unit) := by
  intro s s' x hn h
  unfold roulettePair at h ⊢
  obtain ⟨a, s1, h1, h2⟩ := bind_ok.mp h
  obtain ⟨p1, e1, k1⟩ := (Tame.getIndex sel).trim s s1 a hn h1
  obtain ⟨_, n1⟩ := (Tame.getIndex sel).ext s s1 a [] hn h1
  rw [bind_of_ok (getS_run _)] at h2
  obtain ⟨b, s2, h3, h4⟩ := bind_ok.mp h2
  obtain ⟨p2, e2, k2⟩ := secondIndex_trim sel a _ s1 s2 b n1 h3
  obtain ⟨_, n2⟩ := secondIndex_ext sel a _ s1 s2 b [] n1 h3
  obtain ⟨p3, e3, k3⟩ := ((Tame.popAt a).bind fun _ => (Tame.addParent _).bind fun _ => (Tame.popAt b).bind fun _ =>
    Tame.addParent _).trim s2 s' x n2 h4
  refine ⟨p1 ++ (p2 ++ p3), by rw [e1, e2, e3]; simp, fun v => ?_⟩
  rw [List.append_assoc, bind_of_ok (k1 _), bind_of_ok (getS_run _)]
  have hr := (secondIndex_rounds (k2 (p3 ++ v))).2
  have hl : ({ s1 with tape := p2 ++ (p3 ++ v) } : St σ).tape.length - ({ s2 with tape := p3 ++ v } : St σ).tape.length ≤
      ({ s1 with tape := p2 ++ (p3 ++ v) } : St σ).tape.length + 1 := by omega
  rw [show p2 ++ p3 ++ v = p2 ++ (p3 ++ v) from List.append_assoc ..]
  rw [bind_of_ok (secondIndex_mono hl hr)]
  exact k3 v

namespace Tame

theorem writeTies (f : ℚ → Ind σ → Ind σ) (a b : Int) (n : Nat) : Tame (BaumEva.writeTies f a b n) := by
  unfold BaumEva.writeTies
  exact bind getGa fun _ => forEach (fun _ => bind (popAt _) fun _ => modInd _ _) _

theorem rankedStep (f : ℚ → Ind σ → Ind σ) (n i : Nat) (x y : ℚ) (k : Nat) : Tame (BaumEva.rankedStep f n i x y k) := by
  unfold BaumEva.rankedStep
  exact ite (ite (bind (writeTies _ _ _ _) fun _ => pure _) (pure _)) (ite (bind (writeTies _ _ _ _) fun _ => pure _) (pure _))

theorem rankedLoop (key : Ind σ → Except PyErr ℚ) (f : ℚ → Ind σ → Ind σ) (n : Nat) :
    ∀ (k i : Nat) (x : ℚ) (m : Nat), Tame (BaumEva.rankedLoop key f n k i x m)
  | 0, _, _, _ => pure _
  | k + 1, _, _, _ => by
    rw [BaumEva.rankedLoop]
    exact bind (popAt _) fun _ => bind (modInd _ _) fun _ => bind (getInd _) fun _ => bind (liftE _) fun _ =>
      bind (rankedStep _ _ _ _ _ _) fun _ => rankedLoop key f n k _ _ _

theorem assignRanked (key : Ind σ → Except PyErr ℚ) (f : ℚ → Ind σ → Ind σ) : Tame (BaumEva.assignRanked key f) := by
  unfold BaumEva.assignRanked
  exact bind getGa fun _ => rankedLoop _ _ _ _ _ _ _

end Tame

theorem roulette_trim (sel : List ℚ) (m : Nat) : Trim (roulette sel m : M σ Unit) := by
  unfold roulette
  exact Trim.bind Tame.getGa.ext Tame.getGa.trim fun _ => Trim.forEach (fun _ => roulettePair_ext sel) (fun _ => roulettePair_trim sel) _

theorem balancedWith_ext {pre : M σ Unit} (hp : Tame pre) (w : Ind σ → Except PyErr ℚ) (m : Nat) : ExtOk (balancedWith pre w m) := by
  unfold balancedWith
  exact ExtOk.bind Tame.baseSelection.ext fun _ => ExtOk.bind hp.ext fun _ => ExtOk.bind (Tame.weights w).ext fun _ =>
    ExtOk.bind Tame.getGa.ext fun _ => ExtOk.bind (Tame.liftE _).ext fun _ => roulette_ext _ _

theorem balancedWith_trim {pre : M σ Unit} (hp : Tame pre) (w : Ind σ → Except PyErr ℚ) (m : Nat) : Trim (balancedWith pre w m) := by
  unfold balancedWith
  exact Trim.bind Tame.baseSelection.ext Tame.baseSelection.trim fun _ => Trim.bind hp.ext hp.trim fun _ =>
    Trim.bind (Tame.weights w).ext (Tame.weights w).trim fun _ => Trim.bind Tame.getGa.ext Tame.getGa.trim fun _ =>
    Trim.bind (Tame.liftE _).ext (Tame.liftE _).trim fun _ => roulette_trim _ _

theorem selExec_ext (sel : SelOp) : ExtOk (selExec sel) := by
  cases sel with
  | tournament size => exact tournamentExec_ext size
  | balanced => exact balancedWith_ext (Tame.pure ()) _ _
  | ranked => exact balancedWith_ext (Tame.assignRanked _ _) _ _

theorem selExec_trim (sel : SelOp) : Trim (selExec sel) := by
  cases sel with
  | tournament size => exact tournamentExec_trim size
  | balanced => exact balancedWith_trim (Tame.pure ()) _ _
  | ranked => exact balancedWith_trim (Tame.assignRanked _ _) _ _

/-! ## runs -/

section
variable {fit : Fit ℚ} {sel : SelOp} {op : CrossOp} {mop : MutOp} {tr : Transfer} {P : List Val → Prop} {s0 s : St ℚ} {k : Nat}

theorem After.more_any (hn : s0.seed = none) (h : After (singleOps fit sel op mop tr) s0 k s) (u : List Nat) :
    After (singleOps fit sel op mop tr) (s0.more u) k (s.more u) ∧ s.seed = none := by
  induction h with
  | @first s1 s a b =>
    obtain ⟨e1, n1⟩ := (Tame.baseFitness fit).ext s0 s1 () u hn a
    obtain ⟨e2, n2⟩ := Tame.gaUpdate.ext s1 s () u n1 b
    exact ⟨After.first e1 e2, n2⟩
  | @next k s s' a b ih =>
    obtain ⟨e2, n2⟩ := (ExtOk.bind (selExec_ext sel) fun _ => (breedRest_tame fit sel op mop tr).ext) s s' () u ih.2 b
    exact ⟨After.next ih.1 e2, n2⟩

/-- The state after `k` generations depends on the draws used so far only. -/
theorem After.trim_any (hn : s0.seed = none) (h : After (singleOps fit sel op mop tr) s0 k s) :
    ∃ pre, s0.tape = pre ++ s.tape ∧
      ∀ v, After (singleOps fit sel op mop tr) { s0 with tape := pre ++ v } k { s with tape := v } := by
  induction h with
  | @first s1 s a b =>
    obtain ⟨_, n1⟩ := (Tame.baseFitness fit).ext s0 s1 () [] hn a
    obtain ⟨p1, e1, k1⟩ := (Tame.baseFitness fit).trim s0 s1 () hn a
    obtain ⟨p2, e2, k2⟩ := Tame.gaUpdate.trim s1 s () n1 b
    refine ⟨p1 ++ p2, by rw [e1, e2]; simp, fun v => ?_⟩
    rw [List.append_assoc]
    exact After.first (k1 _) (k2 v)
  | @next k s s' a b ih =>
    obtain ⟨_, n1⟩ := a.more_any hn []
    obtain ⟨p1, e1, k1⟩ := ih
    obtain ⟨p2, e2, k2⟩ := (Trim.bind (selExec_ext sel) (selExec_trim sel) fun _ => (breedRest_tame fit sel op mop tr).trim) s s' () n1 b
    refine ⟨p1 ++ p2, by rw [e1, e2]; simp, fun v => ?_⟩
    rw [List.append_assoc]
    exact After.next (k1 _) (k2 v)

theorem SafeCore.withTape (h : SafeCore fit op mop tr P s0) (u : List Nat) : SafeCore fit op mop tr P { s0 with tape := u } :=
  ⟨⟨h.fresh.alive, h.fresh.distinct, h.fresh.unscored, h.fresh.unsorted, h.fresh.best, h.fresh.noImprove, h.fresh.idx,
    h.fresh.histBest, h.fresh.histMed, h.fresh.histWorst, h.fresh.histFronts, h.fresh.snaps⟩, h.closed, h.first, h.full,
    h.two, h.cross, h.mutable, h.ready, h.random, h.decode, h.eval, h.stop⟩

end

end BaumEva
