import Verif.Props.Invariance
import Verif.Props.MultiRuns
/-!
# C128: FFGA looks at nothing but domination

The order in which the objectives are listed, copies of objectives and redundant objectives change nothing in an FFGA run.  They do in a VEGA run.
-/
namespace BaumEva
open Spec

/-- What an objective returns, with the vector of objective values rewritten. -/
def Ret.vec (f : List ℚ → List ℚ) : Ret → Ret
  | .sc q => .sc q
  | .tup l => .tup (f l)

/-- The values listed in another order: the `i`-th value of the new vector is the `π[i]`-th of the old one. -/
def reorder (π : List Nat) (l : List ℚ) : List ℚ := if l.length = π.length then π.map fun i => l.getD i 0 else l

/-- One more objective, computed from the others. -/
def withExtra (g : List ℚ → ℚ) (l : List ℚ) : List ℚ := l ++ [g l]

theorem Ret.vec_injective {f : List ℚ → List ℚ} (hf : Function.Injective f) : Function.Injective (Ret.vec f) := by
  intro a b hab
  cases a <;> cases b <;> simp only [Ret.vec, Ret.sc.injEq, Ret.tup.injEq, reduceCtorEq] at hab ⊢
  · exact hab
  · exact hf hab

/-- C128: two FFGA runs whose objective vectors are in one-to-one correspondence, with the same dominations, are the same run: the same individuals, draws,
ranks, scores, Pareto sets and number of generations; only the recorded vectors differ. -/
theorem C128_dominance {s : St ℚ} (hs : Session s) (c : Cfg) (gray : Bool) (gens : List BinGene) (hu : Unconstrained c s) (hv : UniformVecs c.obj1)
    {f : List ℚ → List ℚ} (hf : Function.Injective f) (hlen : ∀ xs ys, xs.length = ys.length → (f xs).length = (f ys).length)
    (hd : ∀ p q xs ys, c.obj1 p = .ok (.tup xs) → c.obj1 q = .ok (.tup ys) → (Dominates (f xs) (f ys) ↔ Dominates xs ys)) :
    Corresponds id (Ret.vec f) id (observe s (ffga c gray gens s)) (observe s (ffga (c.through (Ret.vec f)) gray gens s)) := by
  have hsame : SameInput s (blank s) := ⟨rfl, rfl, fun _ => rfl⟩
  rw [C66_ffga hs (.start _ _ _) hsame, C66_ffga hs (.start _ _ _) hsame]
  let R : Ren ℚ := { sc := id, obj := Ret.vec f, source := .binary gray gens, target := .binary gray gens, arith := c.arith }
  have hC : R.Coding := Ren.coding_same rfl rfl rfl
  have hg : ∀ g, R.geno g = g := fun g => List.map_id _
  have hinp : R.input c.input = c.input := by
    unfold Ren.input; rw [show R.geno = id from funext hg]
    cases c.input <;> simp
  have hc : R.Config c (c.through (Ret.vec f)) := ⟨rfl, rfl, rfl, rfl, hinp.symm, rfl, rfl, rfl, rfl, rfl⟩
  have hsc : ∀ x, ffgaScore c.arith (R.ind x) 0 = (ffgaScore c.arith x 0).map R.sc := by
    intro x
    unfold ffgaScore
    show (match x.rank with | some (.sc q) => _ | _ => _) = _
    rcases x.rank with _ | (q | l)
    · rfl
    · simp only []
      split <;> rfl
    · rfl
  refine facade_img hC rfl rfl hc (task := ffgaTask c.obj1 c.obj2 c.inputTruthy c.penalty c.arith)
    (task' := ffgaTask (c.through (Ret.vec f)).obj1 (c.through (Ret.vec f)).obj2 c.inputTruthy c.penalty c.arith)
    rfl rfl (fitExec := multiFitnessExec) (fitExec' := multiFitnessExec) (update := multiUpdate)
    (selection := balancedExec) (selection' := balancedExec) _ _ (newGen := multiNewGenExec) (R.plain_blank s)
    (fun fit sa sb h1 h2 => ?_) (Img.multiUpdate hC Function.injective_id (Ret.vec_injective hf)) ?_
    (fun tr => Img.multiNewGenExec hC tr) (s0 := blank s)
  · have ht := (newFitness_ok h2).1
    have hcond := Unconstrained.isCond (s := sa) (show Unconstrained c sa by unfold Unconstrained; rw [h1]; exact hu)
      (t := ffgaTask c.obj1 c.obj2 c.inputTruthy c.penalty c.arith) rfl rfl h2
    refine Img.multiFitnessExec (raw := Ret.vec f) hC
      ⟨rfl, rfl, rfl, by rw [ht]; rfl, by rw [ht]; rfl, by rw [ht]; rfl, ?_, ?_, fun _ => rfl, fun hc => by rw [hcond] at hc; simp at hc, ?_⟩
      ⟨fun g => ?_, ⟨f, fun _ => rfl, ?_⟩, fun q => ⟨q, rfl⟩⟩
    · intro g
      rw [hg, ht]
      show (if c.inputTruthy then (fun g => (c.obj2 g).map (Ret.vec f)) else fun g => (c.obj1 g).map (Ret.vec f)) g = _
      show _ = ((if c.inputTruthy then c.obj2 else c.obj1) g).map _
      cases c.inputTruthy <;> rfl
    · intro v
      rw [ht, hcond]
      cases v <;> rfl
    · intro x pen hpen
      rw [ht, hpen hcond]; exact hsc x
    · rw [hg, ht]; rfl
    · intro p q xs ys hx hy
      rw [ht] at hx hy
      have hl := hv p q xs ys hx hy
      rw [inferiorOf_eq hl, inferiorOf_eq (hlen _ _ hl)]
      have e1 : Dominates (f xs) (f ys) ↔ Dominates xs ys := hd p q xs ys hx hy
      have e2 : Dominates (f ys) (f xs) ↔ Dominates ys xs := hd q p ys xs hy hx
      by_cases h1 : Dominates ys xs
      · rw [if_pos h1, if_pos (e2.mpr h1)]
      · rw [if_neg h1, if_neg (fun h => h1 (e2.mp h))]
        by_cases h2 : Dominates xs ys
        · rw [if_pos h2, if_pos (e1.mpr h2)]
        · rw [if_neg h2, if_neg (fun h => h2 (e1.mp h))]
  · refine Img.balancedWith Img.unit (v := id) (fun x => ?_) (fun ws => by rw [List.map_id]) 1
    exact Img.scoreKey (R := R) x

theorem reorder_length (π : List Nat) (l : List ℚ) : (reorder π l).length = l.length := by
  unfold reorder
  split
  · rename_i h; rw [List.length_map, h]
  · rfl

theorem reorder_asGood {π : List Nat} (hπ : π.Perm (List.range π.length)) {xs ys : List ℚ} (hx : xs.length = π.length) (hy : ys.length = π.length) :
    AsGood (reorder π xs) (reorder π ys) ↔ AsGood xs ys := by
  unfold reorder AsGood
  rw [if_pos hx, if_pos hy, List.forall₂_map_left_iff, List.forall₂_map_right_iff, List.forall₂_same]
  constructor
  · intro h
    rw [List.forall₂_iff_get]
    refine ⟨hx.trans hy.symm, fun i h1 h2 => ?_⟩
    have := h i (hπ.mem_iff.mpr (List.mem_range.mpr (hx ▸ h1)))
    simpa [List.getD_eq_getElem?_getD, h1, h2] using this
  · intro h i hi
    have hi' := List.mem_range.mp (hπ.mem_iff.mp hi)
    have h1 : i < xs.length := hx ▸ hi'
    have h2 : i < ys.length := hy ▸ hi'
    have := (List.forall₂_iff_get.mp h).2 i h1 h2
    simpa [List.getD_eq_getElem?_getD, h1, h2] using this

theorem reorder_injective {π : List Nat} (hπ : π.Perm (List.range π.length)) : Function.Injective (reorder π) := by
  intro a b hab
  have hl : a.length = b.length := by rw [← reorder_length π a, hab, reorder_length]
  by_cases h : a.length = π.length
  · exact ((reorder_asGood hπ h (hl ▸ h)).mp (hab ▸ AsGood.refl _)).antisymm ((reorder_asGood hπ (hl ▸ h) h).mp (hab ▸ AsGood.refl _))
  · unfold reorder at hab
    rwa [if_neg h, if_neg (hl ▸ h)] at hab

/-- C128: listing the objectives in another order changes nothing in an FFGA run but the order of the recorded values. -/
theorem C128_reorder {s : St ℚ} (hs : Session s) (c : Cfg) (gray : Bool) (gens : List BinGene) (hu : Unconstrained c s) {π : List Nat}
    (hπ : π.Perm (List.range π.length)) (hn : ∀ p xs, c.obj1 p = .ok (.tup xs) → xs.length = π.length) :
    Corresponds id (Ret.vec (reorder π)) id (observe s (ffga c gray gens s)) (observe s (ffga (c.through (Ret.vec (reorder π))) gray gens s)) := by
  refine C128_dominance hs c gray gens hu (fun p q x y hx hy => (hn p x hx).trans (hn q y hy).symm) (reorder_injective hπ)
    (fun xs ys h => by rw [reorder_length, reorder_length, h]) fun p q xs ys hx hy => ?_
  rw [dominates_iff, dominates_iff, reorder_asGood hπ (hn p xs hx) (hn q ys hy), (reorder_injective hπ).ne_iff]

theorem withExtra_injective (g : List ℚ → ℚ) : Function.Injective (withExtra g) := by
  intro a b hab
  exact (List.append_inj' hab rfl).1

/-- C128: an additional objective that never contradicts the others (a copy of one of them, a sum with positive weights, their maximum) changes nothing in an
FFGA run. -/
theorem C128_redundant {s : St ℚ} (hs : Session s) (c : Cfg) (gray : Bool) (gens : List BinGene) (hu : Unconstrained c s) (hv : UniformVecs c.obj1)
    {g : List ℚ → ℚ} (hg : ∀ xs ys, AsGood xs ys → g xs ≤ g ys) :
    Corresponds id (Ret.vec (withExtra g)) id (observe s (ffga c gray gens s)) (observe s (ffga (c.through (Ret.vec (withExtra g))) gray gens s)) := by
  refine C128_dominance hs c gray gens hu hv (withExtra_injective g) (fun xs ys h => by simp [withExtra, h]) fun p q xs ys hx hy => ?_
  rw [dominates_iff, dominates_iff, (withExtra_injective g).ne_iff]
  refine and_congr_left fun _ => ⟨fun h => ?_, fun h => List.rel_append h (.cons (hg _ _ h) .nil)⟩
  have hl := hv p q xs ys hx hy
  have := List.forall₂_take xs.length h
  rw [withExtra, withExtra, List.take_left, hl, List.take_left] at this
  exact this

/-! ## VEGA, and examples -/

/-- `VEGA.optimize` with the objectives of `exMulti`. -/
def exOrder (c : Cfg) : Except PyErr Unit × St (List ℚ) := vega c false exGenes none { tape := exDraws 500 (exSeed 10) }

/-- The genotypes of the reported Pareto set. -/
def setGenes (s : St (List ℚ)) : List (Option (List Val)) := (paretoSet s).map fun a => a.genotype

set_option maxRecDepth 100000 in
/-- C128, limit: the Pareto set reported by VEGA depends on the order of the objectives, and on copies of objectives: with the same draws a point is reported that
is not reported for the original list of objectives. -/
theorem C128_vega_differs : (exOrder exMulti).1 = .ok () ∧
    ((exOrder (exMulti.through (Ret.vec (reorder [1, 0])))).1 = .ok () ∧
      ¬ setGenes (exOrder (exMulti.through (Ret.vec (reorder [1, 0])))).2 ⊆ setGenes (exOrder exMulti).2) ∧
    (exOrder (exMulti.through (Ret.vec (withExtra fun l => l.getD 0 0)))).1 = .ok () ∧
      ¬ setGenes (exOrder (exMulti.through (Ret.vec (withExtra fun l => l.getD 0 0)))).2 ⊆ setGenes (exOrder exMulti).2 := by
  refine ⟨by decide +kernel, ⟨by decide +kernel, ?_⟩, by decide +kernel, ?_⟩ <;>
  · rw [List.subset_def]; decide +kernel

/-- Two objectives, the second one listed first. -/
example : ([1, 0] : List Nat).Perm (List.range ([1, 0] : List Nat).length) ∧
    (∀ p xs, exMulti.obj1 p = .ok (.tup xs) → xs.length = ([1, 0] : List Nat).length) ∧ Unconstrained exMulti ({} : St ℚ) ∧ reorder [1, 0] [3, 4] = [4, 3] := by
  refine ⟨by decide, fun p xs h => ?_, .inl rfl, rfl⟩
  show xs.length = 2
  rw [exTwo_uniform p [.num 0] xs _ h rfl]; rfl

/-- A third objective: the sum of the first two, weighted, or the larger one. -/
example : (∀ xs ys : List ℚ, AsGood xs ys → 2 * xs.getD 0 0 + 3 * xs.getD 1 0 ≤ 2 * ys.getD 0 0 + 3 * ys.getD 1 0) ∧
    ∀ xs ys : List ℚ, AsGood xs ys → max (xs.getD 0 0) (xs.getD 1 0) ≤ max (ys.getD 0 0) (ys.getD 1 0) := by
  have key : ∀ (i : Nat) (xs ys : List ℚ), AsGood xs ys → xs.getD i 0 ≤ ys.getD i 0 := by
    intro i xs ys h
    induction h generalizing i with
    | nil => exact le_rfl
    | cons h _ ih => cases i with
      | zero => exact h
      | succ i => exact ih i
  refine ⟨fun xs ys h => ?_, fun xs ys h => max_le_max (key 0 _ _ h) (key 1 _ _ h)⟩
  have := key 0 _ _ h
  have := key 1 _ _ h
  linarith

end BaumEva
