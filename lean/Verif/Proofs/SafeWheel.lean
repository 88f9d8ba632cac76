import Verif.Proofs.Facade
import Verif.Proofs.SafeMulti
import Verif.Props.Float
/-!
# The roulette in machine arithmetic raises nothing for random numbers below the last entry of its wheel
-/
namespace BaumEva
open Spec
variable {σ : Type}

/-- All draws, those of the seeded generator included, satisfy `D`. -/
def Modest (D : Nat → Prop) (s : St σ) : Prop := (∀ x ∈ s.tape, D x) ∧ ∀ t, s.seed = some t → ∀ x ∈ t, D x

theorem modest_frame (D : Nat → Prop) : Frame (fun s s' : St σ => Modest D s → Modest D s') where
  step := ⟨fun _ h => h, fun h1 h2 h => h2 (h1 h)⟩
  tape := fun s x t e h => ⟨fun y hy => h.1 y (by rw [e]; exact List.mem_cons_of_mem _ hy), h.2⟩
  seeded := fun s t e h => ⟨h.2 t e, h.2⟩
  heap := fun _ _ _ h => h
  ga := fun _ _ _ h => h
  mutLvl := fun _ _ h => h
  calls := fun _ _ h => h
  snaps := fun _ _ h => h

/-- The wheel answers a position below `n` for all draws that satisfy `D`. -/
def WheelOn (D : Nat → Prop) (rnd : ℚ → ℚ) (sel : List ℚ) (n : Nat) : Prop :=
  ∀ x, D x → ∃ i : Nat, rouletteIndexR rnd sel (((x % 2 ^ 53 : Nat) : ℚ) / ((2 ^ 53 : Nat) : ℚ)) = (i : Int) ∧ i < n

theorem getIndex_tape {sel : List ℚ} {s s' : St σ} {i : Int} (h : getIndex sel s = (.ok i, s')) :
    ∃ x t, s.tape = x :: t ∧ s' = { s with tape := t } ∧
      i = rouletteIndexR s.ga.attrs.arith.rnd sel (((x % 2 ^ 53 : Nat) : ℚ) / ((2 ^ 53 : Nat) : ℚ)) := by
  unfold getIndex at h
  rw [bind_of_ok (getGa_run s)] at h
  obtain ⟨r, s1, h1, h2⟩ := bind_ok.mp h
  obtain ⟨rfl, rfl⟩ := pure_ok.mp h2
  unfold random01 draw at h1
  obtain ⟨x, s2, h3, h4⟩ := bind_ok.mp h1
  obtain ⟨rfl, rfl⟩ := pure_ok.mp h4
  cases ht : s.tape with
  | nil => rw [ht] at h3; cases h3
  | cons y t =>
    rw [ht] at h3
    obtain ⟨e1, e2⟩ := Prod.mk.inj h3
    injection e1 with e1
    subst e1
    exact ⟨y, t, rfl, e2.symm, rfl⟩

theorem secondIndex_tape {sel : List ℚ} {first : Int} : ∀ {f : Nat} {s s' : St σ} {i : Int},
    secondIndex sel first f s = (.ok i, s') → (∃ x ∈ s.tape,
      i = rouletteIndexR s.ga.attrs.arith.rnd sel (((x % 2 ^ 53 : Nat) : ℚ) / ((2 ^ 53 : Nat) : ℚ))) ∧
      ∃ t, s' = { s with tape := t } ∧ t <:+ s.tape := by
  intro f
  induction f with
  | zero => intro s s' r h; rw [secondIndex, throwE_ok] at h; exact h.elim
  | succ f ih =>
    intro s s' i h
    rw [secondIndex] at h
    obtain ⟨b, s1, h1, h2⟩ := bind_ok.mp h
    obtain ⟨x, t, e1, rfl, e3⟩ := getIndex_tape h1
    rw [ite_run] at h2
    split at h2
    · obtain ⟨rfl, rfl⟩ := pure_ok.mp h2
      exact ⟨⟨x, by rw [e1]; simp, e3⟩, t, rfl, by rw [e1]; exact List.suffix_cons _ _⟩
    · obtain ⟨⟨y, y1, y2⟩, t', e4, e5⟩ := ih h2
      refine ⟨⟨y, by rw [e1]; exact List.mem_cons_of_mem _ y1, y2⟩, t', e4, ?_⟩
      rw [e1]
      exact e5.trans (List.suffix_cons _ _)

theorem roulettePair_safe_on {D : Nat → Prop} {n : Nat} {sel : List ℚ} {s : St σ} (hw : WheelOn D s.ga.attrs.arith.rnd sel n)
    (hD : ∀ x ∈ s.tape, D x) (hlen : s.ga.population.length = n) : Safe (roulettePair sel) s := by
  have hat : ∀ {i : Int} {x : St σ}, x.ga.population = s.ga.population →
      (∃ y ∈ s.tape, i = rouletteIndexR s.ga.attrs.arith.rnd sel (((y % 2 ^ 53 : Nat) : ℚ) / ((2 ^ 53 : Nat) : ℚ))) → Safe (popAt i) x := by
    rintro i x hp ⟨y, hy, rfl⟩
    obtain ⟨j, e, hj⟩ := hw y (hD y hy)
    unfold popAt
    refine Safe.bind_ok (getGa_run x) ?_
    rw [e, pyGet?_nat, hp, List.getElem?_eq_getElem (by omega)]
    exact Safe.pure _ _
  unfold roulettePair
  refine Safe.bind (getIndex_safe sel s) ?_
  intro i s1 h1
  obtain ⟨x, t, e1, rfl, e3⟩ := getIndex_tape h1
  refine Safe.bind_ok (getS_run _) (Safe.bind (secondIndex_safe (Nat.lt_succ_self _)) ?_)
  intro j s2 h2
  obtain ⟨⟨y, y1, y2⟩, t', rfl, _⟩ := secondIndex_tape h2
  refine Safe.bind (hat rfl ⟨x, by rw [e1]; simp, e3⟩) ?_
  intro a s3 h3
  obtain ⟨_, rfl⟩ := popAt_ok.mp h3
  refine Safe.bind (addParent_safe _ _) ?_
  intro u s4 h4
  have c1 := addParent_copied h4
  exact Safe.bind (hat (by rw [c1.ga]) ⟨y, by rw [e1]; exact List.mem_cons_of_mem _ y1, y2⟩) (fun _ _ _ => addParent_safe _ _)

theorem roulette_safe_on {D : Nat → Prop} {n : Nat} {sel : List ℚ} {m : Nat} {s : St σ} (hw : WheelOn D s.ga.attrs.arith.rnd sel n)
    (hD : Modest D s) (hal : ∀ r ∈ s.ga.population, r < s.next) (hlen : s.ga.population.length = n) : Safe (roulette sel m) s := by
  unfold roulette
  refine Safe.bind_ok (getGa_run s) ?_
  refine Safe.forEach (fun s => WheelOn D s.ga.attrs.arith.rnd sel n ∧ Modest D s ∧ s.ga.population.length = n ∧
    ∀ r ∈ s.ga.population, r < s.next) ?_ ?_ ⟨hw, hD, hlen, hal⟩
  · rintro _ _ s1 ⟨w, d, a, _⟩
    exact roulettePair_safe_on w d.1 a
  · rintro _ _ s1 s2 ⟨w, d, a, b⟩ h
    obtain ⟨x, y, hc, _⟩ := roulettePair_ok b h
    have hm := Keeps.ok (roulettePair_frame (modest_frame D).toQuiet.still.calm sel) h d
    rw [hc.ga]
    exact ⟨w, hm, a, fun r hr => (b r hr).trans_le (by rw [hc.next]; omega)⟩

/-- What follows the preparations raises nothing with positive weights if no random number is among the `8 n` largest. -/
theorem spin_safe_on {B : Nat} {w : Ind σ → Except PyErr ℚ} {m : Nat} {s : St σ}
    (R : Rounding s.ga.attrs.arith.rnd) (hD : Modest (fun x => x % 2 ^ 53 + 8 * B < 2 ^ 53) s)
    (hB : s.ga.population.length ≤ B) (hB2 : 16 * B ≤ 2 ^ 53) (hal : ∀ r ∈ s.ga.population, r < s.next) (hne : s.ga.population ≠ [])
    (hpos : ∀ r ∈ s.ga.population, ∃ q, w (s.heap r) = .ok q ∧ 0 < q) : Safe (spin w m) s := by
  unfold spin
  refine Safe.bind ?_ ?_
  · unfold weights
    refine Safe.bind_ok (getGa_run s) (Safe.mapEach (fun x => x = s) ?_ ?_ rfl)
    · rintro r hm _ rfl
      obtain ⟨q, hq, _⟩ := hpos r hm
      exact Safe.bind_ok (getInd_run r _) (Safe.liftE_ok hq _)
    · rintro r hm _ s' y rfl hy
      rw [bind_of_ok (getInd_run r _)] at hy
      exact (liftE_ok.mp hy).2
  intro ws s2 h2
  obtain ⟨rfl, hws⟩ := weights_ok h2
  have hall : ∀ q ∈ ws, 0 < q := by
    intro q hq
    obtain ⟨r, hm, hrq⟩ := forall₂_mem hws hq
    obtain ⟨q', hq', h0⟩ := hpos r hm
    rw [hq'] at hrq
    injection hrq with hrq
    rw [← hrq]; exact h0
  have hwne : ws ≠ [] := by
    rintro rfl
    exact hne (List.length_eq_zero_iff.mp (by rw [hws.length_eq]; rfl))
  have hl : ws.length ≤ B := by rw [← hws.length_eq]; exact hB
  have hn : (ws.length : ℚ) * (16 * ulp) ≤ 1 := by
    have : ((16 * ws.length : Nat) : ℚ) ≤ 2 ^ 53 := by exact_mod_cast (by omega : 16 * ws.length ≤ 2 ^ 53)
    push_cast at this
    unfold ulp
    linarith
  refine Safe.bind_ok (getGa_run s2) ?_
  have hT := C93_float_total R (fun q hq => (hall q hq).le) hn
  have hsum : 0 < ws.sum := List.sum_pos ws hall hwne
  have hTp : sumR s2.ga.attrs.arith.rnd ws 0 ≠ 0 := by
    intro e
    rw [e, zero_sub, abs_neg, abs_of_pos hsum] at hT
    have : (ws.length : ℚ) * (2 * ulp) ≤ 1 / 8 := by linarith
    have := mul_le_mul_of_nonneg_right this hsum.le
    linarith
  have hsel : selectionScoresR s2.ga.attrs.arith.rnd (sumR s2.ga.attrs.arith.rnd ws 0) ws =
      .ok (0 :: cumSharesR s2.ga.attrs.arith.rnd (sumR s2.ga.attrs.arith.rnd ws 0) ws 0) := by
    unfold selectionScoresR
    rw [if_neg (by rintro ⟨_, e⟩; exact hTp e)]
  refine Safe.bind (Safe.liftE_ok hsel _) ?_
  intro sel' s3 h3
  rw [hsel] at h3
  obtain ⟨e, rfl⟩ := liftE_ok.mp h3
  injection e with e
  subst e
  obtain ⟨top, _, _, _, hk⟩ := C93_float_index_partial R hwne hall hn hT hsel
  refine roulette_safe_on (n := ws.length) ?_ hD hal hws.length_eq
  intro x hx
  have hx : x % 2 ^ 53 + 8 * B < 2 ^ 53 := hx
  have := hk (x % 2 ^ 53) (by omega)
  push_cast at this ⊢
  exact this

/-- The roulette with positive weights raises nothing if no random number is among the `8 n` largest. -/
theorem balanced_safe_on {B : Nat} {w : Ind σ → Except PyErr ℚ} (hw : ∀ a b, SameCore a b → w b = w a) {m : Nat} {s : St σ}
    (R : Rounding s.ga.attrs.arith.rnd) (hD : Modest (fun x => x % 2 ^ 53 + 8 * B < 2 ^ 53) s)
    (hB : s.ga.population.length ≤ B) (hB2 : 16 * B ≤ 2 ^ 53) (hal : ∀ r ∈ s.ga.population, r < s.next) (hne : s.ga.population ≠ [])
    (hpos : ∀ r ∈ s.ga.population, ∃ q, w (s.heap r) = .ok q ∧ 0 < q) : Safe (balancedWith (pure ()) w m) s := by
  unfold balancedWith
  obtain ⟨s1, e1⟩ := baseSelection_run s
  obtain ⟨hr, _⟩ := baseSelection_relabelled e1
  have hD1 := Keeps.ok (baseSelection_frame (modest_frame _).toQuiet.still) e1 hD
  have hp : s1.ga.population = s.ga.population := by rw [hr.ga]
  refine Safe.bind_ok e1 (Safe.bind_ok (pure_run () s1) ?_)
  refine spin_safe_on (B := B) (by rw [hr.ga]; exact R) hD1 (by rw [hp]; exact hB) hB2 (by rw [hp, hr.next]; exact hal)
    (by rw [hp]; exact hne) ?_
  intro r hm
  rw [hp] at hm
  obtain ⟨q, hq, h0⟩ := hpos r hm
  exact ⟨q, by rw [hw _ _ (hr.core r)]; exact hq, h0⟩

end BaumEva
