import Verif.Spec.RunRank
import Verif.Proofs.RunRanks
/-!
# The run ranks: the runs they are means of, monotonicity, sum
-/
namespace BaumEva
open Spec

theorem get_eq_getD {sc : List ℚ} {j : Nat} (h : j < sc.length) : sc[j]? = some (sc.getD j 0) := by
  rw [List.getD_eq_getElem?_getD, List.getElem?_eq_getElem h]; rfl

theorem runAround_eq {sc : List ℚ} {a b j : Nat} (h : MaxRun sc a b) (ha : a ≤ j) (hb : j < b) : runAround sc j = List.range' a (b - a) := by
  have hle := h.le
  have hlt := h.lt
  have key : ∀ i, i < sc.length → ((∀ k ∈ List.range sc.length, min i j ≤ k → k ≤ max i j → sc[k]? = sc[j]?) ↔ a ≤ i ∧ i < b) := by
    intro i hi
    constructor
    · intro hk
      have hk' : ∀ k, k < sc.length → min i j ≤ k → k ≤ max i j → sc.getD k 0 = sc.getD a 0 := by
        intro k h1 h2 h3
        have := hk k (List.mem_range.mpr h1) h2 h3
        rw [get_eq_getD h1, get_eq_getD (by omega)] at this
        injection this with this
        rw [this, h.eq j ha hb]
      constructor
      · by_contra hc
        rcases h.left with h0 | h0
        · omega
        · exact h0 (hk' (a - 1) (by omega) (by omega) (by omega))
      · by_contra hc
        rcases h.right with h0 | h0
        · omega
        · exact h0 (hk' b (by omega) (by omega) (by omega))
    · rintro ⟨h1, h2⟩ k hk h3 h4
      have hk := List.mem_range.mp hk
      rw [get_eq_getD hk, get_eq_getD (by omega), h.eq k (by omega) (by omega), h.eq j ha hb]
  unfold runAround
  rw [List.filter_congr (q := fun i => decide (a ≤ i ∧ i < b)) (by
    intro i hi
    exact decide_eq_decide.mpr (key i (List.mem_range.mp hi)))]
  have hsplit : List.range sc.length = List.range' 0 a ++ (List.range' a (b - a) ++ List.range' b (sc.length - b)) := by
    have h1 := List.range'_append_1 (s := 0) (m := a) (n := sc.length - a)
    have h2 := List.range'_append_1 (s := a) (m := b - a) (n := sc.length - b)
    rw [show b - a + (sc.length - b) = sc.length - a by omega, show a + (b - a) = b by omega] at h2
    rw [show a + (sc.length - a) = sc.length by omega, Nat.zero_add, ← h2] at h1
    rw [List.range_eq_range', ← h1]
  rw [hsplit, List.filter_append, List.filter_append, List.filter_eq_nil_iff.mpr, List.filter_eq_self.mpr, List.filter_eq_nil_iff.mpr]
  · simp
  · intro x hx
    rw [List.mem_range'_1] at hx
    simp; omega
  · intro x hx
    rw [List.mem_range'_1] at hx
    simp; omega
  · intro x hx
    rw [List.mem_range'_1] at hx
    simp; omega

theorem runRank_half {sc : List ℚ} {a b j : Nat} (h : MaxRun sc a b) (ha : a ≤ j) (hb : j < b) : runRank sc j = ((a + b + 1 : Nat) : ℚ) / 2 := by
  have hs : ∀ n a : Nat, 2 * ((List.range' a n).map (fun i : Nat => (i : ℚ) + 1)).sum = n * (2 * a + n + 1) := by
    intro n
    induction n with
    | zero => intro a; simp
    | succ n ih => intro a; rw [List.range'_succ, List.map_cons, List.sum_cons, mul_add, ih]; push_cast; ring
  unfold runRank
  rw [runAround_eq h ha hb, List.length_range']
  obtain ⟨n, rfl⟩ : ∃ n, b = a + (n + 1) := ⟨b - a - 1, by have := h.lt; omega⟩
  rw [show a + (n + 1) - a = n + 1 by omega, div_eq_div_iff (by positivity) (by norm_num)]
  have := hs (n + 1) a
  push_cast at this ⊢
  linarith

theorem runRank_tie {sc : List ℚ} : ∀ a b, MaxRun sc a b → ∀ j, a ≤ j → j < b → runRank sc j = tieRank (a : Int) (b : Int) (b - a) := by
  intro a b h j ha hb
  rw [runRank_half h ha hb, tieRank_half h.lt]

theorem runRank_pos {sc : List ℚ} {j : Nat} (hj : j < sc.length) : 0 < runRank sc j := by
  obtain ⟨a, b, h, ha, hb⟩ := exists_maxRun hj
  rw [runRank_half h ha hb]
  positivity

/-- Of two positions the later one never has the smaller rank, and it has a larger one if scores change on the way. -/
theorem runRank_mono {sc : List ℚ} {i j : Nat} (hij : i ≤ j) (hj : j < sc.length) :
    runRank sc i ≤ runRank sc j ∧ (sc.getD i 0 ≠ sc.getD j 0 → runRank sc i + 1 ≤ runRank sc j) := by
  obtain ⟨a, b, h, ha, hb⟩ := exists_maxRun (sc := sc) (j := i) (by omega)
  obtain ⟨c, d, h', hc, hd⟩ := exists_maxRun hj
  rw [runRank_half h ha hb, runRank_half h' hc hd]
  by_cases hjb : j < b
  · obtain ⟨rfl, rfl⟩ := h.unique h' (by omega) hjb hc hd
    refine ⟨le_rfl, fun hne => absurd ?_ hne⟩
    rw [h.eq i ha hb, h.eq j (by omega) hjb]
  · have hbc : b ≤ c := by
      by_contra hlt
      obtain ⟨rfl, rfl⟩ := h.unique h' (j := max a c) (by omega) (by have := h.lt; omega) (by omega) (by omega)
      omega
    have h1 := h.lt
    have h2 := h'.lt
    have h3 : a + 1 ≤ c := by omega
    have h4 : b + 1 ≤ d := by omega
    have : ((a + b + 1 : Nat) : ℚ) + 2 ≤ ((c + d + 1 : Nat) : ℚ) := by exact_mod_cast (by omega : a + b + 1 + 2 ≤ c + d + 1)
    constructor
    · linarith
    · intro _; linarith

theorem runRank_sum_to {sc : List ℚ} : ∀ b, b ≤ sc.length → (b = 0 ∨ b = sc.length ∨ sc.getD b 0 ≠ sc.getD (b - 1) 0) →
    ((List.range b).map (runRank sc)).sum = (b : ℚ) * (b + 1) / 2 := by
  intro b
  induction b using Nat.strong_induction_on with
  | _ b ih =>
    intro hb hend
    by_cases h0 : b = 0
    · subst h0; simp
    · obtain ⟨a, d, h, ha, hd⟩ := exists_maxRun (sc := sc) (j := b - 1) (by omega)
      have hdb : d = b := by
        by_contra hne
        have hlt : b < d := by omega
        have hle := h.le
        rcases hend with e | e | e
        · omega
        · omega
        · exact e (by rw [h.eq b (by omega) hlt, h.eq (b - 1) ha hd])
      subst hdb
      have hlt := h.lt
      have hA := ih a hlt (by omega) (by
        rcases h.left with e | e
        · exact .inl e
        · exact .inr (.inr (Ne.symm e)))
      have hsplit : List.range d = List.range a ++ List.range' a (d - a) := by
        rw [List.range_eq_range', List.range_eq_range']
        have := List.range'_append_1 (s := 0) (m := a) (n := d - a)
        rw [show a + (d - a) = d by omega, Nat.zero_add] at this
        exact this.symm
      rw [hsplit, List.map_append, List.sum_append, hA]
      have hrep : (List.range' a (d - a)).map (runRank sc) = List.replicate (d - a) (((a + d + 1 : Nat) : ℚ) / 2) := by
        apply List.eq_replicate_iff.mpr
        refine ⟨by simp, fun x hx => ?_⟩
        obtain ⟨i, hi, rfl⟩ := List.mem_map.mp hx
        rw [List.mem_range'_1] at hi
        exact runRank_half h hi.1 (by omega)
      rw [hrep, List.sum_replicate, nsmul_eq_mul]
      obtain ⟨n, rfl⟩ : ∃ n, d = a + n := ⟨d - a, by omega⟩
      rw [Nat.add_sub_cancel_left]
      push_cast
      ring

theorem runRank_sum (sc : List ℚ) : ((List.range sc.length).map (runRank sc)).sum = (sc.length : ℚ) * (sc.length + 1) / 2 :=
  runRank_sum_to _ le_rfl (.inr (.inl rfl))

end BaumEva
