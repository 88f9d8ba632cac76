import Verif.Props.Expected
import Verif.Props.Tours
/-!
# C125: how long a search over permutations takes on average

The counterpart of C119 for `CombinatoryGA`, whose individuals reach a tour only after several generations.
-/
namespace BaumEva
open Spec

/-- A geometric series every term of which is repeated `K` times. -/
theorem blocks_le {δ : ℚ} (h0 : 0 < δ) (h1 : δ ≤ 1) {K : Nat} (hK : 0 < K) (m : Nat) :
    ((List.range m).map fun i => (1 - δ) ^ (i / K)).sum ≤ K / δ := by
  have hq : 0 ≤ 1 - δ := by linarith
  have key : ∀ n, ((List.range (n * K)).map fun i => (1 - δ) ^ (i / K)).sum = K * ((List.range n).map fun i => (1 - δ) ^ i).sum := by
    intro n
    induction n with
    | zero => simp
    | succ n ih =>
      have hblock : ((List.range K).map fun i => (1 - δ) ^ ((n * K + i) / K)) = List.replicate K ((1 - δ) ^ n) := by
        rw [List.eq_replicate_iff]
        refine ⟨by simp, fun b hb => ?_⟩
        obtain ⟨i, hi, rfl⟩ := List.mem_map.mp hb
        rw [List.mem_range] at hi
        have : (n * K + i) / K = n := by
          rw [mul_comm, Nat.mul_add_div hK, Nat.div_eq_of_lt hi, Nat.add_zero]
        rw [this]
      rw [Nat.succ_mul, List.range_add, List.map_append, List.sum_append, ih, List.range_succ, List.map_append, List.sum_append, List.map_map]
      simp only [Function.comp_def]
      rw [hblock, List.sum_replicate, nsmul_eq_mul]
      simp only [List.map_cons, List.map_nil, List.sum_cons, List.sum_nil]
      ring
  have hmono : ((List.range m).map fun i => (1 - δ) ^ (i / K)).sum ≤ ((List.range (m * K)).map fun i => (1 - δ) ^ (i / K)).sum := by
    obtain ⟨d, hd⟩ := Nat.exists_eq_add_of_le (Nat.le_mul_of_pos_right m hK)
    rw [hd, List.range_add, List.map_append, List.sum_append]
    refine le_add_of_nonneg_right (List.sum_nonneg fun v hv => ?_)
    obtain ⟨i, _, rfl⟩ := List.mem_map.mp hv
    exact pow_nonneg hq _
  refine hmono.trans ?_
  rw [key, div_eq_mul_one_div]
  exact mul_le_mul_of_nonneg_left (geometric_le h0 h1 m) (by positivity)

/-- A number with a tail that shrinks once every `K` steps. -/
theorem mean_blocks {B L : Nat} {f : List Nat → Nat} {δ : ℚ} (h0 : 0 < δ) (h1 : δ ≤ 1) {K : Nat} (hK : 0 < K)
    (h : ∀ n, chance B L (fun t => n + 1 ≤ f t) ≤ (1 - δ) ^ (n / K)) : mean B L f ≤ K / δ := by
  obtain ⟨m, hm⟩ := mean_tails B L f
  rw [hm]
  exact le_trans (List.sum_le_sum fun i _ => h i) (blocks_le h0 h1 hK m)

/-- C125: the expected number of generations before the first that contains a given tour has a bound that depends only on the values,
the number of children, the size of a tournament and the number of values a draw can take. -/
theorem C125_tour {a b : Int} (hab : a + 2 ≤ b) : ∃ D : Nat, ∀ {c : Cfg} {ov : Option ℚ} {s : St ℚ},
    Admissible (.combinatory a b (b - a + 1)) c s.conds → c.arith = .exact → s.seed = none → c.tournamentSize < (c.children : Int) →
    (SingleFacade.combinatory a b (b - a + 1)).Uncertain c.mutationLvl →
    ∀ {B : Nat}, max c.numIndivid c.children < B → 1000 ≤ B → b - a + 1 ≤ (B : Int) →
    ∀ {x : List Val}, IsTrack a b (b - a + 1) x → ∀ L : Nat,
    mean B L (waits (combinatoryGA c a b (b - a + 1) ov) s fun l => ∃ y ∈ l, y.genotype = some x) ≤
      (D + 1) * ((B : ℚ) ^ (c.children * (2 * c.tournamentSize.toNat + 6))) ^ (D + 1) := by
  obtain ⟨D, hD⟩ := C123_late hab
  refine ⟨D, fun {c ov s} ha hxa hseed hch hun {B} hroom hth hlong {x} hx L => ?_⟩
  have hB1 : (1 : ℚ) ≤ B := by exact_mod_cast (by omega : 1 ≤ B)
  have hpos : 0 < ((1 / (B : ℚ)) ^ (c.children * (2 * c.tournamentSize.toNat + 6))) ^ (D + 1) := by positivity
  have hle : ((1 / (B : ℚ)) ^ (c.children * (2 * c.tournamentSize.toNat + 6))) ^ (D + 1) ≤ 1 :=
    pow_le_one₀ (by positivity) (pow_le_one₀ (by positivity) (by rw [div_le_one (by linarith)]; exact hB1))
  refine (mean_blocks hpos hle (Nat.succ_pos D) fun n => ?_).trans (le_of_eq ?_)
  · refine le_trans (chance_mono fun t ht => ?_) (hD (ov := ov) ha hxa hseed hch hun hroom hth hlong hx (n / (D + 1)) L)
    obtain ⟨s', h, hn, hno⟩ := waits_run (fun s' h => SingleFacade.snaps_length (f := .combinatory a b (b - a + 1)) h) ht
    have := Nat.div_mul_le_self n (D + 1)
    refine ⟨s', h, by omega, fun l hl y hy e => hno l ?_ ⟨y, hy, e⟩⟩
    exact (List.take_sublist_take_left (by omega)).subset hl
  · rw [one_div, inv_pow, inv_pow, div_inv_eq_mul]
    push_cast
    ring

/-- C125: in an unconstrained task in which `x` is an optimum, the same bounds the expected value of
`best_solution['idx_generation']`. -/
theorem C125_found {a b : Int} (hab : a + 2 ≤ b) : ∃ D : Nat, ∀ {c : Cfg} {ov : Option ℚ} {s : St ℚ},
    Admissible (.combinatory a b (b - a + 1)) c s.conds → c.arith = .exact → ¬ Constrained c s.conds → s.seed = none →
    c.tournamentSize < (c.children : Int) → (SingleFacade.combinatory a b (b - a + 1)).Uncertain c.mutationLvl →
    ∀ {B : Nat}, max c.numIndivid c.children < B → 1000 ≤ B → b - a + 1 ≤ (B : Int) →
    ∀ {x : List Val} {o : ℚ}, IsTrack a b (b - a + 1) x → c.objective x = .ok (.sc o) →
    (∀ z oz, IsTrack a b (b - a + 1) z → c.objective z = .ok (.sc oz) → cost ov o ≤ cost ov oz) → ∀ L : Nat,
    mean B L ((SingleFacade.combinatory a b (b - a + 1)).found c ov s) ≤
      (D + 1) * ((B : ℚ) ^ (c.children * (2 * c.tournamentSize.toNat + 6))) ^ (D + 1) := by
  obtain ⟨D, hD⟩ := C125_tour hab
  refine ⟨D, fun {c ov s} ha hxa hu hseed hch hun {B} hroom hth hlong {x o} hx ho hopt L => ?_⟩
  exact le_trans (mean_mono fun t => SingleFacade.found_le ha hxa hu ho hopt t) (hD (ov := ov) ha hxa hseed hch hun hroom hth hlong hx L)

/-! ## A concrete case -/

theorem exWalk_uncertain : (SingleFacade.combinatory 0 2 (2 - 0 + 1)).Uncertain (.float (1 / 100)) :=
  ⟨fun q hq => by
    injection hq with hq
    rw [← hq]; norm_num, fun h => by cases h⟩

/-- One number bounds the expected wait for a tour that ends in 2, however long the run is. -/
example : ∃ W : ℚ, ∀ m L : Nat, mean 1000 L ((SingleFacade.combinatory 0 2 (2 - 0 + 1)).found (exWalkCfg m) none {}) ≤ W := by
  obtain ⟨D, hD⟩ := C125_found (a := 0) (b := 2) (by norm_num)
  have hc : ∀ m, (exWalkCfg m).children = 3 := fun m => show ({ exCfg with childrenPercent := 3 / 4 } : Cfg).children = 3 by decide +kernel
  refine ⟨(D + 1) * ((1000 : ℚ) ^ (3 * (2 * 2 + 6))) ^ (D + 1), fun m L => ?_⟩
  have := hD (c := exWalkCfg m) (ov := none) (s := {}) (exTour_admissible m) rfl (by rintro ⟨h, _⟩; cases h) rfl
    (by rw [hc]; exact (by decide : (2 : Int) < 3)) exWalk_uncertain (B := 1000) (by rw [hc]; exact (by decide : max 4 3 < 1000)) le_rfl
    (by norm_num) exTour_track (o := 0) rfl (fun z oz _ ho => by
      have ho : (.ok (.sc (if z[2]? = some (Val.num 2) then 0 else if z[1]? = some (Val.num 2) then 1 else 2)) : Except PyErr Ret) = .ok (.sc oz) := ho
      injection ho with ho
      injection ho with ho
      rw [← ho]
      show (0 : ℚ) ≤ _
      split_ifs <;> simp [cost]) L
  rw [hc] at this
  exact this

end BaumEva
