import Verif.Proofs.Ranked
import Verif.Proofs.SafeWheel
/-!
# Ranked selection raises nothing
-/
namespace BaumEva
open Spec
variable {σ : Type}

section
variable {key rd : Ind σ → Except PyErr ℚ} {setRank : ℚ → Ind σ → Ind σ} {Ready : Ind σ → Prop} {P : ℚ → Prop}

/-- Every member has a score and room for a rank. -/
def Rankable (key : Ind σ → Except PyErr ℚ) (Ready : Ind σ → Prop) (s : St σ) : Prop :=
  ∀ r ∈ s.ga.population, (∃ v, key (s.heap r) = .ok v) ∧ Ready (s.heap r)

/-- The individual has a rank with the property `P`. -/
def RankIs (rd : Ind σ → Except PyErr ℚ) (P : ℚ → Prop) (x : Ind σ) : Prop := ∃ q, rd x = .ok q ∧ P q

/-- The individual has a positive rank. -/
abbrev PosRank (rd : Ind σ → Except PyErr ℚ) (x : Ind σ) : Prop := RankIs rd (0 < ·) x

/-- All ranks that can be written in a population of `n` have the property `P`: a tie group may start one position before the first. -/
structure Fair (P : ℚ → Prop) (rnd : ℚ → ℚ) (n : Nat) : Prop where
  alone : ∀ i < n, P ((i : ℚ) + 1)
  tied : ∀ (a : Int) (c : Nat), -1 ≤ a → 2 ≤ c → a + c ≤ n → P (rnd (tieRank a (a + c) c))

/-- Only ranks of members were written, and only such with the property `P`. -/
structure Raises (key rd : Ind σ → Except PyErr ℚ) (Ready : Ind σ → Prop) (P : ℚ → Prop) (s s' : St σ) : Prop where
  ga : s'.ga = s.ga
  ready : Rankable key Ready s → Rankable key Ready s'
  keep : Rankable key Ready s → ∀ r ∈ s.ga.population, RankIs rd P (s.heap r) → RankIs rd P (s'.heap r)

theorem Raises.refl (s : St σ) : Raises key rd Ready P s s := ⟨rfl, id, fun _ _ _ h => h⟩

theorem Raises.trans {a b c : St σ} (h1 : Raises key rd Ready P a b) (h2 : Raises key rd Ready P b c) : Raises key rd Ready P a c :=
  ⟨h2.ga.trans h1.ga, fun h => h2.ready (h1.ready h),
    fun h r hr hp => h2.keep (h1.ready h) r (by rw [h1.ga]; exact hr) (h1.keep h r hr hp)⟩

theorem setOne_raises (ops : RankOps key setRank rd Ready) {q : ℚ} (hq : P q) {r : Nat} {s : St σ}
    (hr : r ∈ s.ga.population) (hs : Rankable key Ready s) :
    Raises key rd Ready P s { s with heap := upd s.heap r (setRank q (s.heap r)) } ∧
      RankIs rd P (upd s.heap r (setRank q (s.heap r)) r) := by
  have hnew : RankIs rd P (setRank q (s.heap r)) := ⟨q, ops.rd_set _ _ (hs r hr).2, hq⟩
  refine ⟨⟨rfl, ?_, ?_⟩, by rw [upd_same]; exact hnew⟩
  · intro _ x hx
    by_cases e : x = r
    · subst e
      simp only [upd_same, ops.key_set]
      exact ⟨(hs x hx).1, ops.ready _ _ (hs x hx).2⟩
    · simp only [upd_ne e]
      exact hs x hx
  · intro _ x _ hp
    by_cases e : x = r
    · subst e; simp only [upd_same]; exact hnew
    · simp only [upd_ne e]; exact hp

theorem popAt_run_int {i : Int} {s : St σ} (h1 : -1 ≤ i) (h2 : i < s.ga.population.length) (hne : s.ga.population ≠ []) :
    ∃ r ∈ s.ga.population, popAt i s = (.ok r, s) := by
  have hn := List.length_pos_of_ne_nil hne
  have : ∃ r, pyGet? s.ga.population i = some r := by
    unfold pyGet?
    by_cases h0 : 0 ≤ i
    · rw [if_pos h0]
      exact ⟨_, List.getElem?_eq_getElem (by omega)⟩
    · rw [if_neg h0, if_pos (by omega)]
      exact ⟨_, List.getElem?_eq_getElem (by omega)⟩
  obtain ⟨r, hr⟩ := this
  exact ⟨r, pyGet?_mem hr, popAt_ok.mpr ⟨hr, rfl⟩⟩

theorem writes_raises (ops : RankOps key setRank rd Ready) {q : ℚ} (hq : P q) : ∀ (L : List Int) {s : St σ},
    Rankable key Ready s → s.ga.population ≠ [] → (∀ i ∈ L, -1 ≤ i ∧ i < s.ga.population.length) →
    ∃ s', forEach L (fun i => do let r ← popAt i; modInd r (setRank q)) s = (.ok (), s') ∧ Raises key rd Ready P s s' := by
  intro L
  induction L with
  | nil => intro s _ _ _; exact ⟨s, rfl, Raises.refl s⟩
  | cons i L ih =>
    intro s hs hne hL
    obtain ⟨h1, h2⟩ := hL i List.mem_cons_self
    obtain ⟨r, hr, e⟩ := popAt_run_int h1 h2 hne
    obtain ⟨hR, _⟩ := setOne_raises ops hq hr hs
    obtain ⟨s', e', hR'⟩ := ih (hR.ready hs) hne (fun j hj => hL j (List.mem_cons_of_mem _ hj))
    refine ⟨s', ?_, hR.trans hR'⟩
    rw [forEach, bind_of_ok (bind_of_ok e |>.trans (modInd_run _ _ _))]
    exact e'

theorem pyRange_unit_mem {a b i : Int} (h : i ∈ pyRange a b 1) : a ≤ i ∧ i < b := by
  unfold pyRange at h
  obtain ⟨j, hj, rfl⟩ := List.mem_map.mp h
  rw [List.mem_range] at hj
  unfold rangeLen at hj
  rw [if_pos (by omega)] at hj
  simp at hj
  omega

/-- The mean rank of a tie group that may start one position before the first. -/
theorem tieRank_ge {a : Int} {c : Nat} (ha : -1 ≤ a) (hc : 2 ≤ c) : 1 / 2 ≤ tieRank a (a + c) c := by
  have hl : (rangeLen a (a + c) 1).toNat = c := by
    unfold rangeLen
    rw [if_pos (by omega)]
    simp
  have hs : ∀ n : Nat, 2 * ((List.range n).map fun i : Nat => a + 1 * (i : Int)).sum = 2 * a * n + n * (n - 1 : Int) := by
    intro n
    induction n with
    | zero => simp
    | succ n ih => rw [List.range_succ, List.map_append, List.sum_append, mul_add, ih]; push_cast; simp; ring
  have h2 : 2 * (pyRange a (a + c) 1).sum = 2 * a * c + c * (c - 1 : Int) := by
    unfold pyRange
    rw [hl]
    have := hs c
    simp only [one_mul] at this ⊢
    exact this
  unfold tieRank
  have hc0 : (0 : ℚ) < c := by exact_mod_cast (by omega : 0 < c)
  rw [le_div_iff₀ hc0]
  have h3 : (c : Int) ≤ 2 * ((pyRange a (a + c) 1).sum + c) := by
    have hc' : (2 : Int) ≤ c := by exact_mod_cast hc
    have h4 : 0 ≤ (a + 1) * (c : Int) := mul_nonneg (by omega) (by omega)
    have h5 : 0 ≤ (c : Int) * (c - 2) := mul_nonneg (by omega) (by omega)
    nlinarith
  have h4 : (c : ℚ) ≤ 2 * (((pyRange a (a + c) 1).sum + c : Int) : ℚ) := by exact_mod_cast h3
  linarith

theorem half_le {rnd : ℚ → ℚ} (R : Rounding rnd) {q : ℚ} (h : 1 / 2 ≤ q) : 0 < rnd q := by
  have h1 := R.exact 1 (-1) (by norm_num)
  have h2 : ((1 : Int) : ℚ) * 2 ^ (-1 : Int) = 1 / 2 := by norm_num
  rw [h2] at h1
  have := R.mono h
  rw [h1] at this
  linarith

theorem writeTies_raises (ops : RankOps key setRank rd Ready) {a b : Int} {c : Nat} {s : St σ}
    (R : Fair P s.ga.attrs.arith.rnd s.ga.population.length) (hs : Rankable key Ready s) (hne : s.ga.population ≠ []) (ha : -1 ≤ a) (hc : 2 ≤ c) (hb : b = a + c)
    (hl : b ≤ s.ga.population.length) :
    ∃ s', writeTies setRank a b c s = (.ok (), s') ∧ Raises key rd Ready P s s' := by
  unfold writeTies
  rw [bind_of_ok (getGa_run s)]
  refine writes_raises ops (by rw [hb]; exact R.tied a c ha hc (hb ▸ hl)) _ hs hne ?_
  intro i hi
  have := pyRange_unit_mem hi
  omega

theorem rankedStep_raises (ops : RankOps key setRank rd Ready) {idx count : Nat} {sc prev : ℚ} {s : St σ}
    (R : Fair P s.ga.attrs.arith.rnd s.ga.population.length) (hs : Rankable key Ready s) (hi : idx < s.ga.population.length) (h1 : 1 ≤ count)
    (h2 : count ≤ idx + 1) :
    ∃ c' s', rankedStep setRank s.ga.population.length idx sc prev count s = (.ok c', s') ∧ Raises key rd Ready P s s' ∧
      1 ≤ c' ∧ c' ≤ idx + 2 := by
  have hne : s.ga.population ≠ [] := by intro e; rw [e] at hi; simp at hi
  unfold rankedStep
  by_cases hp : sc = prev
  · rw [ite_run, if_pos hp]
    by_cases hl : idx + 1 = s.ga.population.length
    · rw [ite_run, if_pos hl]
      obtain ⟨s', e, hR⟩ := writeTies_raises (a := (idx : Int) + 1 - (count + 1 : Nat)) (b := (idx : Int) + 1) (c := count + 1)
        ops R hs hne (by push_cast; omega) (by omega) (by push_cast; omega) (by omega)
      exact ⟨count + 1, s', (bind_of_ok e).trans rfl, hR, by omega, by omega⟩
    · rw [ite_run, if_neg hl]
      exact ⟨count + 1, s, rfl, Raises.refl s, by omega, by omega⟩
  · rw [ite_run, if_neg hp]
    by_cases hc : 1 < count
    · rw [ite_run, if_pos hc]
      obtain ⟨s', e, hR⟩ := writeTies_raises (a := (idx : Int) - count) (b := idx) (c := count) ops R hs hne (by omega) (by omega)
        (by omega) (by omega)
      exact ⟨1, s', (bind_of_ok e).trans rfl, hR, le_rfl, by omega⟩
    · rw [ite_run, if_neg hc]
      exact ⟨count, s, rfl, Raises.refl s, h1, by omega⟩

theorem rankedLoop_raises (ops : RankOps key setRank rd Ready) : ∀ (k idx count : Nat) (prev : ℚ) (s : St σ),
    Fair P s.ga.attrs.arith.rnd s.ga.population.length → Rankable key Ready s → idx + k = s.ga.population.length → 1 ≤ count → count ≤ idx + 1 →
    ∃ s', rankedLoop key setRank s.ga.population.length k idx prev count s = (.ok (), s') ∧ Raises key rd Ready P s s' ∧
      ∀ i r, idx ≤ i → s.ga.population[i]? = some r → RankIs rd P (s'.heap r) := by
  intro k
  induction k with
  | zero =>
    intro idx count prev s _ _ hi _ _
    refine ⟨s, rfl, Raises.refl s, ?_⟩
    intro i r h1 h2
    have := (List.getElem?_eq_some_iff.mp h2).1
    omega
  | succ k ih =>
    intro idx count prev s R hs hi h1 h2
    have hlt : idx < s.ga.population.length := by omega
    have hr := List.getElem?_eq_getElem hlt
    have hm := List.getElem_mem hlt
    obtain ⟨hR1, hp1⟩ := setOne_raises ops (R.alone idx hlt) hm hs
    obtain ⟨⟨v, hv⟩, _⟩ := hR1.ready hs _ hm
    obtain ⟨c', s2, e2, hR2, g1, g2⟩ := rankedStep_raises (sc := v) (prev := prev)
      (s := { s with heap := upd s.heap s.ga.population[idx] (setRank ((idx : ℚ) + 1) (s.heap s.ga.population[idx])) })
      ops R (hR1.ready hs) hlt h1 h2
    have hga : s2.ga = s.ga := hR2.ga
    obtain ⟨s3, e3, hR3, hpos⟩ := ih (idx + 1) c' v s2 (by rw [hga]; exact R) (hR2.ready (hR1.ready hs)) (by rw [hga]; omega)
      g1 (by omega)
    rw [hga] at e3 hpos
    refine ⟨s3, ?_, hR1.trans (hR2.trans hR3), ?_⟩
    · rw [rankedLoop, bind_of_ok (popAt_run hr), bind_of_ok (modInd_run _ _ _), bind_of_ok (getInd_run _ _),
        bind_of_ok (liftE_ok.mpr ⟨hv, rfl⟩), bind_of_ok e2]
      exact e3
    · intro i r hi' hri
      by_cases he : i = idx
      · subst he
        rw [hr] at hri
        injection hri with hri
        subst hri
        exact (hR2.trans hR3).keep (hR1.ready hs) _ hm hp1
      · exact hpos i r (by omega) hri

/-- The rank assignment raises nothing and leaves every member with a rank, whatever the scores. -/
theorem assignRanked_ranks (ops : RankOps key setRank rd Ready) {s : St σ}
    (R : Fair P s.ga.attrs.arith.rnd s.ga.population.length) (hs : Rankable key Ready s) :
    ∃ s', assignRanked key setRank s = (.ok (), s') ∧ (∀ r ∈ s.ga.population, RankIs rd P (s'.heap r)) ∧ ∀ r ∈ s.ga.population, Ready (s'.heap r) := by
  unfold assignRanked
  rw [bind_of_ok (getGa_run s)]
  obtain ⟨s', e, hR, h⟩ := rankedLoop_raises ops s.ga.population.length 0 1 (-1) s R hs (by omega) le_rfl (by omega)
  refine ⟨s', e, ?_, fun r hr => ((hR.ready hs) r (by rw [hR.ga]; exact hr)).2⟩
  intro r hr
  obtain ⟨i, hi⟩ := List.mem_iff_getElem?.mp hr
  exact h i r (Nat.zero_le _) hi

theorem Fair.positive {rnd : ℚ → ℚ} (R : Rounding rnd) (n : Nat) : Fair (0 < ·) rnd n where
  alone i _ := by positivity
  tied a c ha hc _ := half_le R (tieRank_ge ha hc)

theorem assignRanked_raises (ops : RankOps key setRank rd Ready) {s : St σ} (R : Rounding s.ga.attrs.arith.rnd)
    (hs : Rankable key Ready s) : ∃ s', assignRanked key setRank s = (.ok (), s') ∧
      (∀ r ∈ s.ga.population, PosRank rd (s'.heap r)) ∧ ∀ r ∈ s.ga.population, Ready (s'.heap r) :=
  assignRanked_ranks ops (Fair.positive R _) hs

theorem tieRank_le {a : Int} {c n : Nat} (hc : 2 ≤ c) (hn : a + c ≤ n) : tieRank a (a + c) c ≤ n := by
  have hl : (rangeLen a (a + c) 1).toNat = c := by
    unfold rangeLen
    rw [if_pos (by omega)]
    simp
  have hs : ∀ k : Nat, a + k ≤ n → ((List.range k).map fun i : Nat => a + 1 * (i : Int)).sum + k ≤ n * k := by
    intro k
    induction k with
    | zero => simp
    | succ k ih =>
      intro h
      push_cast at h ⊢
      have := ih (by omega)
      rw [List.range_succ, List.map_append, List.sum_append]
      simp only [List.map_cons, List.map_nil, List.sum_cons, List.sum_nil]
      nlinarith
  have h2 : (pyRange a (a + c) 1).sum + c ≤ n * c := by
    unfold pyRange
    rw [hl]
    exact hs c hn
  unfold tieRank
  have hc0 : (0 : ℚ) < c := by exact_mod_cast (by omega : 0 < c)
  rw [div_le_iff₀ hc0]
  exact_mod_cast h2

/-- In exact arithmetic ranks lie between one half and the number of individuals. -/
theorem Fair.within (n : Nat) : Fair (fun q => 1 / 2 ≤ q ∧ q ≤ n) id n where
  alone i hi := by
    refine ⟨by have : (0 : ℚ) ≤ i := by positivity
               linarith, ?_⟩
    exact_mod_cast hi
  tied a c ha hc hn := ⟨tieRank_ge ha hc, tieRank_le hc hn⟩

end

/-! ## the selection -/

section
variable {key rd : Ind σ → Except PyErr ℚ} {setRank : ℚ → Ind σ → Ind σ} {Ready : Ind σ → Prop}

/-- The state in which the roulette of a ranked selection starts. -/
structure SpinReady (rd : Ind σ → Except PyErr ℚ) (s s2 : St σ) : Prop where
  pop : s2.ga.population = s.ga.population
  arith : s2.ga.attrs.arith = s.ga.attrs.arith
  next : s2.next = s.next
  modest : ∀ D, Modest D s → Modest D s2
  pos : ∀ r ∈ s.ga.population, ∃ q, rd (s2.heap r) = .ok q ∧ 0 < q

/-- A ranked selection gets to its roulette. -/
theorem ranked_start (ops : RankOps key setRank rd Ready) (hcore : ∀ a b, SameCore a b → key b = key a)
    (hready : ∀ (a : Ind σ) k, Ready a → Ready { a with idx := k }) {m : Nat} {s : St σ}
    (R : Rounding s.ga.attrs.arith.rnd) (hs : Rankable key Ready s) :
    ∃ s2, SpinReady rd s s2 ∧ ∀ (_ : Safe (spin rd m) s2), Safe (balancedWith (assignRanked key setRank) rd m) s := by
  obtain ⟨s1, e1⟩ := baseSelection_run s
  obtain ⟨hr, _⟩ := baseSelection_relabelled e1
  have hp : s1.ga.population = s.ga.population := by rw [hr.ga]
  have hs1 : Rankable key Ready s1 := by
    intro r hm
    rw [hp] at hm
    obtain ⟨⟨v, hv⟩, h2⟩ := hs r hm
    obtain ⟨k, ek⟩ := (baseSelection_ok e1).2.2.2.2.2.2.2.2.1 r
    exact ⟨⟨v, by rw [hcore _ _ (hr.core r)]; exact hv⟩, by rw [ek]; exact hready _ _ h2⟩
  obtain ⟨s2, e2, hpos, _⟩ := assignRanked_raises ops (by rw [hr.ga]; exact R) hs1
  obtain ⟨hr2, hga, ht⟩ := assignRanked_ranked ops.core e2
  refine ⟨s2, ⟨by rw [hga, hp], by rw [hga, hr.ga], by rw [hr2.next, hr.next], ?_, ?_⟩, ?_⟩
  · intro D hD
    have := Keeps.ok (baseSelection_frame (modest_frame D).toQuiet.still) e1 hD
    unfold Modest at this ⊢
    rw [ht, hr2.seed]
    exact this
  · intro r hm
    exact hpos r (by rw [hp]; exact hm)
  · intro h
    unfold balancedWith
    exact Safe.bind_ok e1 (Safe.bind_ok e2 h)

theorem ranked_safe (ops : RankOps key setRank rd Ready) (hcore : ∀ a b, SameCore a b → key b = key a)
    (hready : ∀ (a : Ind σ) k, Ready a → Ready { a with idx := k }) {m : Nat} {s : St σ} (hx : s.ga.attrs.arith = .exact)
    (hal : ∀ r ∈ s.ga.population, r < s.next) (hne : s.ga.population ≠ []) (hs : Rankable key Ready s) :
    Safe (balancedWith (assignRanked key setRank) rd m) s := by
  obtain ⟨s2, h2, hsafe⟩ := ranked_start (m := m) ops hcore hready (by rw [hx]; exact id_rounding) hs
  refine hsafe (spin_safe (h2.arith.trans hx) ?_ (by rw [h2.pop]; exact hne) ?_)
  · rw [h2.pop, h2.next]; exact hal
  · rw [h2.pop]; exact h2.pos

theorem ranked_safe_on {B : Nat} (ops : RankOps key setRank rd Ready) (hcore : ∀ a b, SameCore a b → key b = key a)
    (hready : ∀ (a : Ind σ) k, Ready a → Ready { a with idx := k }) {m : Nat} {s : St σ} (R : Rounding s.ga.attrs.arith.rnd)
    (hD : Modest (fun x => x % 2 ^ 53 + 8 * B < 2 ^ 53) s)
    (hB : s.ga.population.length ≤ B) (hB2 : 16 * B ≤ 2 ^ 53)
    (hal : ∀ r ∈ s.ga.population, r < s.next) (hne : s.ga.population ≠ []) (hs : Rankable key Ready s) :
    Safe (balancedWith (assignRanked key setRank) rd m) s := by
  obtain ⟨s2, h2, hsafe⟩ := ranked_start (m := m) ops hcore hready R hs
  refine hsafe (spin_safe_on (B := B) (by rw [h2.arith]; exact R) ?_ (by rw [h2.pop]; exact hB) hB2 ?_ (by rw [h2.pop]; exact hne) ?_)
  · exact h2.modest _ hD
  · rw [h2.pop, h2.next]; exact hal
  · rw [h2.pop]; exact h2.pos

end

/-- `RankedSelection` raises nothing on an evaluated population, in exact arithmetic. -/
theorem rankedExec_safe {s : St ℚ} (hx : s.ga.attrs.arith = .exact) (hal : ∀ r ∈ s.ga.population, r < s.next)
    (hne : s.ga.population ≠ []) (hk : Keyed scoreKey s) : Safe rankedExec s :=
  ranked_safe rankOps_score (fun a b h => by unfold scoreKey; rw [h.score]) (fun _ _ h => h) hx hal hne (fun r hr => ⟨hk r hr, trivial⟩)

/-- The same in any rounding arithmetic if no random number is among the `8 B` largest. -/
theorem rankedExec_safe_on {B : Nat} {s : St ℚ} (R : Rounding s.ga.attrs.arith.rnd) (hD : Modest (fun x => x % 2 ^ 53 + 8 * B < 2 ^ 53) s)
    (hB : s.ga.population.length ≤ B) (hB2 : 16 * B ≤ 2 ^ 53) (hal : ∀ r ∈ s.ga.population, r < s.next)
    (hne : s.ga.population ≠ []) (hk : Keyed scoreKey s) : Safe rankedExec s :=
  ranked_safe_on rankOps_score (fun a b h => by unfold scoreKey; rw [h.score]) (fun _ _ h => h) R hD hB hB2 hal hne
    (fun r hr => ⟨hk r hr, trivial⟩)

end BaumEva
