import Verif.Proofs.SafeRanked
import Verif.Proofs.Vega
/-!
# The roulettes of VEGA raise nothing
-/
namespace BaumEva
open Spec
variable {σ : Type}

/-- Nothing goes wrong at the end of a wheel with at most `B` sectors: the arithmetic is exact, or `B` is not gigantic and no random
number is among the largest `8 * B` of the `2^53` possible ones. -/
def CalmUpTo (B : Nat) (ar : Arith) (s : St σ) : Prop :=
  ar = .exact ∨ (16 * B ≤ 2 ^ 53 ∧ Modest (fun x => x % 2 ^ 53 + 8 * B < 2 ^ 53) s)

theorem CalmUpTo.frame {B : Nat} {ar : Arith} {s s' : St σ} (h : CalmUpTo B ar s) (hD : ∀ D, Modest D s → Modest D s') : CalmUpTo B ar s' :=
  h.imp_right fun ⟨a, b⟩ => ⟨a, hD _ b⟩

theorem balanced_calm {B : Nat} {w : Ind σ → Except PyErr ℚ} (hw : ∀ a b, SameCore a b → w b = w a) {m : Nat} {s : St σ}
    (R : Rounding s.ga.attrs.arith.rnd) (hc : CalmUpTo B s.ga.attrs.arith s) (hB : s.ga.population.length ≤ B)
    (hal : ∀ r ∈ s.ga.population, r < s.next) (hne : s.ga.population ≠ [])
    (hpos : ∀ r ∈ s.ga.population, ∃ q, w (s.heap r) = .ok q ∧ 0 < q) : Safe (balancedWith (pure ()) w m) s := by
  rcases hc with hx | ⟨h1, h2⟩
  · exact balanced_safe hw hx hal hne hpos
  · exact balanced_safe_on hw R h2 hB h1 hal hne hpos

theorem ranked_calm {B : Nat} {key rd : Ind σ → Except PyErr ℚ} {setRank : ℚ → Ind σ → Ind σ} {Ready : Ind σ → Prop}
    (ops : RankOps key setRank rd Ready) (hcore : ∀ a b, SameCore a b → key b = key a)
    (hready : ∀ (a : Ind σ) k, Ready a → Ready { a with idx := k }) {m : Nat} {s : St σ} (R : Rounding s.ga.attrs.arith.rnd)
    (hc : CalmUpTo B s.ga.attrs.arith s) (hB : s.ga.population.length ≤ B)
    (hal : ∀ r ∈ s.ga.population, r < s.next) (hne : s.ga.population ≠ []) (hs : Rankable key Ready s) :
    Safe (balancedWith (assignRanked key setRank) rd m) s := by
  rcases hc with hx | ⟨h1, h2⟩
  · exact ranked_safe ops hcore hready hx hal hne hs
  · exact ranked_safe_on ops hcore hready R h2 hB h1 hal hne hs

theorem scoreAt_core (i : Nat) (a b : Ind (List ℚ)) (h : SameCore a b) : scoreAt i b = scoreAt i a := by
  unfold scoreAt; rw [h.score]

/-- `VEGABalancedSelection` raises nothing when all entries of the scores are positive. -/
theorem vegaBalancedExec_safe {B n : Nat} {s : St (List ℚ)} (R : Rounding s.ga.attrs.arith.rnd) (hc : CalmUpTo B s.ga.attrs.arith s)
    (hB : s.ga.population.length ≤ B) (hal : ∀ r ∈ s.ga.population, r < s.next) (hne : s.ga.population ≠ [])
    (hk : ∀ r ∈ s.ga.population, ∃ l, (s.heap r).score = some l ∧ n ≤ l.length ∧ ∀ q ∈ l, 0 < q) : Safe (vegaBalancedExec n) s := by
  unfold vegaBalancedExec
  refine Safe.forEach (fun x => x.ga.population = s.ga.population ∧ x.ga.attrs.arith = s.ga.attrs.arith ∧
    CalmUpTo B s.ga.attrs.arith x ∧ (∀ r ∈ x.ga.population, r < x.next) ∧
    ∀ r ∈ x.ga.population, ∃ l, (x.heap r).score = some l ∧ n ≤ l.length ∧ ∀ q ∈ l, 0 < q) ?_ ?_ ⟨rfl, rfl, hc, hal, hk⟩
  · rintro i hi x ⟨x1, x2, x3, x4, x5⟩
    refine balanced_calm (scoreAt_core i) (by rw [x2]; exact R) (by rw [x2]; exact x3) (by rw [x1]; exact hB) x4 (by rw [x1]; exact hne) ?_
    intro r hr
    obtain ⟨l, e, hl, hp⟩ := x5 r hr
    have hi := List.mem_range.mp hi
    refine ⟨l[i]'(by omega), ?_, hp _ (List.getElem_mem _)⟩
    unfold scoreAt
    rw [e]
    simp only
    rw [List.getElem?_eq_getElem (by omega)]
  · rintro i hi x y ⟨x1, x2, x3, x4, x5⟩ h
    have hS := balanced_at_selects i n x y _ x4 h
    refine ⟨by rw [hS.ga]; exact x1, by rw [hS.ga]; exact x2, x3.frame fun D hD => ?_, ?_, ?_⟩
    · exact Keeps.ok (balancedWith_frame (modest_frame D).toQuiet.still ((modest_frame D).toQuiet.still.pure _) _ _) h hD
    · rw [hS.ga]
      exact fun r hr => (x4 r hr).trans_le hS.next
    · rw [hS.ga]
      intro r hr
      obtain ⟨l, e, hl⟩ := x5 r hr
      exact ⟨l, by rw [(hS.core r (x4 r hr)).score]; exact e, hl⟩

/-! ## ranked -/

/-- The rank is a vector with `n` entries. -/
def VecRank (n : Nat) (x : Ind (List ℚ)) : Prop := ∃ l, x.rank = some (.vec l) ∧ l.length = n

theorem rankOps_at {i n : Nat} (hi : i < n) : RankOps (scoreAt i) (setRankAt i) (rankAt i) (VecRank n) := by
  refine ⟨?_, fun q x => setRankAt_core i q x, ?_, ?_⟩
  · intro q x
    exact scoreAt_core i _ _ (setRankAt_core i q x)
  · rintro q x ⟨l, e, hl⟩
    unfold rankAt setRankAt
    rw [e]
    simp only
    rw [List.getElem?_set_self (by omega)]
  · rintro q x ⟨l, e, hl⟩
    unfold setRankAt
    rw [e]
    exact ⟨l.set i q, rfl, by rw [List.length_set]; exact hl⟩

/-- `VEGARankedSelection` raises nothing on an evaluated population. -/
theorem vegaRankedExec_safe {B n : Nat} {s : St (List ℚ)} (R : Rounding s.ga.attrs.arith.rnd) (hc : CalmUpTo B s.ga.attrs.arith s)
    (hB : s.ga.population.length ≤ B) (hal : ∀ r ∈ s.ga.population, r < s.next) (hne : s.ga.population ≠ [])
    (hk : ∀ r ∈ s.ga.population, ∃ l, (s.heap r).score = some l ∧ n ≤ l.length) : Safe (vegaRankedExec n) s := by
  unfold vegaRankedExec
  refine Safe.bind_ok (getGa_run s) (Safe.bind ?_ ?_)
  · exact Safe.forEach (fun _ => True) (fun r _ x _ => Safe.of_ok (modInd_run _ _ _)) (fun _ _ _ _ _ _ => trivial) trivial
  intro _ s1 h1
  obtain ⟨⟨r1, r2, r3⟩, hv, _⟩ := clearRanks_ok (fun r hr => hr) h1
  have hm1 : ∀ D, Modest D s → Modest D s1 := by
    intro D hD
    unfold Modest at hD ⊢
    rw [r3, r1.seed]
    exact hD
  refine Safe.forEach (fun x => x.ga.population = s.ga.population ∧ x.ga.attrs.arith = s.ga.attrs.arith ∧
    CalmUpTo B s.ga.attrs.arith x ∧ (∀ r ∈ x.ga.population, r < x.next) ∧
    ∀ r ∈ x.ga.population, (∃ l, (x.heap r).score = some l ∧ n ≤ l.length) ∧ VecRank n (x.heap r)) ?_ ?_ ?_
  · rintro i hi x ⟨x1, x2, x3, x4, x5⟩
    have hi := List.mem_range.mp hi
    refine ranked_calm (rankOps_at hi) (scoreAt_core i) (fun _ _ h => h) (by rw [x2]; exact R) (by rw [x2]; exact x3)
      (by rw [x1]; exact hB) x4 (by rw [x1]; exact hne) ?_
    intro r hr
    obtain ⟨⟨l, e, hl⟩, h2⟩ := x5 r hr
    refine ⟨⟨l[i]'(by omega), ?_⟩, h2⟩
    unfold scoreAt
    rw [e]
    simp only
    rw [List.getElem?_eq_getElem (by omega)]
  · rintro i hi x y ⟨x1, x2, x3, x4, x5⟩ h
    have hi := List.mem_range.mp hi
    have hS := ranked_at_selects i n x y _ x4 h
    refine ⟨by rw [hS.ga]; exact x1, by rw [hS.ga]; exact x2, x3.frame fun D hD => ?_, ?_, ?_⟩
    · exact Keeps.ok (balancedWith_frame (modest_frame D).toQuiet.still (assignRanked_frame (modest_frame D).toQuiet.still _ _) _ _) h hD
    · rw [hS.ga]
      exact fun r hr => (x4 r hr).trans_le hS.next
    · rw [hS.ga]
      intro r hr
      have hr : r ∈ x.ga.population := hr
      obtain ⟨⟨l, e, hl⟩, h2⟩ := x5 r hr
      refine ⟨⟨l, by rw [(hS.core r (x4 r hr)).score]; exact e, hl⟩, ?_⟩
      obtain ⟨z1, z2, _, _, _, b1, b2, hrel, _, _, _, _, hcp, _⟩ := balancedWith_ok (fun _ _ _ hv => vegaRankedPre hv) x4 h
      obtain ⟨hr1, _⟩ := baseSelection_relabelled b1
      have hp : z1.ga.population = x.ga.population := by rw [hr1.ga]
      have hz1 : Rankable (scoreAt i) (VecRank n) z1 := by
        intro r hr
        rw [hp] at hr
        obtain ⟨⟨l, e, hl⟩, h2⟩ := x5 r hr
        obtain ⟨k, ek⟩ := (baseSelection_ok b1).2.2.2.2.2.2.2.2.1 r
        rw [ek]
        refine ⟨⟨l[i]'(by omega), ?_⟩, h2⟩
        unfold scoreAt
        simp only
        rw [e]
        simp only
        rw [List.getElem?_eq_getElem (by omega)]
      obtain ⟨z2', e2, _, hrd⟩ := assignRanked_raises (rankOps_at hi) (by rw [hr1.ga]; simp only; rw [x2]; exact R) hz1
      rw [b2] at e2
      obtain rfl := (Prod.mk.inj e2).2
      rw [hcp.old r (by rw [hrel.next]; exact x4 r hr)]
      exact hrd r (by rw [hp]; exact hr)
  · refine ⟨by rw [r2], by rw [r2], hc.frame hm1, by rw [r2, r1.next]; exact hal, ?_⟩
    rw [r2]
    intro r hr
    obtain ⟨l, e, hl⟩ := hk r hr
    exact ⟨⟨l, by rw [(r1.core r).score]; exact e, hl⟩, _, hv r hr, List.length_replicate⟩

end BaumEva
