import Verif.Proofs.Chance
import Verif.Proofs.Liveness
import Mathlib.Algebra.Order.Archimedean.Basic
/-!
# Computations that succeed with probability one
-/
namespace BaumEva
open Spec
variable {σ α β : Type}

/-! ## chances of tapes that are read in two parts -/

theorem chance_split {B M : Nat} (hB : 0 < B) {a b : ℚ} : ∀ {K : Nat} {p q : List Nat → Prop},
    (∀ t ∈ tapes B K, q t → chance B M (fun u => p (t ++ u)) ≤ a + b) →
    (∀ t ∈ tapes B K, ¬ q t → chance B M (fun u => p (t ++ u)) ≤ a) →
    chance B (K + M) p ≤ a + b * chance B K q := by
  intro K
  induction K with
  | zero =>
    intro p q h1 h2
    rw [Nat.zero_add]
    by_cases hq : q []
    · have e : chance B 0 q = 1 := by unfold chance; simp [tapes, hq]
      have := h1 [] (by simp [tapes]) hq
      rw [e]
      simpa using this
    · rw [chance_zero hq]
      have := h2 [] (by simp [tapes]) hq
      simpa using this
  | succ K ih =>
    intro p q h1 h2
    rw [show K + 1 + M = (K + M) + 1 by omega, chance_succ, chance_succ]
    have hB' : (0 : ℚ) < B := by exact_mod_cast hB
    rw [div_le_iff₀ hB']
    have key : ∀ x ∈ List.range B, chance B (K + M) (fun t => p (x :: t)) ≤ a + b * chance B K (fun t => q (x :: t)) := by
      intro x hx
      rw [List.mem_range] at hx
      have hm : ∀ t ∈ tapes B K, x :: t ∈ tapes B (K + 1) := by
        intro t ht
        rw [mem_tapes] at ht ⊢
        refine ⟨by simp [ht.1], fun y hy => ?_⟩
        rcases List.mem_cons.mp hy with rfl | hy
        · exact hx
        · exact ht.2 y hy
      exact ih (p := fun t => p (x :: t)) (q := fun t => q (x :: t)) (fun t ht hq => h1 (x :: t) (hm t ht) hq)
        (fun t ht hq => h2 (x :: t) (hm t ht) hq)
    have h3 := sum_map_le key
    have h4 : ((List.range B).map fun x => a + b * chance B K (fun t => q (x :: t))).sum =
        a * B + b * ((List.range B).map fun x => chance B K (fun t => q (x :: t))).sum := by
      have : ∀ l : List Nat, (l.map fun x => a + b * chance B K (fun t => q (x :: t))).sum =
          a * l.length + b * (l.map fun x => chance B K (fun t => q (x :: t))).sum := by
        intro l
        induction l with
        | nil => simp
        | cons x l ih => simp only [List.map_cons, List.sum_cons, ih, List.length_cons]; push_cast; ring
      rw [this, List.length_range]
    rw [h4] at h3
    refine h3.trans (le_of_eq ?_)
    field_simp

theorem chance_congr {B L : Nat} {p q : List Nat → Prop} (h : ∀ t ∈ tapes B L, p t → q t) : chance B L p ≤ chance B L q := by
  unfold chance
  refine div_le_div_of_nonneg_right ?_ (by positivity)
  norm_cast
  exact List.countP_mono_left fun t ht hp => by simpa using h t ht (by simpa using hp)

theorem chance_compl {B L : Nat} (hB : 0 < B) {p : List Nat → Prop} : chance B L p + chance B L (fun t => ¬ p t) = 1 := by
  classical
  unfold chance
  rw [← add_div, ← Nat.cast_add]
  have h := List.length_eq_countP_add_countP (l := tapes B L) (fun t => decide (p t))
  have e : (tapes B L).countP (fun t => decide ¬ (decide (p t)) = true) = (tapes B L).countP fun t => decide (¬ p t) := by
    congr 1; funext t; simp
  rw [e, length_tapes] at h
  have hB' : (0 : ℚ) < B := by exact_mod_cast hB
  rw [div_eq_one_iff_eq (by positivity)]
  have := congrArg (Nat.cast : ℕ → ℚ) h
  push_cast at this ⊢
  rw [this]
  congr 3
  funext t
  by_cases h : p t <;> simp [h]

/-- One list in `B ^ K` at least. -/
theorem chance_some {B K : Nat} (hB : 0 < B) {p : List Nat → Prop} {t : List Nat} (ht : t ∈ tapes B K) (hp : ¬ p t) :
    chance B K p ≤ 1 - 1 / (B : ℚ) ^ K := by
  have h := chance_compl (L := K) (p := p) hB
  have : 1 / (B : ℚ) ^ K ≤ chance B K (fun t => ¬ p t) := by
    unfold chance
    refine div_le_div_of_nonneg_right ?_ (by positivity)
    norm_cast
    exact Nat.succ_le_of_lt (List.countP_pos_iff.mpr ⟨t, ht, by simpa using hp⟩)
  linarith

/-! ## success with probability one -/

/-- The chance that `m` does not succeed within `L` further draws tends to 0 with `L`. -/
def Sure (B : Nat) (m : M σ α) (s : St σ) : Prop :=
  ∀ ε : ℚ, 0 < ε → ∃ N, ∀ L, N ≤ L → chance B L (fun u => ¬ ∃ a s', m (s.more u) = (.ok a, s')) ≤ ε

theorem Sure.of_ok {B : Nat} {m : M σ α} {s s' : St σ} {a : α} (hn : s.seed = none) (hx : ExtOk m) (h : m s = (.ok a, s')) :
    Sure B m s := by
  intro ε hε
  refine ⟨0, fun L _ => ?_⟩
  rw [chance_none]
  · exact hε.le
  · intro u hu
    exact hu ⟨a, _, (hx s s' a u hn h).1⟩

theorem Sure.of_tame {B : Nat} {m : M σ α} {s : St σ} (hn : s.seed = none) (ht : Tame m) (hs : ∀ u, Safe m (s.more u)) :
    Sure B m s := by
  intro ε hε
  obtain ⟨K, hK⟩ := ht.brief B s hn
  refine ⟨K, fun L hL => ?_⟩
  refine le_trans (chance_congr (q := fun _ => False) ?_) ?_
  · intro u hu hno
    rw [mem_tapes] at hu
    rcases hx : m (s.more u) with ⟨r, s'⟩
    cases r with
    | ok a => exact hno ⟨a, s', hx⟩
    | error e =>
      obtain ⟨rfl, h2⟩ := hs u e s' hx
      refine (hK u hu.2 (by omega)).1 ?_
      rw [hx]
      exact ⟨rfl, h2⟩
  · rw [chance_none fun _ => id]
    exact hε.le

theorem Sure.bind {B : Nat} (hB : 0 < B) {m : M σ α} {f : α → M σ β} {s : St σ} (hn : s.seed = none) (hx : ExtOk m) (hm : Sure B m s)
    (hf : ∀ u a s', m (s.more u) = (.ok a, s') → Sure B (f a) s') : Sure B (m >>= f) s := by
  intro ε hε
  obtain ⟨K, hK⟩ := hm (ε / 2) (by linarith)
  have hK := hK K le_rfl
  obtain ⟨N, hN⟩ := uniform_bound (B := B) K (fun t n => ∀ a s1, m (s.more t) = (.ok a, s1) → ∀ L, n ≤ L →
      chance B L (fun u => ¬ ∃ b s', f a (s1.more u) = (.ok b, s')) ≤ ε / 2)
    (fun u n k hnk h a s1 e L hL => h a s1 e L (hnk.trans hL)) (by
      intro u _ _
      rcases hy : m (s.more u) with ⟨r, s1⟩
      cases r with
      | error e => exact ⟨0, fun a s1 h => by simp at h⟩
      | ok a =>
        obtain ⟨n, h⟩ := hf u a s1 hy (ε / 2) (by linarith)
        refine ⟨n, fun a' s1' e => ?_⟩
        simp only [Prod.mk.injEq, Except.ok.injEq] at e
        obtain ⟨rfl, rfl⟩ := e
        exact h)
  refine ⟨K + N, fun L hL => ?_⟩
  obtain ⟨M, rfl⟩ : ∃ M, L = K + M := ⟨L - K, by omega⟩
  refine (chance_split hB (a := ε / 2) (b := 1) (q := fun t => ¬ ∃ a s', m (s.more t) = (.ok a, s')) ?_ ?_).trans (by linarith)
  · intro t _ _
    have := chance_le_one (p := fun u => ¬ ∃ b s', (m >>= f) (s.more (t ++ u)) = (.ok b, s')) (L := M) hB
    linarith
  · intro t ht hq
    rw [not_not] at hq
    obtain ⟨a, s1, e⟩ := hq
    rw [mem_tapes] at ht
    refine le_trans (chance_mono ?_) (hN t ht.1 ht.2 a s1 e M (by omega))
    rintro u hno ⟨b, s', e2⟩
    refine hno ⟨b, s', ?_⟩
    obtain ⟨e3, _⟩ := hx _ s1 a u (by exact hn) e
    rw [St.more_more] at e3
    rw [bind_of_ok e3]
    exact e2

theorem Sure.congr {B : Nat} {m : M σ α} {m' : M σ β} {s : St σ} (h : Sure B m s) (e : ∀ u a s', m (s.more u) = (.ok a, s') → ∃ a' s'', m' (s.more u) = (.ok a', s'')) :
    Sure B m' s := by
  intro ε hε
  obtain ⟨N, hN⟩ := h ε hε
  refine ⟨N, fun L hL => le_trans (chance_mono ?_) (hN L hL)⟩
  rintro u hno ⟨a, s', h⟩
  obtain ⟨a', s'', h'⟩ := e u a s' h
  exact hno ⟨a', s'', h'⟩

/-! ## the second parent of a pair -/

section
variable {κ : Type} [LinearOrder κ] {key : Ind σ → Except PyErr κ}

theorem sampleAux_small : ∀ {k : Nat} {l : List α} {s s' : St σ} {r : List α}, sampleAux k l s = (.ok r, s') →
    ∃ t : List Nat, t.length = k ∧ (∀ x ∈ t, x < l.length) ∧ ∀ w, sampleAux k l { s with tape := t ++ w } = (.ok r, { s with tape := w }) := by
  intro k
  induction k with
  | zero =>
    intro l s s' r h
    rw [sampleAux, pure_ok] at h
    exact ⟨[], rfl, by simp, fun w => by rw [sampleAux, h.1]; rfl⟩
  | succ k ih =>
    intro l s s' r h
    rw [sampleAux] at h
    obtain ⟨x, s1, h1, h2⟩ := bind_ok.mp h
    obtain ⟨tp, e1, rfl⟩ := draw_ok.mp h1
    cases hg : l[x % l.length]? with
    | none => rw [hg] at h2; simp only at h2; rw [throwE_ok] at h2; exact h2.elim
    | some y =>
      rw [hg] at h2
      simp only at h2
      obtain ⟨r2, s2, h3, h4⟩ := bind_ok.mp h2
      obtain ⟨rfl, rfl⟩ := pure_ok.mp h4
      obtain ⟨t, t1, t2, t3⟩ := ih h3
      have hlt : x % l.length < l.length := (List.getElem?_eq_some_iff.mp hg).1
      refine ⟨x % l.length :: t, by simp [t1], ?_, fun w => ?_⟩
      · intro z hz
        rcases List.mem_cons.mp hz with rfl | hz
        · exact hlt
        · have := t2 z hz
          rw [List.length_eraseIdx_of_lt hlt] at this
          omega
      · rw [sampleAux, List.cons_append, bind_of_ok (draw_ok.mpr ⟨t ++ w, rfl, rfl⟩), Nat.mod_mod, hg]
        simp only
        rw [bind_of_ok (t3 w)]
        rfl

theorem getBest_blind {l : List Nat} {s s' : St σ} {r : Nat} (hn : s.seed = none) (h : getBest key l s = (.ok r, s')) (w : List Nat) :
    getBest key l { s with tape := w } = (.ok r, { s with tape := w }) := by
  obtain ⟨rfl, _⟩ := getBest_ok h
  obtain ⟨pre, e, k⟩ := (Tame.getBest key l).trim _ _ _ hn h
  have : pre = [] := by
    rw [← List.length_eq_zero_iff]
    have := congrArg List.length e
    rw [List.length_append] at this
    omega
  subst this
  exact k w

theorem oneTournament_small {size : Int} {s s' : St σ} {r : Nat} (hn : s.seed = none) (h : oneTournament key size s = (.ok r, s')) :
    ∃ t : List Nat, t.length = size.toNat ∧ (∀ x ∈ t, x < s.ga.population.length) ∧
      ∀ w, oneTournament key size { s with tape := t ++ w } = (.ok r, { s with tape := w }) := by
  unfold oneTournament at h
  rw [bind_of_ok (getGa_run s)] at h
  obtain ⟨l, s1, e1, e2⟩ := bind_ok.mp h
  obtain ⟨_, _, _, _, ⟨tp, rfl⟩⟩ := sample_ok e1
  unfold sample at e1
  split at e1
  · rw [throwE_ok] at e1; exact e1.elim
  rename_i hc
  obtain ⟨t, t1, t2, t3⟩ := sampleAux_small e1
  refine ⟨t, t1, by simpa using t2, fun w => ?_⟩
  unfold oneTournament
  rw [bind_of_ok (getGa_run _)]
  show ((sample (List.range s.ga.population.length) size) >>= _) _ = _
  unfold sample
  rw [if_neg hc, bind_of_ok (t3 w)]
  exact getBest_blind (s := { s with tape := tp }) hn e2 w

/-- No second parent is found with the draws `te`. -/
def Misses (key : Ind σ → Except PyErr κ) (size : Int) (first : Nat) (s : St σ) (te : List Nat) : Prop :=
  ¬ ∃ f r s', secondParent key size first f { s with tape := te } = (.ok r, s')

/-- A tournament with `size` draws. -/
theorem oneTournament_take {size : Int} {s : St σ} (h1 : 1 ≤ size) (h2 : size ≤ s.ga.population.length)
    (hk : Keyed key s) (hn : s.seed = none) {t : List Nat} (ht : t.length = size.toNat) :
    ∃ r, ∀ u, oneTournament key size { s with tape := t ++ u } = (.ok r, { s with tape := u }) := by
  obtain ⟨r, t', e, hl⟩ := oneTournament_run (s := { s with tape := t }) h1 h2 hk (by simp only; omega)
  have : t' = [] := by rw [← List.length_eq_zero_iff]; simp only at hl; omega
  subst this
  refine ⟨r, fun u => ?_⟩
  obtain ⟨e2, _⟩ := (Tame.oneTournament key size).ext { s with tape := t } _ _ u hn e
  exact e2

theorem oneTournament_needs {size : Int} {s s' : St σ} {r : Nat} (h : oneTournament key size s = (.ok r, s')) :
    s.tape.length = s'.tape.length + size.toNat ∧ ∃ t, s' = { s with tape := t } := by
  unfold oneTournament at h
  rw [bind_of_ok (getGa_run s)] at h
  obtain ⟨l, s1, e1, e2⟩ := bind_ok.mp h
  obtain ⟨rfl, _⟩ := getBest_ok e2
  obtain ⟨_, _, _, _, htp⟩ := sample_ok e1
  refine ⟨?_, htp⟩
  unfold sample at e1
  split at e1
  · rw [throwE_ok] at e1; exact e1.elim
  · exact sampleAux_tape e1

theorem secondParent_enough {size : Int} (h1 : 1 ≤ size) {first : Nat} : ∀ {f g : Nat} {s s' : St σ} {r : Nat}, s.tape.length < g →
    secondParent key size first f s = (.ok r, s') → secondParent key size first g s = (.ok r, s') := by
  intro f
  induction f with
  | zero => intro g s s' r _ h; rw [secondParent, throwE_ok] at h; exact h.elim
  | succ f ih =>
    intro g s s' r hg h
    obtain ⟨g, rfl⟩ : ∃ k, g = k + 1 := ⟨g - 1, by omega⟩
    rw [secondParent] at h ⊢
    obtain ⟨b, s1, h3, h2⟩ := bind_ok.mp h
    obtain ⟨hl, _⟩ := oneTournament_needs h3
    rw [bind_of_ok h3]
    rw [bind_of_ok (getInd_run _ _), bind_of_ok (getInd_run _ _)] at h2 ⊢
    split at h2
    · rename_i hc; rw [if_pos hc]; exact h2
    · rename_i hc; rw [if_neg hc]; exact ih (by omega) h2

theorem Misses.step {size : Int} {first r : Nat} {s : St σ} {t u : List Nat}
    (e : oneTournament key size { s with tape := t } = (.ok r, { s with tape := u })) (h : Misses key size first s t) :
    (s.heap r).idx = (s.heap first).idx ∧ Misses key size first s u := by
  by_cases hd : (s.heap r).idx = (s.heap first).idx
  · refine ⟨hd, ?_⟩
    rintro ⟨f, r', s', hx⟩
    exact h ⟨f + 1, r', s', by rw [secondParent_miss e (by simpa using hd)]; exact hx⟩
  · exact absurd ⟨1, r, _, secondParent_hit e hd⟩ h

theorem chance_misses {B : Nat} (hB : 0 < B) {size : Int} (h1 : 1 ≤ size) {first : Nat} {s : St σ} (hn : s.seed = none)
    (h2 : size ≤ s.ga.population.length) (hb : s.ga.population.length ≤ B) (hw : TwoWinners key size s) :
    ∀ k M, chance B (size.toNat * k + M) (Misses key size first s) ≤ (1 - 1 / (B : ℚ) ^ size.toNat) ^ k := by
  have hBq : (1 : ℚ) ≤ B := by exact_mod_cast hB
  have hpow : (1 : ℚ) ≤ (B : ℚ) ^ size.toNat := one_le_pow₀ hBq
  have hp0 : 0 ≤ 1 - 1 / (B : ℚ) ^ size.toNat := by
    have : 1 / (B : ℚ) ^ size.toNat ≤ 1 := by rw [div_le_one (by linarith)]; exact hpow
    linarith
  obtain ⟨v, a, b, hv, ha, hca, hb', hcb, hne⟩ := hw
  have hkey : Keyed key s := fun r hr => ⟨v r, hv r hr⟩
  obtain ⟨c, hc, hcc, hcn⟩ : ∃ c ∈ s.ga.population, (size ≤ s.ga.population.countP fun p => v p ≤ v c) ∧
      (s.heap c).idx ≠ (s.heap first).idx := by
    by_cases h : (s.heap a).idx = (s.heap first).idx
    · exact ⟨b, hb', hcb, fun e => hne (h.trans e.symm)⟩
    · exact ⟨a, ha, hca, h⟩
  obtain ⟨t0, e0⟩ := oneTournament_gives hv h1 hc hcc
  obtain ⟨t1, t1l, t1b, e1⟩ := oneTournament_small (by exact hn) (e0 [])
  intro k
  induction k with
  | zero =>
    intro M
    rw [pow_zero]
    exact chance_le_one hB
  | succ k ih =>
    intro M
    rw [show size.toNat * (k + 1) + M = size.toNat + (size.toNat * k + M) by rw [Nat.mul_succ]; omega]
    set P := (1 - 1 / (B : ℚ) ^ size.toNat) ^ k with hP
    have hP0 : 0 ≤ P := pow_nonneg hp0 _
    refine (chance_split hB (a := 0) (b := P) (q := fun t => ∃ r, (∀ u, oneTournament key size { s with tape := t ++ u } =
      (.ok r, { s with tape := u })) ∧ (s.heap r).idx = (s.heap first).idx) ?_ ?_).trans ?_
    · rintro t _ ⟨r, hr, _⟩
      rw [zero_add]
      exact le_trans (chance_mono fun u hu => (hu.step (hr u)).2) (ih M)
    · intro t ht hq
      rw [mem_tapes] at ht
      obtain ⟨r, hr⟩ := oneTournament_take h1 h2 hkey hn ht.1
      rw [chance_none]
      intro u hu
      exact hq ⟨r, hr, (hu.step (hr u)).1⟩
    · rw [zero_add, pow_succ]
      refine mul_le_mul_of_nonneg_left ?_ hP0
      refine chance_some hB (t := t1) (mem_tapes.mpr ⟨t1l, fun x hx => (t1b x hx).trans_le hb⟩) ?_
      rintro ⟨r, hr, hi⟩
      have h3 := hr []
      rw [e1 []] at h3
      simp only [Prod.mk.injEq, Except.ok.injEq] at h3
      rw [← h3.1] at hi
      exact hcn hi

theorem secondParent_sure {B : Nat} (hB : 0 < B) {size : Int} (h1 : 1 ≤ size) {first : Nat} {s : St σ} (hn : s.seed = none)
    (h2 : size ≤ s.ga.population.length) (hb : s.ga.population.length ≤ B) (hw : TwoWinners key size s) :
    Sure B (getS >>= fun st => secondParent key size first (st.tape.length + 1)) s := by
  have hkey : Keyed key s := by
    obtain ⟨v, _, _, hv, _⟩ := hw
    exact fun r hr => ⟨v r, hv r hr⟩
  -- draws left over from before
  have key2 : ∀ (n : Nat) (te : List Nat), te.length = n → ∃ N, ∀ k M, chance B (N + (size.toNat * k + M))
      (fun u => Misses key size first s (te ++ u)) ≤ (1 - 1 / (B : ℚ) ^ size.toNat) ^ k := by
    intro n
    induction n using Nat.strong_induction_on with
    | _ n ih =>
      intro te hte
      by_cases hsz : size.toNat ≤ te.length
      · obtain ⟨r, hr⟩ := oneTournament_take h1 h2 hkey hn (t := te.take size.toNat) (by simp [hsz])
        obtain ⟨N, hN⟩ := ih (te.drop size.toNat).length (by simp; omega) _ rfl
        refine ⟨N, fun k M => le_trans (chance_mono fun u hu => ?_) (hN k M)⟩
        have e := hr (te.drop size.toNat ++ u)
        rw [← List.append_assoc, List.take_append_drop] at e
        exact (hu.step e).2
      · refine ⟨size.toNat - te.length, fun k M => ?_⟩
        refine (chance_split hB (a := (1 - 1 / (B : ℚ) ^ size.toNat) ^ k) (b := 0) (q := fun _ => True) ?_ ?_).trans (by simp)
        · intro t ht _
          rw [mem_tapes] at ht
          rw [add_zero]
          obtain ⟨r, hr⟩ := oneTournament_take h1 h2 hkey hn (t := te ++ t) (by simp; omega)
          refine le_trans (chance_mono fun u hu => ?_) (chance_misses (first := first) hB h1 hn h2 hb hw k M)
          rw [← List.append_assoc] at hu
          exact (hu.step (hr u)).2
        · intro t _ hq
          exact absurd trivial hq
  obtain ⟨N, hN⟩ := key2 _ s.tape rfl
  intro ε hε
  have hBq : (1 : ℚ) ≤ B := by exact_mod_cast hB
  have hpow : (1 : ℚ) ≤ (B : ℚ) ^ size.toNat := one_le_pow₀ hBq
  obtain ⟨k, hk⟩ := exists_pow_lt_of_lt_one hε (show 1 - 1 / (B : ℚ) ^ size.toNat < 1 by
    have : 0 < 1 / (B : ℚ) ^ size.toNat := by positivity
    linarith)
  refine ⟨N + size.toNat * k, fun L hL => ?_⟩
  obtain ⟨M, rfl⟩ : ∃ M, L = N + (size.toNat * k + M) := ⟨L - (N + size.toNat * k), by omega⟩
  refine le_trans (chance_mono fun u hu => ?_) ((hN k M).trans hk.le)
  rintro ⟨f, r, s', hx⟩
  refine hu ⟨r, s', ?_⟩
  rw [bind_of_ok (getS_run _)]
  exact secondParent_enough (s := s.more u) h1 (Nat.lt_succ_self _) hx

theorem tournamentPair_sure {B : Nat} (hB : 0 < B) {size : Int} {s : St σ} (h1 : 1 ≤ size) (hseed : s.seed = none)
    (h2 : size ≤ s.ga.population.length) (hb : s.ga.population.length ≤ B) (hw : TwoWinners key size s) :
    Sure B (tournamentPair key size) s := by
  have hkey : Keyed key s := by
    obtain ⟨v, _, _, hv, _⟩ := hw
    exact fun r hr => ⟨v r, hv r hr⟩
  unfold tournamentPair
  refine Sure.bind hB hseed (Tame.oneTournament key size).ext (Sure.of_tame hseed (Tame.oneTournament key size) fun u =>
    oneTournament_safe (s := s.more u) h1 h2 hkey) ?_
  intro u a s1 e
  obtain ⟨⟨t, rfl⟩, _⟩ := oneTournament_ok e
  refine (secondParent_sure (first := a) (s := { s with tape := t }) hB h1 hseed h2 hb hw).congr ?_
  intro w r s2 h
  rw [bind_of_ok (getS_run _)] at h
  obtain ⟨s3, e3⟩ : ∃ s', (do addParent a; addParent r : M σ Unit) s2 = (.ok (), s') := ⟨_, rfl⟩
  refine ⟨(), s3, ?_⟩
  refine (bind_of_ok (getS_run _)).trans ?_
  refine (bind_of_ok h).trans ?_
  exact e3

theorem tournament_sure {B : Nat} (hB : 0 < B) {size : Int} {m : Nat} {s : St σ} (h1 : 1 ≤ size) (hseed : s.seed = none)
    (hal : ∀ r ∈ s.ga.population, r < s.next)
    (h2 : size ≤ s.ga.population.length) (hb : s.ga.population.length ≤ B) (hw : TwoWinners key size s) :
    Sure B (tournament key size m) s := by
  unfold tournament
  refine Sure.bind hB hseed Tame.getGa.ext (Sure.of_ok hseed Tame.getGa.ext (getGa_run s)) ?_
  intro u ga s1 e
  have e : s1 = s.more u := ((Prod.mk.inj ((getGa_run _).symm.trans e)).2).symm
  have aux : ∀ (l : List Nat) (s : St σ), s.seed = none → (∀ r ∈ s.ga.population, r < s.next) →
      size ≤ s.ga.population.length → s.ga.population.length ≤ B → TwoWinners key size s →
      Sure B (forEach l fun _ => tournamentPair key size) s := by
    intro l
    induction l with
    | nil => intro s k1 _ _ _ _; exact Sure.of_ok k1 (Tame.pure ()).ext rfl
    | cons x xs ih =>
      intro s k1 k2 k3 k5 k4
      rw [BaumEva.forEach]
      refine Sure.bind hB k1 (tournamentPair_ext size) (tournamentPair_sure hB h1 k1 k3 k5 k4) ?_
      intro u _ s' h
      obtain ⟨_, _, hc, _⟩ := tournamentPair_ok (s := s.more u) k2 h
      have hp : s'.ga.population = s.ga.population := by rw [hc.ga]; rfl
      refine ih s' (hc.seed.trans k1) ?_ (by rw [hp]; exact k3) (by rw [hp]; exact k5) (TwoWinners.copied (s := s.more u) k2 hc k4)
      intro r hr
      rw [hp] at hr
      have := k2 r hr
      rw [hc.next]
      simp only [St.more_next]; omega
  rw [e]
  exact aux _ (s.more u) hseed hal h2 hb hw

end

theorem tournamentExec_sure [LinearOrder σ] {B : Nat} (hB : 0 < B) {size : Int} {s : St σ} (h1 : 2 ≤ size)
    (h2 : size < s.ga.attrs.numIndivid) (hseed : s.seed = none) (hal : ∀ r ∈ s.ga.population, r < s.next) (hk : Keyed scoreKey s)
    (hsp : Spread size s.ga.population) (hb : s.ga.population.length ≤ B) : Sure B (tournamentExec size) s := by
  unfold tournamentExec
  have hc : ∀ s : St σ, size < s.ga.attrs.numIndivid → checkTournament size s = (.ok (), s) := by
    intro s h2
    unfold checkTournament
    rw [bind_of_ok (getGa_run s), ite_run, if_neg (by omega)]
    rfl
  refine Sure.bind hB hseed (Tame.checkTournament size).ext (Sure.of_ok hseed (Tame.checkTournament size).ext (hc s h2)) ?_
  intro u _ s1 e
  rw [hc (s.more u) h2] at e
  obtain ⟨_, rfl⟩ := Prod.mk.inj e
  obtain ⟨s2, e2⟩ := baseSelection_run (s.more u)
  refine Sure.bind hB hseed Tame.baseSelection.ext (Sure.of_ok hseed Tame.baseSelection.ext e2) ?_
  intro w _ s3 e3
  obtain ⟨hr, _⟩ := baseSelection_relabelled e3
  have hp : s3.ga.population = s.ga.population := by rw [hr.ga]; rfl
  have hkeq : ∀ r, scoreKey (s3.heap r) = scoreKey (s.heap r) := by
    intro r
    have := hr.core r
    unfold scoreKey
    rw [this.score]; rfl
  have : Nonempty σ := by
    cases hpop : s.ga.population with
    | nil => have := hsp 0; rw [hpop] at this; simp at this; omega
    | cons x xs => exact ⟨(hk x (by rw [hpop]; exact List.mem_cons_self)).choose⟩
  choose! v hv using hk
  obtain ⟨a, ha, b, hb', hab, hca, hcb⟩ := spread_winners (by omega) hsp v
  have hlen : size ≤ s3.ga.population.length := by
    rw [hp]
    exact hca.trans (by exact_mod_cast List.countP_le_length)
  refine tournament_sure hB (by omega) (hr.seed.trans hseed) (by rw [hp, hr.next]; exact hal) hlen (by rw [hp]; exact hb) ?_
  refine ⟨v, a, b, ?_, ?_, ?_, ?_, ?_, baseSelection_idx e3 ha hb' hab⟩
  · rw [hp]; intro r h; rw [hkeq]; exact hv r h
  · rw [hp]; exact ha
  · rw [hp]; exact hca
  · rw [hp]; exact hb'
  · rw [hp]; exact hcb

/-! ## whole runs -/

section
variable {fit : Fit ℚ} {size : Int} {op : CrossOp} {mop : MutOp} {tr : Transfer} {P : List Val → Prop} {s0 : St ℚ}

/-- No population is larger than the number of children and the requested size, and one. -/
theorem SafeSetup.small (h0 : SafeSetup fit (.tournament size) op mop tr P s0)
    (hpop : s0.ga.population.length = s0.ga.attrs.numIndivid) (hc : 1 ≤ numPairs s0.ga 1) {k : Nat} {s : St ℚ}
    (h : After (singleOps fit (.tournament size) op mop tr) s0 k s) :
    s.ga.population.length ≤ max s0.ga.attrs.numIndivid (numPairs s0.ga 1) + 1 := by
  rw [numPairs_share] at hc ⊢
  rw [C47_size_partial h0.fresh rfl hpop rfl hc h]
  split
  · omega
  split <;> omega

theorem SafeSetup.generation_sure (h0 : SafeSetup fit (.tournament size) op mop tr P s0) (hn : s0.seed = none)
    (hpop : s0.ga.population.length = s0.ga.attrs.numIndivid)
    (hsz : size ≤ numPairs s0.ga 1) (h2 : 2 ≤ size) (hlt : size < s0.ga.attrs.numIndivid) {B : Nat} (hB : 0 < B)
    (hb : max s0.ga.attrs.numIndivid (numPairs s0.ga 1) < B) {k : Nat} {s : St ℚ}
    (h : After (singleOps fit (.tournament size) op mop tr) s0 k s) :
    Sure B (BaumEva.generation (singleOps fit (.tournament size) op mop tr)) s := by
  have hI := h0.inv h
  obtain ⟨_, hseed⟩ := h.more hn []
  refine Sure.bind (m := tournamentExec size) (f := fun _ => breedRest (singleOps fit (.tournament size) op mop tr))
    hB hseed (tournamentExec_ext size) ?_ ?_
  · refine tournamentExec_sure hB h2 (by rw [hI.attrs]; exact hlt) hseed hI.run.settled.alive ?_ (h0.spread hsz hlt h)
      ((h0.small hpop (by omega) h).trans hb)
    intro r hr
    have := hI.run.settled.asc.1 r hr
    unfold scoreKey
    cases hx : (s.heap r).score with
    | none => rw [hx] at this; simp at this
    | some v => exact ⟨v, rfl⟩
  · intro u _ s1 e
    obtain ⟨_, n1⟩ := tournamentExec_ext size (s.more u) s1 () [] hseed e
    refine Sure.of_tame n1 (breedRest_tame _ _ _ _ _) ?_
    intro w
    obtain ⟨e2, _⟩ := tournamentExec_ext size (s.more u) s1 () w hseed e
    rw [St.more_more] at e2
    have hsafe := (h0.more (u ++ w)).generation (h.more hn (u ++ w)).1
    intro er s2 hx
    refine hsafe er s2 ?_
    show (tournamentExec size >>= fun _ => breedRest (singleOps fit (.tournament size) op mop tr)) _ = _
    rw [bind_of_ok e2]
    exact hx

theorem mainLoop_sure {B : Nat} (hB : 0 < B) : ∀ {n k : Nat} {s0 s : St ℚ}, SafeSetup fit (.tournament size) op mop tr P s0 → s0.seed = none →
    s0.ga.population.length = s0.ga.attrs.numIndivid →
    size ≤ numPairs s0.ga 1 → 2 ≤ size → size < s0.ga.attrs.numIndivid → max s0.ga.attrs.numIndivid (numPairs s0.ga 1) < B →
    After (singleOps fit (.tournament size) op mop tr) s0 k s →
    Sure B (mainLoop (singleOps fit (.tournament size) op mop tr) n) s := by
  intro n
  induction n with
  | zero =>
    intro k s0 s _ hn _ _ _ _ _ h
    exact Sure.of_ok (h.more hn []).2 (Tame.pure ()).ext rfl
  | succ n ih =>
    intro k s0 s h0 hn hpop hsz h2 hlt hb h
    rw [mainLoop]
    obtain ⟨_, hseed⟩ := h.more hn []
    refine Sure.bind hB hseed (generation_ext fit size op mop tr) (h0.generation_sure hn hpop hsz h2 hlt hB hb h) ?_
    intro u _ s1 e
    have h' := After.next (h.more hn u).1 e
    obtain ⟨_, n1⟩ := h'.more (by exact hn) []
    refine Sure.bind hB n1 Tame.getGa.ext (Sure.of_ok n1 Tame.getGa.ext (getGa_run s1)) ?_
    intro w ga s2 e2
    have e2 := Prod.mk.inj ((getGa_run _).symm.trans e2)
    obtain ⟨e3, rfl⟩ := e2
    injection e3 with e3
    subst e3
    have hI := (h0.more u).inv h'
    show Sure B (match s1.ga.earlyStop with | none => _ | some e => _) _
    cases he : s1.ga.earlyStop with
    | none => exact absurd (hI.stop.symm.trans he) h0.stop
    | some e =>
      simp only
      split
      · exact Sure.of_ok n1 (Tame.pure ()).ext rfl
      · exact ih ((h0.more u).more w) hn hpop hsz h2 hlt hb (h'.more (by exact hn) w).1

theorem evolve_sure (h0 : SafeSetup fit (.tournament size) op mop tr P s0) (hn : s0.seed = none)
    (hpop : s0.ga.population.length = s0.ga.attrs.numIndivid)
    (hsz : size ≤ numPairs s0.ga 1) (h2 : 2 ≤ size) (hlt : size < s0.ga.attrs.numIndivid) {B : Nat} (hB : 0 < B)
    (hb : max s0.ga.attrs.numIndivid (numPairs s0.ga 1) < B) :
    Sure B (evolve (singleOps fit (.tournament size) op mop tr)) s0 := by
  have hsafe := fun u => (h0.more u).evolve
  unfold evolve at hsafe ⊢
  refine Sure.bind hB hn (Tame.baseFitness fit).ext ?_ ?_
  · refine Sure.of_tame hn (Tame.baseFitness fit) fun u => ?_
    intro e s' hx
    exact hsafe u e s' (bind_of_err hx)
  intro u _ s1 e1
  obtain ⟨_, n1⟩ := (Tame.baseFitness fit).ext (s0.more u) s1 () [] hn e1
  refine Sure.bind hB n1 Tame.gaUpdate.ext ?_ ?_
  · refine Sure.of_tame n1 Tame.gaUpdate fun w => ?_
    intro e s' hx
    obtain ⟨e2, _⟩ := (Tame.baseFitness fit).ext (s0.more u) s1 () w hn e1
    rw [St.more_more] at e2
    refine hsafe (u ++ w) e s' ?_
    show (baseFitnessExec fit >>= _) _ = _
    rw [bind_of_ok e2]
    exact bind_of_err hx
  intro w _ s2 e2
  obtain ⟨_, n2⟩ := Tame.gaUpdate.ext (s1.more w) s2 () [] n1 e2
  obtain ⟨e1', _⟩ := (Tame.baseFitness fit).ext (s0.more u) s1 () w hn e1
  have hA : After (singleOps fit (.tournament size) op mop tr) ((s0.more u).more w) 1 s2 := After.first e1' e2
  refine Sure.bind hB n2 Tame.getGa.ext (Sure.of_ok n2 Tame.getGa.ext (getGa_run s2)) ?_
  intro z ga s3 e3
  obtain ⟨_, rfl⟩ := Prod.mk.inj ((getGa_run _).symm.trans e3)
  exact mainLoop_sure hB (((h0.more u).more w).more z) hn hpop hsz h2 hlt hb (hA.more (by exact hn) z).1

end
end BaumEva
