import Verif.Proofs.Vega
import Verif.Props.Selection
/-!
# C60: selections for vectors of scores
-/
namespace BaumEva
open Spec
variable {σ : Type}

/-- The entries of a list cut into blocks of `m`, block `i`. -/
def Spec.block (m : Nat) (l : List Nat) (i : Nat) : List Nat := (l.drop (m * i)).take m

theorem flatten_block {α : Type} {q : Nat} : ∀ {bs : List (List α)} {i : Nat} {b : List α}, (∀ b ∈ bs, b.length = q) →
    bs[i]? = some b → (bs.flatten.drop (q * i)).take q = b := by
  intro bs
  induction bs with
  | nil => intro i b _ h; simp at h
  | cons x bs ih =>
    intro i b hl h
    have hx := hl x List.mem_cons_self
    cases i with
    | zero =>
      simp at h; subst h
      rw [List.flatten_cons, Nat.mul_zero, List.drop_zero, List.take_append_of_le_length (by omega), ← hx, List.take_length]
    | succ i =>
      rw [List.getElem?_cons_succ] at h
      rw [List.flatten_cons, show q * (i + 1) = x.length + q * i by rw [hx]; ring, List.drop_append]
      rw [List.drop_eq_nil_of_le (by omega), List.nil_append, show x.length + q * i - x.length = q * i by omega]
      exact ih (fun b hb => hl b (List.mem_cons_of_mem _ hb)) h

theorem pairs_length (l : List (Nat × Nat)) : (l.flatMap fun p => [p.1, p.2]).length = 2 * l.length := by
  induction l with
  | nil => rfl
  | cons x l ih => rw [List.flatMap_cons, List.length_append, ih, List.length_cons]; simp; omega

theorem pairs_get : ∀ (ps : List (Nat × Nat)) (k : Nat) (p : Nat × Nat), ps[k]? = some p →
      (ps.flatMap fun p => [p.1, p.2])[2 * k]? = some p.1 ∧ (ps.flatMap fun p => [p.1, p.2])[2 * k + 1]? = some p.2 := by
  intro ps
  induction ps with
  | nil => intro k p h; simp at h
  | cons x xs ih =>
    intro k p h
    cases k with
    | zero => simp at h; subst h; simp
    | succ k =>
      rw [List.getElem?_cons_succ] at h
      obtain ⟨e1, e2⟩ := ih k p h
      rw [List.flatMap_cons, show 2 * (k + 1) = 2 * k + 1 + 1 by omega]
      exact ⟨e1, e2⟩

theorem wins_at {i : Nat} {s : St (List ℚ)} {t : List Nat} {r : Nat} (h : Wins (scoreAt i) s t r) :
    BestOf s.ga.population (fun r => (s.heap r).score.bind fun v => v[i]?) t r := by
  obtain ⟨h1, h2⟩ := h
  refine ⟨h1, ?_⟩
  intro j hj
  obtain ⟨p, e, h⟩ := h2 j hj
  refine ⟨p, e, ?_⟩
  intro vp vr e1 e2
  have key : ∀ q v k, (s.heap q).score.bind (fun v => v[i]?) = some v → scoreAt i (s.heap q) = .ok k → v = k := by
    intro q v k a b
    unfold scoreAt at b
    cases hs : (s.heap q).score with
    | none => rw [hs] at a; simp at a
    | some w =>
      rw [hs] at a b
      simp only [Option.bind_some] at a
      simp only [a] at b
      injection b
  rcases h with rfl | ⟨kp, kr, f1, f2, f3⟩
  · rw [e1] at e2; injection e2 with e2; rw [e2]; exact lt_irrefl _
  · rw [key _ _ _ e1 f1, key _ _ _ e2 f2]
    exact not_lt.mpr f3

/-- C60: after VEGA tournament selection the parents consist of one block of
`int(children_percent * num_individ / num_objectives)` pairs per objective; the parents of block `i` are new
objects equal to two different members which both won a tournament of `size` members by score `i`. -/
theorem C60_tournament_blocks {n : Nat} {size : Int} {s s' : St (List ℚ)} (hal : ∀ r ∈ s.ga.population, r < s.next)
    (h : vegaTournamentExec n size s = (.ok (), s')) :
    s'.ga.parents.length = n * (2 * (s.ga.attrs.arith.share s.ga.childrenPercent s.ga.attrs.numIndivid n)) ∧
    ∀ i, i < n → InPairs (s.ga.attrs.arith.share s.ga.childrenPercent s.ga.attrs.numIndivid n)
      (block (2 * (s.ga.attrs.arith.share s.ga.childrenPercent s.ga.attrs.numIndivid n)) s'.ga.parents i)
      (fun x a => s.next ≤ x ∧ a ∈ s.ga.population ∧ s'.heap x = s'.heap a)
      (fun a b => a ≠ b ∧ WonOne s.ga.population (fun r => (s.heap r).score.bind fun v => v[i]?) size a ∧
        WonOne s.ga.population (fun r => (s.heap r).score.bind fun v => v[i]?) size b) := by
  obtain ⟨_, _, s1, bs, hr, hpar, _, hc, hb⟩ := vegaTournament_ok hal h
  have hnum : (s.ga.attrs.arith.share s.ga.childrenPercent s.ga.attrs.numIndivid n) = numPairs s.ga n := by
    rw [numPairs_share]
  rw [hnum]
  set q := numPairs s.ga n with hq
  have hpop : s1.ga.population = s.ga.population := by rw [hr.ga]
  have hbl : ∀ b ∈ bs, b.length = q := by
    intro b hbm
    obtain ⟨_, _, hw⟩ := forall₂_mem hb hbm
    exact hw.1
  have hlenf : bs.flatten.length = n * q := by
    rw [List.length_flatten, List.map_congr_left (g := fun _ => q) fun b hb => hbl b hb]
    have := hb.length_eq
    simp at this
    simp [← this]
  have hlen : (bs.flatten.flatMap fun p => [p.1, p.2]).length = n * (2 * q) := by
    rw [show n * (2 * q) = 2 * (n * q) by ring, ← hlenf]
    exact pairs_length _
  have hpars : s'.ga.parents = List.range' s1.next (n * (2 * q)) := by
    rw [hc.ga]; simp only [hpar, List.nil_append, hlen]
  refine ⟨by rw [hpars]; simp, ?_⟩
  intro i hi
  obtain ⟨b, hbi⟩ : ∃ b, bs[i]? = some b := by
    have := hb.length_eq
    simp at this
    exact ⟨_, List.getElem?_eq_getElem (this ▸ hi)⟩
  have hwon : WonBlock size s1 q i b := by
    have := hb.get (i := i) (by simpa using hi) (by rw [← hb.length_eq]; simpa using hi)
    rw [List.get_eq_getElem, List.get_eq_getElem] at this
    simp only [List.getElem_range] at this
    rw [List.getElem?_eq_some_iff] at hbi
    obtain ⟨_, rfl⟩ := hbi
    exact this
  have hfl := flatten_block hbl hbi
  have hle : q * i + q ≤ n * q := by
    calc q * i + q = (i + 1) * q := by ring
      _ ≤ n * q := Nat.mul_le_mul_right _ hi
  have hblk : ∀ k, k < 2 * q → (block (2 * q) s'.ga.parents i)[k]? = some (s1.next + (2 * (q * i) + k)) := by
    intro k hk
    have e1 : n * (2 * q) = 2 * (n * q) := by ring
    have e2 : 2 * q * i = 2 * (q * i) := by ring
    unfold block
    rw [List.getElem?_take_of_lt hk, List.getElem?_drop, hpars, List.getElem?_range' (by omega), e2, Nat.one_mul]
  have hblen : (block (2 * q) s'.ga.parents i).length = 2 * q := by
    have e1 : n * (2 * q) = 2 * (n * q) := by ring
    have e2 : 2 * q * i = 2 * (q * i) := by ring
    unfold block
    rw [List.length_take, List.length_drop, hpars, List.length_range']
    omega
  refine ⟨hblen, ?_⟩
  intro k hk
  have hkb : k < b.length := by rw [hwon.1]; exact hk
  obtain ⟨m1, m2, w1, w2, hne⟩ := hwon.2 _ (List.getElem_mem hkb)
  have hget : bs.flatten[q * i + k]? = some b[k] := by
    rw [← List.getElem?_drop, ← List.getElem?_take_of_lt hk, hfl, List.getElem?_eq_getElem hkb]
  obtain ⟨e1, e2⟩ := pairs_get _ _ _ hget
  have won : ∀ a, WonTournament (scoreAt i) size s1 a →
      WonOne s.ga.population (fun r => (s.heap r).score.bind fun v => v[i]?) size a := by
    rintro a ⟨t, f1, f2, f3, f4⟩
    have := wins_at f4
    rw [hpop] at this f3
    have hfun : (fun r => (s1.heap r).score.bind fun v => v[i]?) = (fun r => (s.heap r).score.bind fun v => v[i]?) := by
      funext r; rw [(hr.core r).score]
    rw [hfun] at this
    exact ⟨t, f1, f2, f3, this⟩
  have hal1 : ∀ r ∈ s1.ga.population, r < s1.next := by rw [hpop, hr.next]; exact hal
  refine ⟨s1.next + 2 * (q * i + k), s1.next + (2 * (q * i + k) + 1), b[k].1, b[k].2, ?_, ?_, ⟨?_, hpop ▸ m1, ?_⟩, ⟨?_, hpop ▸ m2, ?_⟩,
    fun e => hne (by rw [e]), won _ w1, won _ w2⟩
  · rw [hblk _ (by omega)]; congr 1; ring
  · rw [hblk _ (by omega)]; congr 1; ring
  · rw [hr.next]; omega
  · rw [hc.new _ _ e1, hc.old _ (hal1 _ m1)]
  · rw [hr.next]; omega
  · rw [hc.new _ _ e2, hc.old _ (hal1 _ m2)]

/-! ## only the last objective -/

/-- State before the last round of a loop over objectives. -/
theorem selects_before_last {f : Nat → M σ Unit} (hf : ∀ i, Selects (f i)) {n : Nat} {s s' : St σ} {u : Unit}
    (hal : ∀ r ∈ s.ga.population, r < s.next) (h : forEach (List.range (n + 1)) f s = (.ok u, s')) :
    ∃ s1, (n = 0 ∧ s1 = s ∨ Selected s s1) ∧ f n s1 = (.ok (), s') := by
  rw [List.range_succ] at h
  obtain ⟨s1, h1, h2⟩ := forEach_append_ok.mp h
  obtain ⟨s2, h3, h4⟩ := forEach_cons_ok.mp h2
  rw [forEach_nil] at h4
  obtain rfl := (Prod.mk.inj h4).2
  refine ⟨s1, ?_, h3⟩
  by_cases hn : n = 0
  · subst hn
    rw [List.range_zero, forEach_nil] at h1
    exact .inl ⟨rfl, (Prod.mk.inj h1).2.symm⟩
  · refine .inr (selects_loop hf ?_ hal h1)
    rw [Ne, List.range_eq_nil]; exact hn

theorem balancedWith_pairs {pre : M σ Unit} {w : Ind σ → Except PyErr ℚ} {m : Nat} {s s1 s' : St σ} {u : Unit}
    (hx : s.ga.attrs.arith = .exact)
    (hpre : ∀ s s' u, pre s = (.ok u, s') → Relabelled s s' ∧ s'.ga.parents = s.ga.parents)
    (hne : s.ga.population ≠ []) (hal : ∀ r ∈ s.ga.population, r < s.next) (hs : s1 = s ∨ Selected s s1)
    (h : balancedWith pre w m s1 = (.ok u, s')) :
    ∃ ws sel, List.Forall₂ (fun r q => w (s'.heap r) = .ok q) s.ga.population ws ∧
      (∀ r, r < s.next → SameCore (s.heap r) (s'.heap r)) ∧ selectionScores ws = .ok sel ∧ ws.sum ≠ 0 ∧
      InPairs (s.ga.attrs.arith.share s.ga.childrenPercent s.ga.attrs.numIndivid m) s'.ga.parents
        (fun x a => s.next ≤ x ∧ a ∈ s.ga.population ∧ s'.heap x = s'.heap a) (SpunFrom sel s.ga.population) := by
  obtain ⟨hpop, hnx, hnum, har, hcore⟩ : s1.ga.population = s.ga.population ∧ s.next ≤ s1.next ∧ numPairs s1.ga m = numPairs s.ga m ∧ s1.ga.attrs.arith = s.ga.attrs.arith ∧
      ∀ r, r < s.next → SameCore (s.heap r) (s1.heap r) := by
    rcases hs with rfl | hs
    · exact ⟨rfl, le_rfl, rfl, rfl, fun _ _ => SameCore.refl _⟩
    · refine ⟨by rw [hs.ga], hs.next, ?_, by rw [hs.ga], hs.core⟩
      unfold numPairs
      rw [hs.ga]
  have hal1 : ∀ r ∈ s1.ga.population, r < s1.next := by
    rw [hpop]; exact fun r hr => (hal r hr).trans_le hnx
  obtain ⟨_, s2, ws, sel, ps, _, _, hr, hpar, hw, hsl, hl, hc, hp⟩ := balancedWith_ok hpre hal1 h
  have hws : ws ≠ [] := by
    rintro rfl
    have := hw.length_eq
    simp [hpop] at this
    exact hne this
  rw [har, hx, Arith.exact_rnd, selectionScoresR_id] at hsl
  rw [har, hx, Arith.exact_rnd] at hp
  have hsum := (selectionScores_ok hsl).2.1 hws
  have hold : ∀ r, r < s1.next → s'.heap r = s2.heap r := fun r hr' => hc.old r (by rw [hr.next]; exact hr')
  refine ⟨ws, sel, ?_, ?_, hsl, hsum, ?_⟩
  · rw [hpop] at hw
    refine (List.forall₂_iff_get.mpr ⟨hw.length_eq, fun i h1 h2 => ?_⟩)
    rw [hold _ ((hal _ (List.get_mem _ _)).trans_le hnx)]
    exact (List.forall₂_iff_get.mp hw).2 i h1 h2
  · intro r hlt
    rw [hold r (hlt.trans_le hnx)]
    exact (hcore r hlt).trans (hr.core r)
  · have e : (s.ga.attrs.arith.share s.ga.childrenPercent s.ga.attrs.numIndivid m) = ps.length := by
      rw [hl, hnum, numPairs_share]
    rw [e]
    have := inPairs_of_copied (P := SpunFrom sel s.ga.population) hpar hc (pop := s.ga.population)
      (by rw [hr.next]; exact fun r hr => (hal r hr).trans_le hnx) (by
        intro p hpm
        obtain ⟨a, b, c⟩ := hp p hpm
        rw [hpop] at a b c
        exact ⟨a, b, spunFrom hsl hsum c⟩)
    refine ⟨this.1, fun k hk => ?_⟩
    obtain ⟨x, y, a, b, h1, h2, h3, h4, h5⟩ := this.2 k hk
    rw [hr.next] at h3 h4
    exact ⟨x, y, a, b, h1, h2, ⟨hnx.trans h3.1, h3.2⟩, ⟨hnx.trans h4.1, h4.2⟩, h5⟩

/-- C60: after `VEGABalancedSelection` the parents are only the pairs of the last objective:
`int(children_percent * num_individ / num_objectives)` pairs spun from the wheel of that score. -/
theorem C60_balanced_last {n : Nat} {s s' : St (List ℚ)} (hx : s.ga.attrs.arith = .exact) (hal : ∀ r ∈ s.ga.population, r < s.next)
    (hne : s.ga.population ≠ []) (h : vegaBalancedExec (n + 1) s = (.ok (), s')) :
    ∃ ws sel, List.Forall₂ (fun r w => (s.heap r).score.bind (fun v => v[n]?) = some w) s.ga.population ws ∧
      selectionScores ws = .ok sel ∧ ws.sum ≠ 0 ∧
      InPairs (s.ga.attrs.arith.share s.ga.childrenPercent s.ga.attrs.numIndivid (n + 1)) s'.ga.parents
        (fun x a => s.next ≤ x ∧ a ∈ s.ga.population ∧ s'.heap x = s'.heap a) (SpunFrom sel s.ga.population) := by
  obtain ⟨s1, hs, h1⟩ := selects_before_last (fun i => balanced_at_selects i (n + 1)) hal h
  obtain ⟨ws, sel, a1, a2, a3, a4, a5⟩ := balancedWith_pairs hx (fun _ _ _ hv => noPre hv) hne hal (hs.imp And.right id) h1
  refine ⟨ws, sel, ?_, a3, a4, a5⟩
  refine (List.forall₂_iff_get.mpr ⟨a1.length_eq, fun i h1 h2 => ?_⟩)
  have := (List.forall₂_iff_get.mp a1).2 i h1 h2
  have hc := a2 _ (hal _ (List.get_mem s.ga.population ⟨i, h1⟩))
  unfold scoreAt at this
  rw [← hc.score]
  split at this
  · simp at this
  · rename_i l e
    rw [e]
    split at this
    · rename_i v e2
      simp only [Option.bind_some, e2]
      injection this with this
      rw [this]
    · simp at this

/-- C60: after `VEGARankedSelection` the parents are only the pairs of the last objective, spun from the wheel of
the last entry of the rank vectors. -/
theorem C60_ranked_last {n : Nat} {s s' : St (List ℚ)} (hx : s.ga.attrs.arith = .exact) (hal : ∀ r ∈ s.ga.population, r < s.next)
    (hne : s.ga.population ≠ []) (h : vegaRankedExec (n + 1) s = (.ok (), s')) :
    ∃ ws sel, List.Forall₂ (fun r w => ∃ l, (s'.heap r).rank = some (.vec l) ∧ l[n]? = some w) s.ga.population ws ∧
      selectionScores ws = .ok sel ∧ ws.sum ≠ 0 ∧
      InPairs (s.ga.attrs.arith.share s.ga.childrenPercent s.ga.attrs.numIndivid (n + 1)) s'.ga.parents
        (fun x a => s.next ≤ x ∧ a ∈ s.ga.population ∧ s'.heap x = s'.heap a) (SpunFrom sel s.ga.population) := by
  unfold vegaRankedExec at h
  rw [bind_of_ok (getGa_run s)] at h
  obtain ⟨_, s0, h0, h⟩ := bind_ok.mp h
  obtain ⟨⟨r1, r2, _⟩, _, _⟩ := clearRanks_ok (fun r hr => hr) h0
  have hal0 : ∀ r ∈ s0.ga.population, r < s0.next := by rw [r2, r1.next]; exact hal
  obtain ⟨s1, hs, h1⟩ := selects_before_last (fun i => ranked_at_selects i (n + 1)) hal0 h
  obtain ⟨ws, sel, a1, a2, a3, a4, a5⟩ := balancedWith_pairs (by rw [r2]; exact hx) (fun _ _ _ hv => vegaRankedPre hv) (by rw [r2]; exact hne) hal0
    (hs.imp And.right id) h1
  rw [r2, r1.next] at a5
  rw [r2] at a1
  refine ⟨ws, sel, a1.imp ?_, a3, a4, a5⟩
  intro r q e
  unfold rankAt at e
  split at e
  · rename_i l e1
    split at e
    · rename_i v e2
      injection e with e
      exact ⟨l, e1, by rw [e2, e]⟩
    · simp at e
  · simp at e

/-! ## examples -/

/-- Pseudo-random draws for examples. -/
def exDraws : Nat → Nat → List Nat
  | 0, _ => []
  | n + 1, x => x / 2 ^ 11 :: exDraws n ((x * 6364136223846793005 + 1442695040888963407) % 2 ^ 64)

/-- Six individuals with two scores each. -/
def exVegaState : St (List ℚ) :=
  { heap := fun r => { genotype := some [.num r], score := ([[1, 6], [2, 5], [3, 4], [4, 3], [5, 2], [6, 1]] : List (List ℚ))[r]? }
    next := 6
    tape := exDraws 100 5
    ga := { population := [0, 1, 2, 3, 4, 5], childrenPercent := 2/3, attrs := { numIndivid := 6 } } }

example : ∀ r ∈ exVegaState.ga.population, r < exVegaState.next := by decide

/-- Two pairs per objective: the first block has high first scores, the second high second scores. -/
example : (vegaTournamentExec 2 3 exVegaState).1 = .ok () ∧
    ((vegaTournamentExec 2 3 exVegaState).2.ga.parents.map fun r => ((vegaTournamentExec 2 3 exVegaState).2.heap r).score) =
      [some [5, 2], some [4, 3], some [6, 1], some [4, 3], some [1, 6], some [2, 5], some [2, 5], some [1, 6]] := by decide +kernel

/-- Two pairs in all. -/
example : (vegaBalancedExec 2 exVegaState).1 = .ok () ∧ (vegaBalancedExec 2 exVegaState).2.ga.parents.length = 4 ∧
    (vegaRankedExec 2 exVegaState).1 = .ok () ∧ (vegaRankedExec 2 exVegaState).2.ga.parents.length = 4 := by decide +kernel

end BaumEva
