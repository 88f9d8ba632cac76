import Verif.Props.Chances
import Mathlib.Data.Set.Card
import Mathlib.Data.Nat.Factorial.Basic
import Mathlib.Data.Nat.Choose.Basic
import Mathlib.Logic.Equiv.Basic
/-!
# C88: how often an individual wins a tournament
-/
namespace BaumEva
open BaumEva.Spec
variable {σ κ : Type}

/-! ## Counting draws -/

theorem reduced_finite : ∀ bounds : List Nat, {t | Reduced bounds t}.Finite
  | [] => by
    refine (Set.finite_singleton []).subset ?_
    intro t ht
    cases ht
    rfl
  | n :: ns => by
    refine (((Set.finite_Iio n).prod (reduced_finite ns)).image fun p => p.1 :: p.2).subset ?_
    intro t ht
    cases ht with
    | cons h1 h2 => exact ⟨(_, _), ⟨h1, h2⟩, rfl⟩

/-- The number of reduced draws is the product of the bounds. -/
theorem reduced_card : ∀ bounds : List Nat, {t | Reduced bounds t}.ncard = bounds.prod
  | [] => by
    have : {t | Reduced [] t} = {[]} := by
      ext t
      constructor
      · intro h; cases h; rfl
      · rintro rfl; exact .nil
    rw [this, Set.ncard_singleton]
    rfl
  | n :: ns => by
    have : {t | Reduced (n :: ns) t} = (fun p : Nat × List Nat => p.1 :: p.2) '' (Set.Iio n ×ˢ {t | Reduced ns t}) := by
      ext t
      constructor
      · intro h
        cases h with
        | cons h1 h2 => exact ⟨(_, _), ⟨h1, h2⟩, rfl⟩
      · rintro ⟨⟨x, t⟩, ⟨h1, h2⟩, rfl⟩
        exact .cons h1 h2
    rw [this, Set.ncard_image_of_injective _ (by
      rintro ⟨a, b⟩ ⟨c, d⟩ h
      simpa using h), Set.ncard_prod, reduced_card ns, List.prod_cons]
    congr 1
    rw [Set.ncard_eq_toFinset_card']
    simp

theorem countdown_prod (n k : Nat) : (countdown n k).prod = n.descFactorial k := by
  induction k generalizing n with
  | zero => rfl
  | succ k ih =>
    rw [countdown, List.prod_cons, ih]
    cases n with
    | zero => simp
    | succ n => rw [Nat.succ_descFactorial_succ]; rfl

theorem pick_of_reduced {α : Type} [Inhabited α] : ∀ {k : Nat} {l : List α} {t : List Nat}, l.Nodup → Reduced (countdown l.length k) t →
    (pick l t).Nodup ∧ (∀ y ∈ pick l t, y ∈ l) ∧ (pick l t).length = k := by
  intro k
  induction k with
  | zero => intro l t _ h; cases h; simp [pick]
  | succ k ih =>
    intro l t hl h
    rw [countdown] at h
    cases h with
    | cons h1 h2 =>
      rename_i x t
      have hlen : (l.eraseIdx x).length = l.length - 1 := List.length_eraseIdx_of_lt h1
      obtain ⟨i1, i2, i3⟩ := ih (l := l.eraseIdx x) (hl.sublist (List.eraseIdx_sublist ..)) (by rw [hlen]; exact h2)
      rw [pick, Nat.mod_eq_of_lt h1, List.getElem?_eq_getElem h1]
      simp only [Option.getD_some]
      refine ⟨List.nodup_cons.mpr ⟨fun hm => ?_, i1⟩, ?_, by simp [i3]⟩
      · have := i2 _ hm
        rw [List.mem_eraseIdx_iff_getElem] at this
        obtain ⟨j, hj, hne, e⟩ := this
        exact hne ((List.Nodup.getElem_inj_iff hl).mp e)
      · intro y hy
        rcases List.mem_cons.mp hy with rfl | hy
        · exact List.getElem_mem h1
        · exact (List.eraseIdx_sublist ..).subset (i2 y hy)

/-- The ordered samples of `k` different members of `l`. -/
def Samples {α : Type} (l : List α) (k : Nat) : Set (List α) := {ys | ys.Nodup ∧ (∀ y ∈ ys, y ∈ l) ∧ ys.length = k}

/-- Draws and samples correspond to each other. -/
theorem draws_samples {α : Type} [Inhabited α] {l : List α} (hl : l.Nodup) (k : Nat) (Q : List α → Prop) :
    {t | Reduced (countdown l.length k) t ∧ Q (pick l t)}.ncard = {ys | ys ∈ Samples l k ∧ Q ys}.ncard := by
  refine Set.ncard_congr (fun t _ => pick l t) ?_ ?_ ?_
  · rintro t ⟨h1, h2⟩
    exact ⟨pick_of_reduced hl h1, h2⟩
  · rintro t t' ⟨h1, _⟩ ⟨h2, _⟩ e
    obtain ⟨a1, a2, a3⟩ := pick_of_reduced hl h1
    obtain ⟨t0, _, h0⟩ := pick_unique hl a1 a2
    rw [a3] at h0
    exact (h0 t ⟨h1, rfl⟩).trans (h0 t' ⟨h2, e.symm⟩).symm
  · rintro ys ⟨⟨h1, h2, h3⟩, hq⟩
    obtain ⟨t, ⟨e1, e2⟩, _⟩ := pick_unique hl h1 h2
    rw [h3] at e1
    exact ⟨t, ⟨e1, by rw [e2]; exact hq⟩, e2⟩

theorem samples_card {α : Type} [Inhabited α] {l : List α} (hl : l.Nodup) (k : Nat) : (Samples l k).ncard = l.length.descFactorial k := by
  have := draws_samples hl k fun _ => True
  simp only [and_true, Set.ofPred_mem_eq] at this
  rw [← this, reduced_card, countdown_prod]

theorem samples_finite {α : Type} [Inhabited α] {l : List α} (hl : l.Nodup) (k : Nat) : (Samples l k).Finite := by
  refine ((reduced_finite (countdown l.length k)).image (pick l)).subset ?_
  rintro ys ⟨h1, h2, h3⟩
  obtain ⟨t, ⟨e1, e2⟩, _⟩ := pick_unique hl h1 h2
  rw [h3] at e1
  exact ⟨t, e1, e2⟩

/-- The samples all of whose members satisfy `p`. -/
theorem samples_all {α : Type} [Inhabited α] {l : List α} (hl : l.Nodup) (k : Nat) (p : α → Bool) :
    {ys | ys ∈ Samples l k ∧ ∀ y ∈ ys, p y = true}.ncard = (l.countP p).descFactorial k := by
  rw [List.countP_eq_length_filter, ← samples_card (hl.filter p)]
  congr 1
  ext ys
  unfold Samples
  simp only [Set.mem_ofPred_eq, List.mem_filter]
  constructor
  · rintro ⟨⟨h1, h2, h3⟩, h4⟩
    exact ⟨h1, fun y hy => ⟨h2 y hy, h4 y hy⟩, h3⟩
  · rintro ⟨h1, h2, h3⟩
    exact ⟨⟨h1, fun y hy => (h2 y hy).1, h3⟩, fun y hy => (h2 y hy).2⟩

/-! ## The winner of a sample -/

section
variable [LinearOrder κ]

/-- `a` is the first member of `ys` with the largest value. -/
def FirstBest (v : Nat → κ) (ys : List Nat) (a : Nat) : Prop :=
  ∃ pre post, ys = pre ++ a :: post ∧ (∀ y ∈ pre, v y < v a) ∧ ∀ y ∈ post, v y ≤ v a

theorem FirstBest.le {v : Nat → κ} {ys : List Nat} {a : Nat} (h : FirstBest v ys a) : ∀ y ∈ ys, v y ≤ v a := by
  obtain ⟨pre, post, rfl, h1, h2⟩ := h
  intro y hy
  rcases List.mem_append.mp hy with hy | hy
  · exact (h1 y hy).le
  · rcases List.mem_cons.mp hy with rfl | hy
    · exact le_rfl
    · exact h2 y hy

theorem FirstBest.mem {v : Nat → κ} {ys : List Nat} {a : Nat} (h : FirstBest v ys a) : a ∈ ys := by
  obtain ⟨pre, post, rfl, _⟩ := h
  simp

theorem FirstBest.unique {v : Nat → κ} {ys : List Nat} {a b : Nat} (ha : FirstBest v ys a) (hb : FirstBest v ys b) : a = b := by
  have e : v a = v b := le_antisymm (hb.le a ha.mem) (ha.le b hb.mem)
  obtain ⟨pre, post, rfl, h1, h2⟩ := ha
  obtain ⟨pre', post', h, h3, h4⟩ := hb
  rcases List.append_eq_append_iff.mp h with ⟨l, h5, h6⟩ | ⟨l, h5, h6⟩
  · cases l with
    | nil => simp at h6; exact h6.1
    | cons z l =>
      simp only [List.cons_append, List.cons.injEq] at h6
      have := h3 a (by rw [h5, h6.1]; simp)
      rw [e] at this
      exact absurd this (lt_irrefl _)
  · cases l with
    | nil => simp at h6; exact h6.1.symm
    | cons z l =>
      simp only [List.cons_append, List.cons.injEq] at h6
      have := h1 b (by rw [h5, h6.1]; simp)
      rw [e] at this
      exact absurd this (lt_irrefl _)

theorem FirstBest.exists {v : Nat → κ} : ∀ {ys : List Nat}, ys ≠ [] → ∃ a, FirstBest v ys a := by
  intro ys
  induction ys using List.reverseRecOn with
  | nil => intro h; exact absurd rfl h
  | append_singleton ys y ih =>
    intro _
    by_cases hy : ys = []
    · subst hy; exact ⟨y, [], [], rfl, by simp, by simp⟩
    · obtain ⟨a, ha⟩ := ih hy
      by_cases hlt : v a < v y
      · exact ⟨y, ys, [], rfl, fun z hz => lt_of_le_of_lt (ha.le z hz) hlt, by simp⟩
      · obtain ⟨pre, post, rfl, h1, h2⟩ := ha
        refine ⟨a, pre, post ++ [y], by simp, h1, ?_⟩
        intro z hz
        rcases List.mem_append.mp hz with hz | hz
        · exact h2 z hz
        · rw [List.mem_singleton.mp hz]; exact not_lt.mp hlt

/-- Exchanging `a` by a member that is at least as good makes that one the winner. -/
theorem FirstBest.swap {v : Nat → κ} {ys : List Nat} {a b : Nat} (hd : ys.Nodup) (h : FirstBest v ys a) (hab : v a ≤ v b) :
    FirstBest v (ys.map (Equiv.swap a b)) b := by
  obtain ⟨pre, post, rfl, h1, h2⟩ := h
  rw [List.nodup_append] at hd
  obtain ⟨d1, d2, d3⟩ := hd
  rw [List.nodup_cons] at d2
  refine ⟨pre.map (Equiv.swap a b), post.map (Equiv.swap a b), by simp, ?_, ?_⟩
  · intro y hy
    obtain ⟨z, hz, rfl⟩ := List.mem_map.mp hy
    have z1 := h1 z hz
    have za : z ≠ a := fun e => d3 z hz a (by simp) e
    have zb : z ≠ b := by
      rintro rfl
      exact absurd (lt_of_lt_of_le z1 hab) (lt_irrefl _)
    rw [Equiv.swap_apply_of_ne_of_ne za zb]
    exact lt_of_lt_of_le z1 hab
  · intro y hy
    obtain ⟨z, hz, rfl⟩ := List.mem_map.mp hy
    have z1 := h2 z hz
    have za : z ≠ a := fun e => d2.1 (e ▸ hz)
    by_cases zb : z = b
    · rw [zb, Equiv.swap_apply_right]; exact hab
    · rw [Equiv.swap_apply_of_ne_of_ne za zb]
      exact z1.trans hab

theorem getBestLoop_first {key : Ind σ → Except PyErr κ} {s : St σ} {v : Nat → κ} (hk : ∀ r ∈ s.ga.population, key (s.heap r) = .ok (v r)) :
    ∀ {is : List Nat} {ys seen : List Nat} {best : Nat}, best ∈ s.ga.population → FirstBest v seen best →
      List.Forall₂ (fun i y => s.ga.population[i]? = some y) is ys →
      ∃ r, getBestLoop key best is s = (.ok r, s) ∧ FirstBest v (seen ++ ys) r := by
  intro is
  induction is with
  | nil =>
    intro ys seen best _ hb hf
    cases hf
    exact ⟨best, rfl, by rw [List.append_nil]; exact hb⟩
  | cons i is ih =>
    intro ys seen best hm hb hf
    cases hf with
    | cons h1 h2 =>
      rename_i y ys
      have hy := List.mem_of_getElem? h1
      rw [getBestLoop, bind_of_ok (popAt_run h1), bind_of_ok (getInd_run y s), bind_of_ok (getInd_run best s),
        bind_of_ok (a := v y) (s' := s) (by rw [hk y hy]; rfl), bind_of_ok (a := v best) (s' := s) (by rw [hk best hm]; rfl)]
      have e : seen ++ y :: ys = (seen ++ [y]) ++ ys := by simp
      rw [e]
      by_cases hlt : v best < v y
      · rw [if_pos hlt]
        exact ih hy ⟨seen, [], by simp, fun z hz => lt_of_le_of_lt (hb.le z hz) hlt, by simp⟩ h2
      · rw [if_neg hlt]
        refine ih hm ?_ h2
        obtain ⟨pre, post, rfl, b1, b2⟩ := hb
        refine ⟨pre, post ++ [y], by simp, b1, ?_⟩
        intro z hz
        rcases List.mem_append.mp hz with hz | hz
        · exact b2 z hz
        · rw [List.mem_singleton.mp hz]; exact not_lt.mp hlt

theorem pick_map {α β : Type} [Inhabited α] [Inhabited β] (f : α → β) : ∀ {k : Nat} {l : List α} {t : List Nat},
    Reduced (countdown l.length k) t → pick (l.map f) t = (pick l t).map f := by
  intro k
  induction k with
  | zero => intro l t h; cases h; rfl
  | succ k ih =>
    intro l t h
    rw [countdown] at h
    cases h with
    | cons h1 h2 =>
      rename_i x t
      have hlen : (l.eraseIdx x).length = l.length - 1 := List.length_eraseIdx_of_lt h1
      rw [pick, pick, List.length_map, Nat.mod_eq_of_lt h1, List.getElem?_map, List.getElem?_eq_getElem h1, List.eraseIdx_map,
        ih (by rw [hlen]; exact h2)]
      rfl

/-- The value of the individual at a place of the population. -/
def valueAt (v : Nat → κ) (pop : List Nat) (i : Nat) : κ := v (pop[i]?.getD default)

theorem FirstBest.map {v : Nat → κ} {f : Nat → Nat} {is : List Nat} {i : Nat} (h : FirstBest (fun i => v (f i)) is i) :
    FirstBest v (is.map f) (f i) := by
  obtain ⟨pre, post, rfl, h1, h2⟩ := h
  refine ⟨pre.map f, post.map f, by simp, ?_, ?_⟩
  · intro y hy
    obtain ⟨z, hz, rfl⟩ := List.mem_map.mp hy
    exact h1 z hz
  · intro y hy
    obtain ⟨z, hz, rfl⟩ := List.mem_map.mp hy
    exact h2 z hz

/-- A tournament as a function of the draws: the places drawn and the first best among them. -/
theorem oneTournament_first_append {key : Ind σ → Except PyErr κ} {k : Nat} {s : St σ} {v : Nat → κ}
    (hk : ∀ r ∈ s.ga.population, key (s.heap r) = .ok (v r)) (h1 : 1 ≤ k) (h2 : k ≤ s.ga.population.length) {t : List Nat}
    (ht : Reduced (countdown s.ga.population.length k) t) (u : List Nat) :
    ∃ i r, oneTournament key k { s with tape := t ++ u } = (.ok r, { s with tape := u }) ∧ s.ga.population[i]? = some r ∧
      FirstBest (valueAt v s.ga.population) (pick (List.range s.ga.population.length) t) i := by
  set pop := s.ga.population with hpop
  have htl : t.length = k := by rw [← ht.length_eq, countdown_length]
  have hs : sample (List.range pop.length) k { s with tape := t ++ u } = (.ok (pick (List.range pop.length) t), { s with tape := u }) := by
    unfold sample
    rw [if_neg (by simp; omega)]
    have := sampleAux_det (σ := σ) (l := List.range pop.length) (k := k) (by simp; exact h2) s t u htl
    simpa using this
  have hlen : Reduced (countdown (List.range pop.length).length k) t := by simpa using ht
  obtain ⟨p1, p2, p3⟩ := pick_of_reduced List.nodup_range hlen
  obtain ⟨i, hi⟩ := FirstBest.exists (v := valueAt v pop) (ys := pick (List.range pop.length) t) (by
    intro e; rw [e] at p3; simp at p3; omega)
  have hil := List.mem_range.mp (p2 i hi.mem)
  refine ⟨i, pop[i], ?_, List.getElem?_eq_getElem hil, hi⟩
  have hval : pop[i] = pop[i]?.getD default := by rw [List.getElem?_eq_getElem hil]; rfl
  unfold oneTournament
  rw [bind_of_ok (getGa_run _)]
  show ((BaumEva.sample (List.range pop.length) k) >>= _) _ = _
  rw [bind_of_ok hs]
  have hf : List.Forall₂ (fun i y => pop[i]? = some y) (pick (List.range pop.length) t)
      ((pick (List.range pop.length) t).map fun i => pop[i]?.getD default) := by
    rw [List.forall₂_map_right_iff, List.forall₂_same]
    intro i hi
    have := List.mem_range.mp (p2 i hi)
    rw [List.getElem?_eq_getElem this]
    rfl
  have hb := FirstBest.map (f := fun i => pop[i]?.getD default) hi
  rw [← hval] at hb
  revert hf hb
  generalize (pick (List.range pop.length) t).map (fun i => pop[i]?.getD default) = ys
  generalize pick (List.range pop.length) t = is at p3
  intro hf hb
  cases hf with
  | nil => simp at p3; omega
  | cons e1 e2 =>
    rename_i i y is ys
    rw [getBest, bind_of_ok (popAt_run (s := { s with tape := u }) (r := y) e1)]
    obtain ⟨r, r1, r2⟩ := getBestLoop_first (s := { s with tape := u }) (v := v) hk (seen := [y]) (best := y) (List.mem_of_getElem? e1)
      ⟨[], [], rfl, by simp, by simp⟩ e2
    rw [r1, r2.unique hb]

theorem oneTournament_first {key : Ind σ → Except PyErr κ} {k : Nat} {s : St σ} {v : Nat → κ}
    (hk : ∀ r ∈ s.ga.population, key (s.heap r) = .ok (v r)) (h1 : 1 ≤ k) (h2 : k ≤ s.ga.population.length) {t : List Nat}
    (ht : Reduced (countdown s.ga.population.length k) t) :
    ∃ i r, oneTournament key k { s with tape := t } = (.ok r, { s with tape := [] }) ∧ s.ga.population[i]? = some r ∧
      FirstBest (valueAt v s.ga.population) (pick (List.range s.ga.population.length) t) i := by
  have := oneTournament_first_append hk h1 h2 ht []
  rwa [List.append_nil] at this

/-! ## Samples by their winner -/

section
variable {v : Nat → κ} {l : List Nat} {k : Nat}

/-- The samples won by `a`. -/
def WonBy (v : Nat → κ) (l : List Nat) (k a : Nat) : Set (List Nat) := {ys | ys ∈ Samples l k ∧ FirstBest v ys a}

theorem wonBy_finite (hd : l.Nodup) (a : Nat) : (WonBy v l k a).Finite := (samples_finite hd k).subset fun _ h => h.1

theorem samples_level (hd : l.Nodup) (h1 : 1 ≤ k) (x : κ) :
    {ys | ∃ a, ys ∈ WonBy v l k a ∧ v a ≤ x}.ncard = (l.countP fun p => v p ≤ x).descFactorial k := by
  rw [← samples_all hd k]
  congr 1
  ext ys
  simp only [Set.mem_ofPred_eq, decide_eq_true_eq]
  constructor
  · rintro ⟨r, ⟨hs, hr⟩, hx⟩
    exact ⟨hs, fun y hy => (hr.le y hy).trans hx⟩
  · rintro ⟨hs, h⟩
    obtain ⟨r, hr⟩ := FirstBest.exists (v := v) (ys := ys) (by rintro rfl; have := hs.2.2; simp at this; omega)
    exact ⟨r, ⟨hs, hr⟩, h r hr.mem⟩

theorem samples_below (hd : l.Nodup) (h1 : 1 ≤ k) (x : κ) :
    {ys | ∃ a, ys ∈ WonBy v l k a ∧ v a < x}.ncard = (l.countP fun p => v p < x).descFactorial k := by
  rw [← samples_all hd k]
  congr 1
  ext ys
  simp only [Set.mem_ofPred_eq, decide_eq_true_eq]
  constructor
  · rintro ⟨r, ⟨hs, hr⟩, hx⟩
    exact ⟨hs, fun y hy => lt_of_le_of_lt (hr.le y hy) hx⟩
  · rintro ⟨hs, h⟩
    obtain ⟨r, hr⟩ := FirstBest.exists (v := v) (ys := ys) (by rintro rfl; have := hs.2.2; simp at this; omega)
    exact ⟨r, ⟨hs, hr⟩, h r hr.mem⟩

theorem swap_samples {l : List Nat} {a b : Nat} (ha : a ∈ l) (hb : b ∈ l) {ys : List Nat} (h : ys ∈ Samples l k) :
    ys.map (Equiv.swap a b) ∈ Samples l k := by
  obtain ⟨h1, h2, h3⟩ := h
  refine ⟨h1.map (Equiv.injective _), ?_, by simp [h3]⟩
  intro y hy
  obtain ⟨z, hz, rfl⟩ := List.mem_map.mp hy
  by_cases za : z = a
  · rw [za, Equiv.swap_apply_left]; exact hb
  by_cases zb : z = b
  · rw [zb, Equiv.swap_apply_right]; exact ha
  rw [Equiv.swap_apply_of_ne_of_ne za zb]
  exact h2 z hz

theorem wonBy_prefers (hd : l.Nodup) {a b : Nat} (ha : a ∈ l) (hb : b ∈ l) (hab : v a ≤ v b) :
    (WonBy v l k a).ncard ≤ (WonBy v l k b).ncard := by
  refine Set.ncard_le_ncard_of_injOn (fun ys => ys.map (Equiv.swap a b)) ?_ ?_ (wonBy_finite hd b)
  · rintro ys ⟨y1, y2⟩
    exact ⟨swap_samples ha hb y1, y2.swap y1.1 hab⟩
  · intro x _ y _ e
    exact List.map_injective_iff.mpr (Equiv.injective _) e

theorem wonBy_ties (hd : l.Nodup) {a b : Nat} (ha : a ∈ l) (hb : b ∈ l) (hab : v a = v b) :
    (WonBy v l k a).ncard = (WonBy v l k b).ncard :=
  le_antisymm (wonBy_prefers hd ha hb hab.le) (wonBy_prefers hd hb ha hab.ge)

theorem wonBy_strict (hd : l.Nodup) (h1 : 2 ≤ k) {a b : Nat} (ha : a ∈ l) (hb : b ∈ l) (hab : v a < v b)
    (hc : k ≤ l.countP fun p => v p ≤ v b) : (WonBy v l k a).ncard < (WonBy v l k b).ncard := by
  have hinj : Function.Injective fun ys : List Nat => ys.map (Equiv.swap a b) := List.map_injective_iff.mpr (Equiv.injective _)
  rw [← Set.ncard_image_of_injective _ hinj]
  refine Set.ncard_lt_ncard ?_ (wonBy_finite hd b)
  rw [Set.ssubset_iff_of_subset (by
    rintro _ ⟨ys, ⟨y1, y2⟩, rfl⟩
    exact ⟨swap_samples ha hb y1, y2.swap y1.1 hab.le⟩)]
  -- a sample with both
  have hne : a ≠ b := by rintro rfl; exact lt_irrefl _ hab
  set L := (l.filter fun p => decide (v p ≤ v b)) with hL
  have hLd : L.Nodup := hd.filter _
  have haL : a ∈ L := List.mem_filter.mpr ⟨ha, by simpa using hab.le⟩
  have hbL : b ∈ L := List.mem_filter.mpr ⟨hb, by simp⟩
  have hLl : k ≤ L.length := by rw [hL, ← List.countP_eq_length_filter]; exact hc
  have hbL' : b ∈ L.erase a := (List.mem_erase_of_ne (Ne.symm hne)).mpr hbL
  have hsub : ∀ z ∈ ((L.erase a).erase b).take (k - 2), z ∈ L ∧ z ≠ a ∧ z ≠ b := by
    intro z hz
    have hz := (List.take_sublist _ _).subset hz
    rw [(hLd.erase a).mem_erase_iff] at hz
    obtain ⟨z1, z2⟩ := hz
    rw [hLd.mem_erase_iff] at z2
    exact ⟨z2.2, z2.1, z1⟩
  refine ⟨b :: a :: ((L.erase a).erase b).take (k - 2), ⟨⟨?_, ?_, ?_⟩, ⟨[], _, rfl, by simp, ?_⟩⟩, ?_⟩
  · rw [List.nodup_cons, List.nodup_cons]
    refine ⟨?_, fun h => (hsub a h).2.1 rfl, ((hLd.erase a).erase b).sublist (List.take_sublist _ _)⟩
    intro h
    rcases List.mem_cons.mp h with h | h
    · exact hne h.symm
    · exact (hsub b h).2.2 rfl
  · intro y hy
    rcases List.mem_cons.mp hy with rfl | hy
    · exact hb
    · rcases List.mem_cons.mp hy with rfl | hy
      · exact ha
      · exact (List.mem_filter.mp (hsub y hy).1).1
  · rw [List.length_cons, List.length_cons, List.length_take, List.length_erase_of_mem hbL', List.length_erase_of_mem haL]
    omega
  · intro y hy
    rcases List.mem_cons.mp hy with rfl | hy
    · exact hab.le
    · simpa using (List.mem_filter.mp (hsub y hy).1).2
  · rintro ⟨ys, ⟨_, y2⟩, e⟩
    -- the better one would be in a sample won by the worse one
    have hm : a ∈ ys.map (Equiv.swap a b) := by
      simp only at e
      rw [e]; simp
    obtain ⟨z, hz, e1⟩ := List.mem_map.mp hm
    have : z = b := by
      have := congrArg (Equiv.swap a b) e1
      simpa using this
    subst this
    exact absurd (y2.le _ hz) (not_le.mpr hab)

/-- The samples won by members of a list of equally good members. -/
theorem wonBy_list (hd : l.Nodup) (h0 : Nat) : ∀ {as : List Nat}, as.Nodup → (∀ x ∈ as, (WonBy v l k x).ncard = h0) →
    {ys | ∃ x, ys ∈ WonBy v l k x ∧ x ∈ as}.ncard = as.length * h0 := by
  intro as
  induction as with
  | nil => intro _ _; simp
  | cons a as ih =>
    intro hl hm
    rw [List.nodup_cons] at hl
    have : {ys | ∃ x, ys ∈ WonBy v l k x ∧ x ∈ a :: as} = WonBy v l k a ∪ {ys | ∃ x, ys ∈ WonBy v l k x ∧ x ∈ as} := by
      ext t
      simp only [Set.mem_ofPred_eq, List.mem_cons, Set.mem_union]
      constructor
      · rintro ⟨x, hx, rfl | hl⟩
        · exact .inl hx
        · exact .inr ⟨x, hx, hl⟩
      · rintro (hx | ⟨x, hx, hl⟩)
        · exact ⟨a, hx, .inl rfl⟩
        · exact ⟨x, hx, .inr hl⟩
    have hfin : {ys | ∃ x, ys ∈ WonBy v l k x ∧ x ∈ as}.Finite := (samples_finite hd k).subset fun t h => by
      obtain ⟨_, h, _⟩ := h; exact h.1
    rw [this, Set.ncard_union_eq ?_ (wonBy_finite hd a) hfin, ih hl.2 (fun x hx => hm x (List.mem_cons_of_mem _ hx)),
      hm a (by simp), List.length_cons]
    · ring
    · rw [Set.disjoint_left]
      rintro t h3 ⟨x, h4, h5⟩
      exact hl.1 (h3.2.unique h4.2 ▸ h5)

theorem wonBy_exact (hd : l.Nodup) (h1 : 1 ≤ k) {r : Nat} (hr : r ∈ l) :
    (l.countP fun p => v p = v r) * (WonBy v l k r).ncard + (l.countP fun p => v p < v r).descFactorial k =
      (l.countP fun p => v p ≤ v r).descFactorial k := by
  rw [← samples_level hd h1, ← samples_below hd h1]
  have hfin : ∀ P : Nat → Prop, {ys | ∃ r, ys ∈ WonBy v l k r ∧ P r}.Finite :=
    fun P => (samples_finite hd k).subset fun t h => by obtain ⟨_, h, _⟩ := h; exact h.1
  have hsplit : {t | ∃ x, t ∈ WonBy v l k x ∧ v x ≤ v r} = {t | ∃ x, t ∈ WonBy v l k x ∧ v x = v r} ∪ {t | ∃ x, t ∈ WonBy v l k x ∧ v x < v r} := by
    ext t
    constructor
    · rintro ⟨x, hx, hl⟩
      rcases hl.lt_or_eq with hl | hl
      · exact .inr ⟨x, hx, hl⟩
      · exact .inl ⟨x, hx, hl⟩
    · rintro (⟨x, hx, hl⟩ | ⟨x, hx, hl⟩)
      · exact ⟨x, hx, hl.le⟩
      · exact ⟨x, hx, hl.le⟩
  rw [hsplit, Set.ncard_union_eq ?_ (hfin _) (hfin _)]
  · congr 1
    rw [List.countP_eq_length_filter, ← wonBy_list hd _ (hd.filter _) (fun x hx => by
      have hx := List.mem_filter.mp hx
      exact wonBy_ties hd hx.1 hr (by simpa using hx.2))]
    congr 1
    ext t
    constructor
    · rintro ⟨x, hx, hl⟩
      exact ⟨x, hx, by simpa using (List.mem_filter.mp hl).2⟩
    · rintro ⟨x, hx, hl⟩
      exact ⟨x, hx, List.mem_filter.mpr ⟨hx.1.2.1 _ hx.2.mem, by simpa using hl⟩⟩
  · rw [Set.disjoint_left]
    rintro t ⟨x, h3, h4⟩ ⟨y, h5, h6⟩
    have := h3.2.unique h5.2
    subst this
    rw [h4] at h6
    exact lt_irrefl _ h6

end

/-! ## C88 -/

/-- The draws with which `r` wins a tournament of `k` participants. -/
def Won (key : Ind σ → Except PyErr κ) (k : Nat) (s : St σ) (r : Nat) : Set (List Nat) :=
  {t | Reduced (countdown s.ga.population.length k) t ∧ oneTournament key k { s with tape := t } = (.ok r, { s with tape := [] })}

omit [LinearOrder κ] in
theorem countP_places (v : Nat → κ) (pop : List Nat) (p : κ → Bool) :
    ((List.range pop.length).countP fun i => p (valueAt v pop i)) = pop.countP fun r => p (v r) := by
  rw [countP_range (fun r => p (v r)) pop]
  refine List.countP_congr ?_
  intro i hi
  rw [List.mem_range] at hi
  unfold valueAt
  rw [List.getElem?_eq_getElem hi]
  simp

variable {key : Ind σ → Except PyErr κ} {k : Nat} {s : St σ} {v : Nat → κ}

theorem won_places (hk : ∀ r ∈ s.ga.population, key (s.heap r) = .ok (v r)) (h1 : 1 ≤ k)
    (h2 : k ≤ s.ga.population.length) (P : Nat → Prop) :
    {t | ∃ r, t ∈ Won key k s r ∧ P r}.ncard =
      {ys | ∃ i, ys ∈ WonBy (valueAt v s.ga.population) (List.range s.ga.population.length) k i ∧
        ∃ r, s.ga.population[i]? = some r ∧ P r}.ncard := by
  have := draws_samples (l := List.range s.ga.population.length) List.nodup_range k
    fun ys => ∃ i, FirstBest (valueAt v s.ga.population) ys i ∧ ∃ r, s.ga.population[i]? = some r ∧ P r
  rw [List.length_range] at this
  have e : {ys | ys ∈ Samples (List.range s.ga.population.length) k ∧ ∃ i, FirstBest (valueAt v s.ga.population) ys i ∧
      ∃ r, s.ga.population[i]? = some r ∧ P r} =
      {ys | ∃ i, ys ∈ WonBy (valueAt v s.ga.population) (List.range s.ga.population.length) k i ∧
        ∃ r, s.ga.population[i]? = some r ∧ P r} := by
    ext ys
    constructor
    · rintro ⟨h3, i, h4, h5⟩
      exact ⟨i, ⟨h3, h4⟩, h5⟩
    · rintro ⟨i, ⟨h3, h4⟩, h5⟩
      exact ⟨h3, i, h4, h5⟩
  rw [← e, ← this]
  congr 1
  ext t
  constructor
  · rintro ⟨r, ⟨ht, hr⟩, hp⟩
    obtain ⟨i, r', e1, e2, e3⟩ := oneTournament_first hk h1 h2 ht
    rw [e1] at hr
    simp only [Prod.mk.injEq, Except.ok.injEq] at hr
    exact ⟨ht, i, e3, r', e2, hr.1 ▸ hp⟩
  · rintro ⟨ht, i, hi, r, hr, hp⟩
    obtain ⟨i', r', e1, e2, e3⟩ := oneTournament_first hk h1 h2 ht
    have := e3.unique hi
    subst this
    rw [e2] at hr
    injection hr with hr
    subst hr
    exact ⟨r', ⟨ht, e1⟩, hp⟩

/-- An individual wins as often as each of its places, times their number. -/
theorem won_count (hk : ∀ r ∈ s.ga.population, key (s.heap r) = .ok (v r)) (h1 : 1 ≤ k)
    (h2 : k ≤ s.ga.population.length) {i r : Nat} (hi : s.ga.population[i]? = some r) :
    (Won key k s r).ncard = s.ga.population.count r *
      (WonBy (valueAt v s.ga.population) (List.range s.ga.population.length) k i).ncard := by
  have hW := won_places hk h1 h2 fun x => x = r
  simp only [exists_eq_right] at hW
  have e : {t | t ∈ Won key k s r} = Won key k s r := rfl
  rw [e] at hW
  have hval : ∀ j, s.ga.population[j]? = some r → valueAt v s.ga.population j = v r := by
    intro j hj; unfold valueAt; rw [hj]; rfl
  have hmem : ∀ j, s.ga.population[j]? = some r → j ∈ List.range s.ga.population.length := by
    intro j hj; rw [List.mem_range]; exact (List.getElem?_eq_some_iff.mp hj).1
  have hl := wonBy_list (v := valueAt v s.ga.population) (l := List.range s.ga.population.length) (k := k) List.nodup_range
    (WonBy (valueAt v s.ga.population) (List.range s.ga.population.length) k i).ncard
    (as := (List.range s.ga.population.length).filter fun j => s.ga.population[j]? = some r) (List.nodup_range.filter _) (by
      intro j hj
      have hj' : s.ga.population[j]? = some r := by simpa using (List.mem_filter.mp hj).2
      exact wonBy_ties List.nodup_range (hmem j hj') (hmem i hi) (by rw [hval j hj', hval i hi]))
  have hc : ((List.range s.ga.population.length).filter fun j => s.ga.population[j]? = some r).length = s.ga.population.count r := by
    rw [← List.countP_eq_length_filter, List.count, countP_range (fun x => x == r)]
    refine List.countP_congr ?_
    intro j hj
    rw [List.mem_range] at hj
    rw [List.getElem?_eq_getElem hj]
    simp
  rw [hc] at hl
  rw [hW, ← hl]
  congr 1
  ext ys
  constructor
  · rintro ⟨j, h3, h4⟩
    exact ⟨j, h3, List.mem_filter.mpr ⟨hmem j h4, by simpa using h4⟩⟩
  · rintro ⟨j, h3, h4⟩
    exact ⟨j, h3, by simpa using (List.mem_filter.mp h4).2⟩

/-- C88: every tournament has a winner; the number of equally likely draws is `n (n-1) .. (n-k+1)`. -/
theorem C88_draws (hk : ∀ r ∈ s.ga.population, key (s.heap r) = .ok (v r)) (h1 : 1 ≤ k) (h2 : k ≤ s.ga.population.length) :
    {t | Reduced (countdown s.ga.population.length k) t}.ncard = s.ga.population.length.descFactorial k ∧
    ∀ t, Reduced (countdown s.ga.population.length k) t → ∃! r, t ∈ Won key k s r := by
  refine ⟨by rw [reduced_card, countdown_prod], ?_⟩
  intro t ht
  obtain ⟨_, r, e1, _⟩ := oneTournament_first hk h1 h2 ht
  refine ⟨r, ⟨ht, e1⟩, ?_⟩
  rintro r' ⟨_, e2⟩
  rw [e1] at e2
  simp only [Prod.mk.injEq, Except.ok.injEq] at e2
  exact e2.1.symm

/-- C88: the number of draws whose winner is no better than `x` is `c (c-1) .. (c-k+1)`, with the number `c` of members that are
no better than `x`. -/
theorem C88_level (hk : ∀ r ∈ s.ga.population, key (s.heap r) = .ok (v r)) (h1 : 1 ≤ k)
    (h2 : k ≤ s.ga.population.length) (x : κ) :
    {t | ∃ r, t ∈ Won key k s r ∧ v r ≤ x}.ncard = (s.ga.population.countP fun p => v p ≤ x).descFactorial k := by
  rw [won_places hk h1 h2, ← countP_places v s.ga.population (fun y => decide (y ≤ x)), ← samples_level List.nodup_range h1]
  congr 1
  ext ys
  constructor
  · rintro ⟨i, h3, r, h4, h5⟩
    exact ⟨i, h3, by unfold valueAt; rw [h4]; exact h5⟩
  · rintro ⟨i, h3, h4⟩
    have hi := List.mem_range.mp (h3.1.2.1 _ h3.2.mem)
    refine ⟨i, h3, _, List.getElem?_eq_getElem hi, ?_⟩
    unfold valueAt at h4
    rw [List.getElem?_eq_getElem hi] at h4
    exact h4

/-- C88: a better individual wins at least as often (for each of its places in the population). -/
theorem C88_prefers (hk : ∀ r ∈ s.ga.population, key (s.heap r) = .ok (v r)) (h1 : 1 ≤ k)
    (h2 : k ≤ s.ga.population.length) {a b : Nat} (ha : a ∈ s.ga.population) (hb : b ∈ s.ga.population) (hab : v a ≤ v b) :
    (Won key k s a).ncard * s.ga.population.count b ≤ (Won key k s b).ncard * s.ga.population.count a := by
  obtain ⟨i, hi, ei⟩ := List.getElem_of_mem ha
  obtain ⟨j, hj, ej⟩ := List.getElem_of_mem hb
  have hi' : s.ga.population[i]? = some a := by rw [List.getElem?_eq_getElem hi, ei]
  have hj' : s.ga.population[j]? = some b := by rw [List.getElem?_eq_getElem hj, ej]
  rw [won_count hk h1 h2 hi', won_count hk h1 h2 hj']
  have := wonBy_prefers (v := valueAt v s.ga.population) (k := k) List.nodup_range (List.mem_range.mpr hi) (List.mem_range.mpr hj) (by
    unfold valueAt; rw [hi', hj']; exact hab)
  calc _ = s.ga.population.count a * s.ga.population.count b * _ := by ring
    _ ≤ s.ga.population.count a * s.ga.population.count b * _ := Nat.mul_le_mul_left _ this
    _ = _ := by ring

/-- C88: a better individual wins strictly more often if it can win at all. -/
theorem C88_strict (hk : ∀ r ∈ s.ga.population, key (s.heap r) = .ok (v r)) (h1 : 2 ≤ k)
    {a b : Nat} (ha : a ∈ s.ga.population) (hb : b ∈ s.ga.population) (hab : v a < v b)
    (hc : k ≤ s.ga.population.countP fun p => v p ≤ v b) :
    (Won key k s a).ncard * s.ga.population.count b < (Won key k s b).ncard * s.ga.population.count a := by
  have h2 : k ≤ s.ga.population.length := hc.trans List.countP_le_length
  obtain ⟨i, hi, ei⟩ := List.getElem_of_mem ha
  obtain ⟨j, hj, ej⟩ := List.getElem_of_mem hb
  have hi' : s.ga.population[i]? = some a := by rw [List.getElem?_eq_getElem hi, ei]
  have hj' : s.ga.population[j]? = some b := by rw [List.getElem?_eq_getElem hj, ej]
  rw [won_count hk (by omega) h2 hi', won_count hk (by omega) h2 hj']
  have vi : valueAt v s.ga.population i = v a := by unfold valueAt; rw [hi']; rfl
  have vj : valueAt v s.ga.population j = v b := by unfold valueAt; rw [hj']; rfl
  have := wonBy_strict (v := valueAt v s.ga.population) (k := k) List.nodup_range h1 (List.mem_range.mpr hi) (List.mem_range.mpr hj)
    (by rw [vi, vj]; exact hab) (by rw [vj, countP_places v s.ga.population (fun y => decide (y ≤ v b))]; exact hc)
  have hpos : 0 < s.ga.population.count a * s.ga.population.count b :=
    Nat.mul_pos (List.count_pos_iff.mpr ha) (List.count_pos_iff.mpr hb)
  calc _ = s.ga.population.count a * s.ga.population.count b * _ := by ring
    _ < s.ga.population.count a * s.ga.population.count b * _ := Nat.mul_lt_mul_of_pos_left this hpos
    _ = _ := by ring

/-- C88: the exact number of draws won by an individual that fills `q` places.  `m` places have its score and `c` a smaller one;
together the `m` win `(c+m) (c+m-1) .. - c (c-1) ..` times, each equally often. -/
theorem C88_exact (hk : ∀ r ∈ s.ga.population, key (s.heap r) = .ok (v r)) (h1 : 1 ≤ k)
    (h2 : k ≤ s.ga.population.length) {r : Nat} (hr : r ∈ s.ga.population) :
    (s.ga.population.countP fun p => v p = v r) * (Won key k s r).ncard +
        s.ga.population.count r * (s.ga.population.countP fun p => v p < v r).descFactorial k =
      s.ga.population.count r * (s.ga.population.countP fun p => v p ≤ v r).descFactorial k := by
  obtain ⟨i, hi, ei⟩ := List.getElem_of_mem hr
  have hi' : s.ga.population[i]? = some r := by rw [List.getElem?_eq_getElem hi, ei]
  have vi : valueAt v s.ga.population i = v r := by unfold valueAt; rw [hi']; rfl
  have := wonBy_exact (v := valueAt v s.ga.population) (k := k) List.nodup_range h1 (List.mem_range.mpr hi)
  rw [vi, countP_places v s.ga.population (fun y => decide (y ≤ v r)), countP_places v s.ga.population (fun y => decide (y < v r)),
    countP_places v s.ga.population (fun y => decide (y = v r))] at this
  rw [won_count hk h1 h2 hi', ← this]
  ring

/-- C88: an individual whose score nobody shares, with `c` worse members, wins with probability `choose c (k-1) / choose n k`. -/
theorem C88_binomial (hk : ∀ r ∈ s.ga.population, key (s.heap r) = .ok (v r)) (h1 : 1 ≤ k)
    (h2 : k ≤ s.ga.population.length) {r : Nat} (hr : r ∈ s.ga.population) (hu : (s.ga.population.countP fun p => v p = v r) = 1) :
    (Won key k s r).ncard * s.ga.population.length.choose k =
      (s.ga.population.countP fun p => v p < v r).choose (k - 1) * s.ga.population.length.descFactorial k := by
  have h := C88_exact hk h1 h2 hr
  have hm : s.ga.population.count r = 1 := by
    have h3 : s.ga.population.count r ≤ s.ga.population.countP fun p => v p = v r := by
      refine List.countP_mono_left ?_
      intro p _ hp
      simp only [beq_iff_eq] at hp
      simp [hp]
    have := List.count_pos_iff.mpr hr
    omega
  have hc : ∀ l : List Nat, (l.countP fun p => v p ≤ v r) = (l.countP fun p => v p < v r) + l.countP fun p => v p = v r := by
    intro l
    induction l with
    | nil => rfl
    | cons a l ih =>
      rw [List.countP_cons, List.countP_cons, List.countP_cons, ih]
      rcases lt_trichotomy (v a) (v r) with h | h | h
      · simp [h, h.le, h.ne]; omega
      · simp [h]; omega
      · simp [h.not_gt, h.not_ge, h.ne']
  rw [hc, hm, hu] at h
  obtain ⟨j, rfl⟩ : ∃ j, k = j + 1 := ⟨k - 1, by omega⟩
  set c := s.ga.population.countP fun p => v p < v r
  rw [one_mul, one_mul, one_mul, Nat.succ_descFactorial_succ] at h
  have e := Nat.descFactorial_succ c j
  rw [Nat.descFactorial_eq_factorial_mul_choose s.ga.population.length]
  have hc2 := Nat.descFactorial_eq_factorial_mul_choose c j
  have hw : (Won key (j + 1) s r).ncard = (j + 1) * c.descFactorial j := by
    by_cases hj : j ≤ c
    · have : (c + 1) * c.descFactorial j = (j + 1) * c.descFactorial j + (c - j) * c.descFactorial j := by
        rw [← add_mul]; congr 1; omega
      omega
    · have : c.descFactorial j = 0 := Nat.descFactorial_eq_zero_iff_lt.mpr (by omega)
      rw [this] at h e ⊢
      simp at h e
      omega
  rw [hw, hc2, Nat.factorial_succ]
  simp only [Nat.add_sub_cancel]
  ring

/-- C88: the draws after `t` do not matter for the tournament decided by `t`, and a pair of parents is decided by two tournaments, the
second one repeated while its winner has the index of the first. -/
theorem C88_pair (hk : ∀ r ∈ s.ga.population, key (s.heap r) = .ok (v r)) (h1 : 1 ≤ k) (h2 : k ≤ s.ga.population.length)
    {a r : Nat} {t : List Nat} (ht : t ∈ Won key k s r) (u : List Nat) (f : Nat) :
    oneTournament key k { s with tape := t ++ u } = (.ok r, { s with tape := u }) ∧
    secondParent key k a (f + 1) { s with tape := t ++ u } =
      if (s.heap r).idx ≠ (s.heap a).idx then (.ok r, { s with tape := u }) else secondParent key k a f { s with tape := u } := by
  have key1 : oneTournament key k { s with tape := t ++ u } = (.ok r, { s with tape := u }) := by
    obtain ⟨i, r1, e1, e2, e3⟩ := oneTournament_first_append hk h1 h2 ht.1 u
    obtain ⟨j, r2, f1, f2, f3⟩ := oneTournament_first hk h1 h2 ht.1
    have hr := ht.2
    rw [f1] at hr
    simp only [Prod.mk.injEq, Except.ok.injEq] at hr
    have := e3.unique f3
    subst this
    rw [e2] at f2
    injection f2 with f2
    rw [e1, f2, hr.1]
  refine ⟨key1, ?_⟩
  rw [secondParent, bind_of_ok key1, bind_of_ok (getInd_run r _), bind_of_ok (getInd_run a _), ite_run]
  rfl

end

/-! ## A case that meets the hypotheses -/

/-- Four individuals, one of them twice in the population. -/
def exFour : St ℚ :=
  { heap := fun r => { score := some (match r with | 0 => 3 | 1 => 1 | 2 => 2 | _ => 2) }, next := 4, ga := { population := [0, 1, 2, 3, 3] } }

/-- The best wins 3 of 5 tournaments of three: 36 of the 60 draws, `choose 4 2 / choose 5 3`. -/
example : (Won (scoreKey (σ := ℚ)) 3 exFour 0).ncard = 36 := by
  have hk : ∀ r ∈ exFour.ga.population, scoreKey (exFour.heap r) = .ok ((exFour.heap r).score.getD 0) := by
    intro r _; rfl
  have h := C88_binomial (k := 3) hk (by norm_num) (by decide) (r := 0) (by decide) (by decide +kernel)
  have e1 : exFour.ga.population.length = 5 := rfl
  have e2 : (exFour.ga.population.countP fun p => (exFour.heap p).score.getD 0 < (exFour.heap 0).score.getD 0) = 4 := by decide +kernel
  rw [e1, e2] at h
  simp only [Nat.reduceSub] at h
  have h3 : Nat.choose 5 3 = 10 := by decide
  have h4 : Nat.choose 4 2 = 6 := by decide
  have h5 : Nat.descFactorial 5 3 = 60 := by decide
  rw [h3, h4, h5] at h
  omega

/-- The individual that fills two of the three places with score 2: 16 of the 60 draws. -/
example : (Won (scoreKey (σ := ℚ)) 3 exFour 3).ncard = 16 := by
  have hk : ∀ r ∈ exFour.ga.population, scoreKey (exFour.heap r) = .ok ((exFour.heap r).score.getD 0) := by
    intro r _; rfl
  have h := C88_exact (k := 3) hk (by norm_num) (by decide) (r := 3) (by decide)
  have e1 : exFour.ga.population.count 3 = 2 := by decide
  have e2 : (exFour.ga.population.countP fun p => (exFour.heap p).score.getD 0 < (exFour.heap 3).score.getD 0) = 1 := by decide +kernel
  have e3 : (exFour.ga.population.countP fun p => (exFour.heap p).score.getD 0 = (exFour.heap 3).score.getD 0) = 3 := by decide +kernel
  have e4 : (exFour.ga.population.countP fun p => (exFour.heap p).score.getD 0 ≤ (exFour.heap 3).score.getD 0) = 4 := by decide +kernel
  rw [e1, e2, e3, e4] at h
  have h5 : Nat.descFactorial 4 3 = 24 := by decide
  have h6 : Nat.descFactorial 1 3 = 0 := by decide
  rw [h5, h6] at h
  omega

end BaumEva
