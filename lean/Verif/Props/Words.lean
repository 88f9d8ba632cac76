import Verif.Spec.Mean
import Verif.Proofs.Chance
import Verif.Props.Mutation
import Verif.Props.Again
/-!
# C117: what the named levels of bit mutation mean
-/
namespace BaumEva
open Spec
variable {σ : Type}

/-- The number of bits of `g` that `BinStringMutation` at level `lvl` changes if the draws are `t`. -/
def bitsChanged (lvl : MutLvl) (g : List Val) (t : List Nat) : Nat :=
  match mutateBits lvl g ({ tape := t } : St ℚ) with
  | (.ok g', _) => distance g g'
  | (.error _, _) => 0

theorem bitsChanged_eq (q : ℚ) (g : List Val) (t : List Nat) (ht : t.length = g.length) :
    bitsChanged (.float q) g t =
      distance g (List.zipWith (fun x d => if hits q d then (if x = bit0 then bit1 else bit0) else x) g t) := by
  have h : mutateBits (.float q) g ({ tape := t } : St ℚ) = (.ok _, { tape := [] }) := mutateBits_ok.mpr
    ⟨t, ht, by simp, rfl, rfl⟩
  unfold bitsChanged
  rw [h]

theorem bitsChanged_nil (q : ℚ) : bitsChanged (.float q) [] [] = 0 := rfl

theorem bitsChanged_cons {q : ℚ} {x : Val} {g : List Val} {d : Nat} {t : List Nat} (hx : x = bit0 ∨ x = bit1) (ht : t.length = g.length) :
    bitsChanged (.float q) (x :: g) (d :: t) = (if hits q d then 1 else 0) + bitsChanged (.float q) g t := by
  rw [bitsChanged_eq q _ _ (by simp [ht]), bitsChanged_eq q _ _ ht]
  simp only [List.zipWith_cons_cons, distance]
  congr 1
  have : bit0 ≠ bit1 := by decide
  by_cases h : hits q d = true
  · rcases hx with rfl | rfl <;> simp [h, this, Ne.symm this]
  · simp [h]

theorem sum_flatMap_map {α β : Type} (l : List α) (f : α → List β) (w : β → Nat) :
    ((l.flatMap f).map w).sum = (l.map fun a => ((f a).map w).sum).sum := by
  induction l with
  | nil => rfl
  | cons a l ih => simp [List.flatMap_cons, ih]

theorem sum_map_add_const {α : Type} (l : List α) (c : Nat) (w : α → Nat) : (l.map fun a => c + w a).sum = l.length * c + (l.map w).sum := by
  induction l with
  | nil => simp
  | cons a l ih => simp [ih]; ring

theorem sum_ind (l : List Nat) (p : Nat → Bool) (m k : Nat) :
    (l.map fun d => m * (if p d then 1 else 0) + k).sum = m * (l.filter p).length + l.length * k := by
  induction l with
  | nil => simp
  | cons a l ih =>
    rw [List.map_cons, List.sum_cons, ih]
    by_cases h : p a = true
    · rw [List.filter_cons_of_pos h, if_pos h]; simp only [List.length_cons]; ring
    · rw [List.filter_cons_of_neg h, if_neg h]; simp only [List.length_cons]; ring

theorem total_changed (q : ℚ) : ∀ g : List Val, (∀ x ∈ g, x = bit0 ∨ x = bit1) →
    1000 * ((tapes 1000 g.length).map (bitsChanged (.float q) g)).sum =
      g.length * ((List.range 1000).filter (hits q)).length * 1000 ^ g.length := by
  intro g
  induction g with
  | nil => intro _; simp [tapes, bitsChanged_nil]
  | cons x g ih =>
    intro hg
    have ih := ih fun y hy => hg y (by simp [hy])
    simp only [List.length_cons, tapes]
    rw [sum_flatMap_map]
    have : (fun d : Nat => (((tapes 1000 g.length).map (d :: ·)).map (bitsChanged (.float q) (x :: g))).sum) =
        fun d => 1000 ^ g.length * (if hits q d then 1 else 0) + ((tapes 1000 g.length).map (bitsChanged (.float q) g)).sum := by
      funext d
      rw [List.map_map, ← length_tapes, ← sum_map_add_const]
      congr 1
      apply List.map_congr_left
      intro t ht
      exact bitsChanged_cons (hg x (by simp)) (mem_tapes.mp ht).1
    rw [this, sum_ind, List.length_range, mul_add, ih, pow_succ]
    ring

theorem triggerCount_hits (q : ℚ) : triggerCount q = ((List.range 1000).filter (hits q)).length := by
  rw [triggerCount_eq]
  refine filter_length_congr ?_
  intro d hd
  unfold hits
  rw [Nat.mod_eq_of_lt (List.mem_range.mp hd)]

/-- C117: the mean number of bits that bit mutation inverts is the length of the genotype times the share of triggering draws. -/
theorem C117_mean {q : ℚ} {g : List Val} (hg : ∀ x ∈ g, x = bit0 ∨ x = bit1) :
    mean 1000 g.length (bitsChanged (.float q) g) = g.length * (triggerCount q / 1000) := by
  have h := total_changed q g hg
  rw [← triggerCount_hits] at h
  unfold mean
  generalize ((tapes 1000 g.length).map (bitsChanged (.float q) g)).sum = S at h ⊢
  generalize g.length = n at h ⊢
  generalize triggerCount q = k at h ⊢
  have h' : (1000 : ℚ) * S = n * k * 1000 ^ n := by
    have := congrArg (Nat.cast : ℕ → ℚ) h
    push_cast at this
    exact this
  have hp : (0 : ℚ) < 1000 ^ n := by positivity
  rw [show ((1000 : ℕ) : ℚ) = 1000 from Nat.cast_ofNat, div_eq_iff hp.ne']
  linarith

/-- C117: for levels in `[0, 1]` the mean is the level times the length, or more by at most one bit per 1000. -/
theorem C117_mean_bounds {q : ℚ} (h0 : 0 ≤ q) (h1 : q ≤ 1) {g : List Val} (hg : ∀ x ∈ g, x = bit0 ∨ x = bit1) :
    g.length * q ≤ mean 1000 g.length (bitsChanged (.float q) g) ∧
    mean 1000 g.length (bitsChanged (.float q) g) ≤ g.length * q + g.length / 1000 := by
  rw [C117_mean hg]
  obtain ⟨a, b⟩ := C23_bounds_partial h0 h1
  have hn : (0 : ℚ) ≤ g.length := Nat.cast_nonneg _
  constructor
  · nlinarith
  · nlinarith

/-! ## Words -/

theorem wordBits_normal : wordBits "normal" = 1 := by
  unfold wordBits; rw [if_neg (by decide), if_pos rfl]

theorem updateMutLvl_word {w : String} (hw : w = "weak" ∨ w = "normal" ∨ w = "strong") {n : Nat} {l : MutLvl}
    (h : updateMutLvlR id (.str w) n = .ok l) : 0 < n ∧ l = .float (wordBits w / n) := by
  unfold updateMutLvlR at h
  simp only [id] at h
  by_cases hn : n = 0
  · rw [if_pos hn] at h; simp at h
  rw [if_neg hn] at h
  refine ⟨Nat.pos_of_ne_zero hn, ?_⟩
  rcases hw with rfl | rfl | rfl <;> simp [wordBits] at h ⊢ <;> exact h.symm

theorem updateMutLvl_number {rnd : ℚ → ℚ} {q : ℚ} {n : Nat} {l : MutLvl} (h : updateMutLvlR rnd (.float q) n = .ok l) : l = .float q := by
  simp only [updateMutLvlR, Except.ok.injEq] at h
  exact h.symm

/-- `BinStringMutation(w).execute(..)` on a population of genotypes of `n` bits, then, with the same object, on another one whose
state is `t`; `t'` is the state afterwards. -/
structure UsedTwice (w : String) (n : Nat) (t t' : St σ) : Prop where
  word : w = "weak" ∨ w = "normal" ∨ w = "strong"
  first : ∃ s s' : St σ, s.mutLvl = .str w ∧ s.ga.attrs.arith = .exact ∧ s.ga.attrs.idxBits.getLastD 0 = n ∧ s.ga.children.Nodup ∧
    mutExec .binString s = (.ok (), s') ∧ t.mutLvl = s'.mutLvl
  arith : t.ga.attrs.arith = .exact
  nodup : t.ga.children.Nodup
  second : mutExec .binString t = (.ok (), t')

/-- The object keeps its word: the mean number of bits it changes in `g` is the one the word stands for, up to one per 1000. -/
def KeepsWord (w : String) (lvl : MutLvl) (g : List Val) : Prop :=
  wordBits w ≤ mean 1000 g.length (bitsChanged lvl g) ∧ mean 1000 g.length (bitsChanged lvl g) ≤ wordBits w + g.length / 1000

/-- C117: the first population a `BinStringMutation` with a named level is used on: every child becomes what mutation at the level
`c / n` makes of it, and the mean number of bits changed is the number `c` the word stands for, up to one bit per 1000. -/
theorem C117_first {w : String} (hw : w = "weak" ∨ w = "normal" ∨ w = "strong") {s s' : St σ} (hl : s.mutLvl = .str w)
    (ha : s.ga.attrs.arith = .exact) (hn : s.ga.children.Nodup) (h : mutExec .binString s = (.ok (), s')) :
    s'.mutLvl = .float (wordBits w / (s.ga.attrs.idxBits.getLastD 0 : Nat)) ∧
    (∀ r ∈ s.ga.children, Mutated .binString s.ga.attrs.spec s'.mutLvl (s.heap r) (s'.heap r)) ∧
    ∀ g : List Val, (∀ x ∈ g, x = bit0 ∨ x = bit1) → g.length = s.ga.attrs.idxBits.getLastD 0 → wordBits w ≤ g.length →
      KeepsWord w s'.mutLvl g := by
  obtain ⟨_, _, hb, _, hm⟩ := mutExec_ok h hn
  have hb := hb rfl
  rw [ha, hl] at hb
  obtain ⟨hp, e⟩ := updateMutLvl_word hw hb
  rw [ha, MutLvl.effective_exact] at hm
  refine ⟨e, hm, ?_⟩
  intro g hg hlen hle
  have hpos : (0 : ℚ) < g.length := by rw [hlen]; exact_mod_cast hp
  have hw0 : 0 ≤ wordBits w := by unfold wordBits; split <;> [norm_num; split <;> norm_num]
  have hmul : (g.length : ℚ) * (wordBits w / g.length) = wordBits w := by field_simp
  unfold KeepsWord
  rw [e, ← hlen]
  have := C117_mean_bounds (q := wordBits w / g.length) (by positivity) ((div_le_one hpos).mpr hle) hg
  rwa [hmul] at this

/-- C117: every later population is mutated at the level of the first one, whatever the length of its genotypes. -/
theorem C117_stale {w : String} {n : Nat} {t t' : St σ} (h : UsedTwice w n t t') :
    t'.mutLvl = .float (wordBits w / n) ∧
    (∀ r ∈ t.ga.children, Mutated .binString t.ga.attrs.spec t'.mutLvl (t.heap r) (t'.heap r)) ∧
    ∀ g : List Val, (∀ x ∈ g, x = bit0 ∨ x = bit1) → wordBits w ≤ n →
      wordBits w * g.length / n ≤ mean 1000 g.length (bitsChanged t'.mutLvl g) ∧
      mean 1000 g.length (bitsChanged t'.mutLvl g) ≤ wordBits w * g.length / n + g.length / 1000 := by
  obtain ⟨hw, ⟨s, s', h1, h2, h3, h4, h5, h6⟩, ha, hn, h⟩ := h
  obtain ⟨e1, _, _⟩ := C117_first hw h1 h2 h4 h5
  obtain ⟨_, _, hb, _, hm⟩ := mutExec_ok h hn
  have hb := hb rfl
  rw [ha, h6, e1, h3] at hb
  have e := updateMutLvl_number hb
  rw [ha, MutLvl.effective_exact] at hm
  refine ⟨e, hm, ?_⟩
  intro g hg hle
  have hw0 : 0 < wordBits w := by unfold wordBits; split <;> [norm_num; split <;> norm_num]
  have hpos : (0 : ℚ) < n := lt_of_lt_of_le hw0 hle
  rw [e]
  have := C117_mean_bounds (q := wordBits w / n) (by positivity) ((div_le_one hpos).mpr hle) hg
  rwa [show (g.length : ℚ) * (wordBits w / n) = wordBits w * g.length / n by ring] at this

/-- C117, full claim: the object keeps its word on every population it is used on. -/
def AlwaysKeepsWord : Prop :=
  ∀ (w : String) (n : Nat) (t t' : St ℚ), UsedTwice w n t t' → ∀ g : List Val, (∀ x ∈ g, x = bit0 ∨ x = bit1) →
    g.length = t.ga.attrs.idxBits.getLastD 0 → wordBits w ≤ g.length → KeepsWord w t'.mutLvl g

/-- C117, proved part: it does if the genotypes have the length of those it was used on first.  Missing, and false: other lengths. -/
theorem C117_same_length_partial {w : String} {n : Nat} {t t' : St σ} (h : UsedTwice w n t t') {g : List Val}
    (hg : ∀ x ∈ g, x = bit0 ∨ x = bit1) (hl : g.length = n) (hle : wordBits w ≤ n) : KeepsWord w t'.mutLvl g := by
  have := (C117_stale h).2.2 g hg hle
  have hw0 : 0 < wordBits w := by unfold wordBits; split <;> [norm_num; split <;> norm_num]
  have hpos : (0 : ℚ) < n := lt_of_lt_of_le hw0 hle
  rw [hl, mul_div_assoc, div_self hpos.ne', mul_one] at this
  unfold KeepsWord
  rw [hl]
  exact this

/-- A population of no children (so that nothing has to be drawn) with genotypes of `n` bits. -/
def exLength (n : Nat) (lvl : MutLvl) : St ℚ where
  mutLvl := lvl
  ga := { attrs := { spec := .binary false [], idxBits := [n] } }

theorem exLength_twice : UsedTwice "normal" 2 (exLength 8 (.float (1 / 2))) (exLength 8 (.float (1 / 2))) where
  word := by decide
  first := ⟨exLength 2 (.str "normal"), exLength 2 (.float (1 / 2)), rfl, rfl, rfl, by simp [exLength], by
    unfold mutExec
    rw [bind_of_ok (getS_run _)]
    simp only [exLength]
    have : updateMutLvlR Arith.exact.rnd (.str "normal") 2 = .ok (.float (1 / 2)) := by
      simp [updateMutLvlR, Arith.exact]
    rw [show ([2] : List Nat).getLastD 0 = 2 from rfl, this]
    rfl, rfl⟩
  arith := rfl
  nodup := by simp [exLength]
  second := rfl

/-- C117 refuted: an object first used on genotypes of 2 bits changes half of the bits of every later population. -/
theorem C117_word_refuted : ¬ AlwaysKeepsWord := by
  intro h
  have h1 := h "normal" 2 _ _ exLength_twice (List.replicate 8 bit0) (by intro x hx; exact .inl (List.eq_of_mem_replicate hx)) (by simp [exLength])
    (by rw [wordBits_normal]; norm_num)
  have h2 := (C117_stale exLength_twice).2.2 (List.replicate 8 bit0) (by intro x hx; exact .inl (List.eq_of_mem_replicate hx))
    (by rw [wordBits_normal]; norm_num)
  have a := h1.2
  have b := h2.1
  have c := b.trans a
  rw [wordBits_normal] at c
  norm_num at c

/-- A child of `n` bits and draws to mutate it. -/
def exBits (n : Nat) (lvl : MutLvl) (tape : List Nat) : St ℚ where
  tape := tape
  mutLvl := lvl
  heap := fun _ => { genotype := some (List.replicate n bit0) }
  next := 1
  ga := { children := [0], attrs := { spec := .binary false [], idxBits := [n] } }

theorem exBits_twice : UsedTwice "normal" 2 (exBits 4 (.float (1 / 2)) [0, 400, 600, 999])
    (mutExec .binString (exBits 4 (.float (1 / 2)) [0, 400, 600, 999])).2 where
  word := by decide
  first := ⟨exBits 2 (.str "normal") [100, 900], (mutExec .binString (exBits 2 (.str "normal") [100, 900])).2, rfl, rfl, rfl,
    by simp [exBits], of_ok (by decide +kernel), by decide +kernel⟩
  arith := rfl
  nodup := by simp [exBits]
  second := of_ok (by decide +kernel)

/-- Two of four bits are inverted. -/
example : ((mutExec .binString (exBits 4 (.float (1 / 2)) [0, 400, 600, 999])).2.heap 0).genotype = some [bit1, bit1, bit0, bit0] := by
  decide +kernel

example : IsBits (List.replicate 4 bit0) ∧ bitsChanged (.float (1 / 2)) (List.replicate 4 bit0) [0, 400, 600, 999] = 2 := by
  decide +kernel

end BaumEva
