import Verif.Proofs.Fill
import Verif.Model.Crossover
/-!
# Lemmas about crossovers
-/
namespace BaumEva
variable {σ α : Type}

theorem slice_length {l : List α} {a b : Nat} (hb : b ≤ l.length) : (slice l a b).length = b - a := by
  unfold slice; simp; omega

theorem slice_get {l : List α} {a b i : Nat} (h : i < b - a) : (slice l a b)[i]? = l[a + i]? := by
  unfold slice
  rw [List.getElem?_take, if_pos h, List.getElem?_drop]

theorem sample_two {l : List α} {s s' : St σ} {r : List α} (hl : l.Nodup) (h : sample l 2 s = (.ok r, s')) :
    ∃ i j, r = [i, j] ∧ i ∈ l ∧ j ∈ l ∧ i ≠ j ∧ Drew s s' := by
  have hm := sample_mem h
  have hn := sample_nodup h hl
  obtain ⟨_, _, _, hlen, hd⟩ := sample_ok h
  have : r.length = 2 := by omega
  match r, this with
  | [i, j], _ =>
    refine ⟨i, j, rfl, hm i (by simp), hm j (by simp), ?_, hd⟩
    simpa using hn

theorem segmentPoints_ok {lo len : Nat} {s s' : St σ} {cd : Nat × Nat}
    (h : segmentPoints lo len s = (.ok cd, s')) : lo ≤ cd.1 ∧ cd.1 < cd.2 ∧ cd.2 < len ∧ Drew s s' := by
  unfold segmentPoints at h
  obtain ⟨l, s1, h1, h2⟩ := bind_ok.mp h
  have hn : ((List.range len).drop lo).Nodup := List.Nodup.sublist (List.drop_sublist _ _) List.nodup_range
  obtain ⟨i, j, rfl, hi, hj, hne, hd⟩ := sample_two hn h1
  obtain ⟨rfl, rfl⟩ := pure_ok.mp h2
  have key : ∀ x, x ∈ (List.range len).drop lo → lo ≤ x ∧ x < len := by
    intro x hx
    rw [List.mem_drop_iff_getElem] at hx
    obtain ⟨k, hk, rfl⟩ := hx
    rw [List.length_range] at hk
    rw [List.getElem_range]
    omega
  have := key i hi
  have := key j hj
  refine ⟨?_, ?_, ?_, hd⟩ <;> simp only <;> omega

theorem segmentPoints_err {lo len : Nat} (h : len < lo + 2) (s : St σ) :
    segmentPoints lo len s = (.error .valueError, s) := by
  unfold segmentPoints
  apply bind_of_err
  unfold sample
  rw [ite_run, if_pos (by right; simp; omega)]
  rfl

theorem randint_err {a b : Int} (h : b < a) (s : St σ) : randint a b s = (.error .valueError, s) := by
  unfold randint; rw [ite_run, if_pos h]; rfl

/-! ## order crossover -/

section
variable [DecidableEq α]

theorem filter_notin_length : ∀ {other seg : List α}, other.Nodup →
    other.length - seg.length ≤ (other.filter (fun x => x ∉ seg)).length := by
  intro other seg hn
  have h1 : (other.filter (fun x => x ∈ seg)).length ≤ seg.length := by
    apply List.Subperm.length_le
    apply List.subperm_of_subset (hn.filter _)
    intro x hx
    simpa using (List.mem_filter.mp hx).2
  have h2 : (other.filter (fun x => x ∈ seg)).length + (other.filter (fun x => x ∉ seg)).length = other.length := by
    have := List.length_eq_length_filter_add (l := other) (fun x => decide (x ∈ seg))
    rw [this]
    congr 2
    apply List.filter_congr
    intro x _
    simp
  omega

/-- The rest of the child, read from behind the segment with wrap-around. -/
theorem orderChild_rest {len c d : Nat} {own other : List α} (hc : c < d) (hd : d ≤ len)
    (ho : own.length = len) (hn : other.Nodup) (hl : other.length = len) :
    (orderChild len c d own other).length = len ∧
    (orderChild len c d own other).take c
      = slice (other.filter (fun x => x ∉ slice own c d)) (len - d) (len - d + c) ∧
    slice (orderChild len c d own other) c d = slice own c d ∧
    (orderChild len c d own other).drop d
      = (other.filter (fun x => x ∉ slice own c d)).take (len - d) := by
  have hseg : (slice own c d).length = d - c := slice_length (by omega)
  have hg := filter_notin_length (seg := slice own c d) hn
  rw [hl, hseg] at hg
  unfold orderChild
  simp only
  generalize hng : other.filter (fun x => x ∉ slice own c d) = ng at *
  have h1 : (slice ng (len - d) (len - d + c)).length = c := by
    rw [slice_length (by omega)]; omega
  have h3 : (ng.take (len - d)).length = len - d := by rw [List.length_take]; omega
  refine ⟨by simp only [List.length_append, h1, h3, hseg]; omega, ?_, ?_, ?_⟩
  · rw [List.append_assoc, List.take_append_of_le_length (by omega), List.take_of_length_le (by omega)]
  · have hdrop : (slice ng (len - d) (len - d + c) ++ slice own c d ++ ng.take (len - d)).drop c =
        slice own c d ++ ng.take (len - d) := by
      rw [List.append_assoc]
      exact List.drop_left' h1
    conv_lhs => rw [slice, hdrop]
    exact List.take_left' hseg
  · exact List.drop_left' (by rw [List.length_append, h1, hseg]; omega)

theorem orderChild_nodup {len c d : Nat} {own other : List α} (hd : d ≤ len)
    (ho : own.Nodup) (hn : other.Nodup) (hol : own.length = len) (hl : other.length = len) :
    (orderChild len c d own other).Nodup := by
  have hseg : (slice own c d).length = d - c := slice_length (by omega)
  have hg := filter_notin_length (seg := slice own c d) hn
  rw [hl, hseg] at hg
  unfold orderChild
  simp only
  generalize hng : other.filter (fun x => x ∉ slice own c d) = ng at *
  have hngn : ng.Nodup := hng ▸ hn.filter _
  have hsn : (slice own c d).Nodup := by
    unfold slice
    exact (ho.sublist (List.drop_sublist _ _)).sublist (List.take_sublist _ _)
  have hdis : ∀ x ∈ ng, x ∉ slice own c d := by
    intro x hx; rw [← hng] at hx; simpa using (List.mem_filter.mp hx).2
  have hperm : (slice ng (len - d) (len - d + c) ++ slice own c d ++ ng.take (len - d)).Perm
      (slice own c d ++ (ng.take (len - d) ++ slice ng (len - d) (len - d + c))) := by
    rw [List.append_assoc]
    refine List.perm_append_comm.trans ?_
    rw [List.append_assoc]
  rw [hperm.nodup_iff, List.nodup_append]
  have hsub : (ng.take (len - d) ++ slice ng (len - d) (len - d + c)).Sublist ng := by
    unfold slice
    have : ng = ng.take (len - d) ++ ng.drop (len - d) := (List.take_append_drop _ _).symm
    conv_rhs => rw [this]
    exact List.Sublist.append_left (List.take_sublist _ _) _
  refine ⟨hsn, hngn.sublist hsub, ?_⟩
  intro a ha b hb hab
  subst hab
  exact hdis a (hsub.subset hb) ha

theorem orderChild_mem {len c d : Nat} {own other : List α} :
    ∀ x ∈ orderChild len c d own other, x ∈ own ∨ x ∈ other := by
  intro x hx
  unfold orderChild slice at hx
  simp only at hx
  rw [List.mem_append, List.mem_append] at hx
  rcases hx with (h | h) | h
  · right; exact List.mem_of_mem_filter (List.mem_of_mem_drop (List.mem_of_mem_take h))
  · left; exact List.mem_of_mem_drop (List.mem_of_mem_take h)
  · right; exact List.mem_of_mem_filter (List.mem_of_mem_take h)

theorem orderChild_length_le {len c d : Nat} {own other : List α} (hc : c < d) (hd : d ≤ len) :
    (orderChild len c d own other).length ≤ len := by
  unfold orderChild slice
  simp
  omega

end

/-! ## uniform crossover -/

theorem uniformLoop_ok {p1 p2 : List Val} : ∀ {n i : Nat} {s s' : St σ} {g : List Val},
    uniformLoop p1 p2 i n s = (.ok g, s') → Drew s s' ∧ g.length = n ∧
      ∀ (j : Nat) (v : Val), g[j]? = some v → p1[i + j]? = some v ∨ p2[i + j]? = some v := by
  intro n
  induction n with
  | zero =>
    intro i s s' g h
    rw [uniformLoop] at h
    obtain ⟨rfl, rfl⟩ := pure_ok.mp h
    exact ⟨Drew.refl _, rfl, by intro j v h; simp at h⟩
  | succ n ih =>
    intro i s s' g h
    rw [uniformLoop] at h
    obtain ⟨coin, s1, h1, h2⟩ := bind_ok.mp h
    cases hs : (if coin = 1 then p1 else p2)[i]? with
    | none => rw [hs] at h2; simp only [throwE_ok] at h2
    | some w =>
      rw [hs] at h2
      simp only at h2
      obtain ⟨rest, s2, h3, h4⟩ := bind_ok.mp h2
      obtain ⟨rfl, rfl⟩ := pure_ok.mp h4
      obtain ⟨a, b, c⟩ := ih h3
      refine ⟨(randint_ok h1).2.2.trans a, by simp [b], ?_⟩
      intro j v hj
      cases j with
      | zero =>
        simp only [List.getElem?_cons_zero, Option.some.injEq] at hj
        subst hj
        rw [Nat.add_zero]
        split at hs
        · left; exact hs
        · right; exact hs
      | succ j =>
        simp only [List.getElem?_cons_succ] at hj
        have := c j v hj
        rw [show i + (j + 1) = i + 1 + j by omega]
        exact this

/-! ## crossGeno only draws -/

theorem crossGeno_drew {op : CrossOp} {len : Nat} {p1 p2 : List Val} {s s' : St σ} {cs : List Val × List Val}
    (h : crossGeno op len p1 p2 s = (.ok cs, s')) : Drew s s' := by
  cases op with
  | onePoint =>
    rw [crossGeno] at h
    obtain ⟨c, s1, h1, h2⟩ := bind_ok.mp h
    obtain ⟨_, rfl⟩ := pure_ok.mp h2
    exact (randint_ok h1).2.2
  | twoPoint =>
    rw [crossGeno] at h
    obtain ⟨c, s1, h1, h2⟩ := bind_ok.mp h
    obtain ⟨_, rfl⟩ := pure_ok.mp h2
    exact (segmentPoints_ok h1).2.2.2
  | uniform =>
    rw [crossGeno] at h
    obtain ⟨c, s1, h1, h2⟩ := bind_ok.mp h
    obtain ⟨_, rfl⟩ := pure_ok.mp h2
    exact (uniformLoop_ok h1).1
  | order =>
    rw [crossGeno] at h
    obtain ⟨c, s1, h1, h2⟩ := bind_ok.mp h
    obtain ⟨_, rfl⟩ := pure_ok.mp h2
    exact (segmentPoints_ok h1).2.2.2

/-- `g` is one of the two children the crossover `op` makes of `p1`, `p2` for some random draws. -/
def CrossResult (σ : Type) (op : CrossOp) (len : Nat) (p1 p2 g : List Val) : Prop :=
  ∃ (s s' : St σ) (cs : List Val × List Val), crossGeno op len p1 p2 s = (.ok cs, s') ∧ (g = cs.1 ∨ g = cs.2)

/-! ## the loop over pairs -/

/-- `s'` is `s` after appending fresh individuals with the genotypes `gs` to the children
(and drawing random numbers). -/
structure Bred (s s' : St σ) (gs : List (List Val)) : Prop where
  ga : s'.ga = { s.ga with children := s.ga.children ++ List.range' s.next gs.length }
  next : s'.next = s.next + gs.length
  new : ∀ i g, gs[i]? = some g → s'.heap (s.next + i) = { genotype := some g }
  old : ∀ r, r < s.next → s'.heap r = s.heap r
  seed : s'.seed = s.seed
  mutLvl : s'.mutLvl = s.mutLvl
  conds : s'.conds = s.conds
  calls : s'.calls = s.calls
  snaps : s'.snaps = s.snaps

theorem Bred.nil_of_drew {s s' : St σ} (h : Drew s s') : Bred s s' [] := by
  obtain ⟨t, rfl⟩ := h
  exact ⟨by simp, by simp, by intro i g h; simp at h, fun _ _ => rfl, rfl, rfl, rfl, rfl, rfl⟩

theorem Bred.trans {a b c : St σ} {g1 g2 : List (List Val)} (h1 : Bred a b g1)
    (h2 : Bred b c g2) : Bred a c (g1 ++ g2) := by
  refine ⟨?_, ?_, ?_, ?_, h2.seed.trans h1.seed, h2.mutLvl.trans h1.mutLvl, h2.conds.trans h1.conds,
    h2.calls.trans h1.calls, h2.snaps.trans h1.snaps⟩
  · rw [h2.ga, h1.ga, h1.next]
    simp only [List.append_assoc, List.length_append]
    rw [List.range'_append_1]
  · rw [h2.next, h1.next]; simp; omega
  · intro i g hg
    by_cases hi : i < g1.length
    · rw [List.getElem?_append_left hi] at hg
      rw [h2.old _ (by rw [h1.next]; omega)]
      exact h1.new i g hg
    · rw [List.getElem?_append_right (by omega)] at hg
      have := h2.new _ g hg
      rw [h1.next] at this
      rw [← this]
      congr 1
      omega
  · intro r hr
    rw [h2.old r (by rw [h1.next]; omega), h1.old r hr]

theorem addChild_bred {op : CrossOp} {len : Nat} {p1 p2 : List Val} {s s' : St σ} {u : Unit}
    (h : (do let c ← getChild op len p1 p2
             modGa fun ga => { ga with children := ga.children ++ [c] }) s = (.ok u, s')) :
    ∃ g, Bred s s' [g] ∧ CrossResult σ op len p1 p2 g := by
  obtain ⟨c, s1, h1, h2⟩ := bind_ok.mp h
  rw [modGa_ok] at h2
  unfold getChild at h1
  obtain ⟨cs, s2, h3, h4⟩ := bind_ok.mp h1
  obtain ⟨coin, s3, h5, h6⟩ := bind_ok.mp h4
  obtain ⟨rfl, rfl⟩ := alloc_ok.mp h6
  subst h2
  refine ⟨if coin = 1 then cs.1 else cs.2, ?_, s, s2, cs, h3, by split <;> simp⟩
  have hd := (crossGeno_drew h3).trans (randint_ok h5).2.2
  obtain ⟨t, rfl⟩ := hd
  refine ⟨by simp, by simp, ?_, ?_, rfl, rfl, rfl, rfl, rfl⟩
  · intro i g' hg
    cases i with
    | zero => simp only [List.getElem?_cons_zero, Option.some.injEq] at hg; subst hg; simp [upd]
    | succ i => simp at hg
  · intro r hr
    have hr' : r ≠ s.next := Nat.ne_of_lt hr
    exact upd_ne hr'

theorem crossPairs_ok {op : CrossOp} {len : Nat} : ∀ {n : Nat} {ps : List Nat} {s s' : St σ} {u : Unit},
    ps.length ≤ n → crossPairs op len ps s = (.ok u, s') → (∀ r ∈ ps, r < s.next) →
    ∃ gs, Bred s s' gs ∧ ps.length = 2 * gs.length ∧
      ∀ (i : Nat) (g : List Val), gs[i]? = some g → ∃ a b p1 p2, ps[2 * i]? = some a ∧ ps[2 * i + 1]? = some b ∧
        (s.heap a).genotype = some p1 ∧ (s.heap b).genotype = some p2 ∧ CrossResult σ op len p1 p2 g := by
  intro n
  induction n with
  | zero =>
    intro ps s s' u hl h _
    have : ps = [] := List.length_eq_zero_iff.mp (by omega)
    subst this
    rw [crossPairs] at h
    obtain ⟨_, rfl⟩ := pure_ok.mp h
    exact ⟨[], Bred.nil_of_drew (Drew.refl _), rfl, by intro i g h; simp at h⟩
  | succ n ih =>
    intro ps s s' u hl h hal
    match ps with
    | [] =>
      rw [crossPairs] at h
      obtain ⟨_, rfl⟩ := pure_ok.mp h
      exact ⟨[], Bred.nil_of_drew (Drew.refl _), rfl, by intro i g h; simp at h⟩
    | [_] => rw [crossPairs, throwE_ok] at h; exact h.elim
    | a :: b :: rest =>
      rw [crossPairs] at h
      obtain ⟨p1, s1, h1, h2⟩ := bind_ok.mp h
      obtain ⟨e1, rfl⟩ := genoOf_ok.mp h1
      obtain ⟨p2, s2, h3, h4⟩ := bind_ok.mp h2
      obtain ⟨e2, rfl⟩ := genoOf_ok.mp h3
      obtain ⟨c, s3, h5, h6⟩ := bind_ok.mp h4
      obtain ⟨_, s4, h7, h8⟩ := bind_ok.mp h6
      obtain ⟨g, hb, hcr⟩ := addChild_bred (op := op) (len := len) (p1 := p1) (p2 := p2) (s := s2) (s' := s4)
        (u := ()) (by rw [bind_of_ok h5]; exact h7)
      obtain ⟨gs, hbs, hlen, hres⟩ := ih (by simp at hl; omega) h8 (by
        intro r hr
        have := hal r (by simp [hr])
        rw [hb.next]; omega)
      refine ⟨g :: gs, hb.trans hbs, by simp [hlen]; omega, ?_⟩
      intro i g' hg
      cases i with
      | zero =>
        simp only [List.getElem?_cons_zero, Option.some.injEq] at hg
        subst hg
        exact ⟨a, b, p1, p2, rfl, rfl, e1, e2, hcr⟩
      | succ i =>
        simp only [List.getElem?_cons_succ] at hg
        obtain ⟨a', b', q1, q2, f1, f2, f3, f4, f5⟩ := hres i g' hg
        have ha : a' < s2.next := hal a' (by simp [List.mem_of_getElem? f1])
        have hb' : b' < s2.next := hal b' (by simp [List.mem_of_getElem? f2])
        refine ⟨a', b', q1, q2, ?_, ?_, ?_, ?_, f5⟩
        · rw [show 2 * (i + 1) = 2 * i + 1 + 1 by omega]; simpa using f1
        · rw [show 2 * (i + 1) + 1 = 2 * i + 1 + 1 + 1 by omega]; simpa using f2
        · rw [← hb.old a' ha]; exact f3
        · rw [← hb.old b' hb']; exact f4

theorem crossPairs_odd {op : CrossOp} {len : Nat} {ps : List Nat} {s s' : St σ} {u : Unit}
    (h : crossPairs op len ps s = (.ok u, s')) (hal : ∀ r ∈ ps, r < s.next) : ps.length % 2 = 0 := by
  obtain ⟨gs, _, hl, _⟩ := crossPairs_ok le_rfl h hal
  omega

/-- Complete description of a successful `crossover.execute`. -/
theorem crossExec_ok {op : CrossOp} {s s' : St σ} {u : Unit} (h : crossExec op s = (.ok u, s'))
    (hal : ∀ r ∈ s.ga.parents, r < s.next) :
    ∃ r0 g0, s.ga.population.head? = some r0 ∧ (s.heap r0).genotype = some g0 ∧
    ∃ (s1 : St σ) (gs : List (List Val)), Drew s { s1 with ga := s.ga } ∧ s1.ga = { s.ga with children := [] } ∧
      Bred s1 s' gs ∧ s.ga.parents.length = 2 * gs.length ∧
      ∀ (i : Nat) (g : List Val), gs[i]? = some g → ∃ a b p1 p2, s.ga.parents[2 * i]? = some a ∧
        s.ga.parents[2 * i + 1]? = some b ∧ (s.heap a).genotype = some p1 ∧ (s.heap b).genotype = some p2 ∧
        CrossResult σ op g0.length p1 p2 g := by
  unfold crossExec at h
  rw [bind_of_ok (getGa_run s)] at h
  cases hp : s.ga.population with
  | nil => rw [hp] at h; simp only [throwE_ok] at h
  | cons r0 rs =>
    rw [hp] at h
    simp only at h
    obtain ⟨g0, s1, h1, h2⟩ := bind_ok.mp h
    obtain ⟨e0, rfl⟩ := genoOf_ok.mp h1
    obtain ⟨_, s2, h3, h4⟩ := bind_ok.mp h2
    obtain ⟨t, rfl⟩ := reseed_ok h3
    obtain ⟨_, s3, h5, h6⟩ := bind_ok.mp h4
    rw [modGa_ok] at h5
    subst h5
    obtain ⟨gs, hb, hl, hr⟩ := crossPairs_ok le_rfl h6 hal
    exact ⟨r0, g0, rfl, e0, _, gs, ⟨t, rfl⟩, rfl, hb, hl, hr⟩

end BaumEva
