import Verif.Model.Offspring
import Verif.Props.Again
import Verif.Props.Crossover
import Verif.Proofs.Mutation
import Verif.Proofs.NewGeneration
/-!
# C116: two children per pair
-/
namespace BaumEva
open Spec
variable {σ : Type}

/-- One crossover makes the genotypes `g1` and `g2` of the parents `p1` and `p2` for some random draws. -/
def CrossedTo (σ : Type) (op : CrossOp) (len : Nat) (p1 p2 g1 g2 : List Val) : Prop :=
  ∃ s s' : St σ, crossGeno op len p1 p2 s = (.ok (g1, g2), s')

theorem addBoth_bred {op : CrossOp} {len : Nat} {p1 p2 : List Val} {s s' : St σ} {u : Unit}
    (h : (do let c ← getBoth op len p1 p2
             modGa fun ga => { ga with children := ga.children ++ [c.1, c.2] }) s = (.ok u, s')) :
    ∃ g1 g2, Bred s s' [g1, g2] ∧ CrossedTo σ op len p1 p2 g1 g2 := by
  obtain ⟨c, s1, h1, h2⟩ := bind_ok.mp h
  rw [modGa_ok] at h2
  unfold getBoth at h1
  obtain ⟨cs, s2, h3, h4⟩ := bind_ok.mp h1
  obtain ⟨a, s3, h5, h6⟩ := bind_ok.mp h4
  obtain ⟨rfl, rfl⟩ := alloc_ok.mp h5
  obtain ⟨b, s4, h7, h8⟩ := bind_ok.mp h6
  obtain ⟨rfl, rfl⟩ := alloc_ok.mp h7
  obtain ⟨rfl, rfl⟩ := pure_ok.mp h8
  subst h2
  refine ⟨cs.1, cs.2, ?_, s, s2, h3⟩
  obtain ⟨t, rfl⟩ := crossGeno_drew h3
  refine ⟨by simp [List.range'], by simp, ?_, ?_, rfl, rfl, rfl, rfl, rfl⟩
  · intro i g' hg
    match i with
    | 0 => simp only [List.getElem?_cons_zero, Option.some.injEq] at hg; subst hg; simp [upd]
    | 1 => simp only [List.getElem?_cons_succ, List.getElem?_cons_zero, Option.some.injEq] at hg; subst hg; simp [upd]
    | i + 2 => simp at hg
  · intro r hr
    simp only [upd]
    rw [if_neg (by omega), if_neg (by omega)]

theorem crossPairsBoth_ok {op : CrossOp} {len : Nat} : ∀ {n : Nat} {ps : List Nat} {s s' : St σ} {u : Unit},
    ps.length ≤ n → crossPairsBoth op len ps s = (.ok u, s') → (∀ r ∈ ps, r < s.next) →
    ∃ gs, Bred s s' gs ∧ ps.length = gs.length ∧ gs.length % 2 = 0 ∧
      ∀ (i : Nat) (g1 g2 : List Val), gs[2 * i]? = some g1 → gs[2 * i + 1]? = some g2 → ∃ a b p1 p2, ps[2 * i]? = some a ∧
        ps[2 * i + 1]? = some b ∧ (s.heap a).genotype = some p1 ∧ (s.heap b).genotype = some p2 ∧ CrossedTo σ op len p1 p2 g1 g2 := by
  intro n
  induction n with
  | zero =>
    intro ps s s' u hl h _
    have : ps = [] := List.length_eq_zero_iff.mp (by omega)
    subst this
    rw [crossPairsBoth] at h
    obtain ⟨_, rfl⟩ := pure_ok.mp h
    exact ⟨[], Bred.nil_of_drew (Drew.refl _), rfl, rfl, by intro i g _ h; simp at h⟩
  | succ n ih =>
    intro ps s s' u hl h hal
    match ps with
    | [] =>
      rw [crossPairsBoth] at h
      obtain ⟨_, rfl⟩ := pure_ok.mp h
      exact ⟨[], Bred.nil_of_drew (Drew.refl _), rfl, rfl, by intro i g _ h; simp at h⟩
    | [_] => rw [crossPairsBoth, throwE_ok] at h; exact h.elim
    | a :: b :: rest =>
      rw [crossPairsBoth] at h
      obtain ⟨p1, s1, h1, h2⟩ := bind_ok.mp h
      obtain ⟨e1, rfl⟩ := genoOf_ok.mp h1
      obtain ⟨p2, s2, h3, h4⟩ := bind_ok.mp h2
      obtain ⟨e2, rfl⟩ := genoOf_ok.mp h3
      obtain ⟨c, s3, h5, h6⟩ := bind_ok.mp h4
      obtain ⟨_, s4, h7, h8⟩ := bind_ok.mp h6
      obtain ⟨g1, g2, hb, hcr⟩ := addBoth_bred (op := op) (len := len) (p1 := p1) (p2 := p2) (s := s2) (s' := s4)
        (u := ()) (by rw [bind_of_ok h5]; exact h7)
      obtain ⟨gs, hbs, hlen, heven, hres⟩ := ih (by simp at hl; omega) h8 (by
        intro r hr
        have := hal r (by simp [hr])
        rw [hb.next]; omega)
      refine ⟨g1 :: g2 :: gs, hb.trans hbs, by simp [hlen], by simp; omega, ?_⟩
      intro i x y hx hy
      cases i with
      | zero =>
        simp only [Nat.mul_zero, List.getElem?_cons_zero, Option.some.injEq] at hx
        simp only [Nat.mul_zero, Nat.zero_add, List.getElem?_cons_succ, List.getElem?_cons_zero, Option.some.injEq] at hy
        subst hx hy
        exact ⟨a, b, p1, p2, rfl, rfl, e1, e2, hcr⟩
      | succ i =>
        rw [show 2 * (i + 1) = 2 * i + 1 + 1 by omega] at hx hy
        simp only [List.getElem?_cons_succ] at hx hy
        obtain ⟨a', b', q1, q2, f1, f2, f3, f4, f5⟩ := hres i x y hx hy
        have ha : a' < s2.next := hal a' (by simp [List.mem_of_getElem? f1])
        have hb' : b' < s2.next := hal b' (by simp [List.mem_of_getElem? f2])
        refine ⟨a', b', q1, q2, ?_, ?_, ?_, ?_, f5⟩
        · rw [show 2 * (i + 1) = 2 * i + 1 + 1 by omega]; simpa using f1
        · rw [show 2 * (i + 1) + 1 = 2 * i + 1 + 1 + 1 by omega]; simpa using f2
        · rw [← hb.old a' ha]; exact f3
        · rw [← hb.old b' hb']; exact f4

theorem crossBoth_ok {op : CrossOp} {s s' : St σ} {u : Unit} (h : crossBoth op s = (.ok u, s'))
    (hal : ∀ r ∈ s.ga.parents, r < s.next) :
    ∃ r0 g0, s.ga.population.head? = some r0 ∧ (s.heap r0).genotype = some g0 ∧
    ∃ (s1 : St σ) (gs : List (List Val)), Drew s { s1 with ga := s.ga } ∧ s1.ga = { s.ga with children := [] } ∧
      Bred s1 s' gs ∧ s.ga.parents.length = gs.length ∧ gs.length % 2 = 0 ∧
      ∀ (i : Nat) (g1 g2 : List Val), gs[2 * i]? = some g1 → gs[2 * i + 1]? = some g2 → ∃ a b p1 p2, s.ga.parents[2 * i]? = some a ∧
        s.ga.parents[2 * i + 1]? = some b ∧ (s.heap a).genotype = some p1 ∧ (s.heap b).genotype = some p2 ∧
        CrossedTo σ op g0.length p1 p2 g1 g2 := by
  unfold crossBoth at h
  rw [bind_of_ok (getGa_run s)] at h
  cases hp : s.ga.population with
  | nil => rw [hp] at h; simp only [throwE_ok] at h
  | cons r0 rs =>
    rw [hp] at h
    simp only at h
    obtain ⟨g0, s1, h1, h2⟩ := bind_ok.mp h
    obtain ⟨e0, rfl⟩ := genoOf_ok.mp h1
    obtain ⟨_, s2, h3, h4⟩ := bind_ok.mp h2
    obtain ⟨t, rfl⟩ := reseed_ok h3
    obtain ⟨_, s3, h5, h6⟩ := bind_ok.mp h4
    rw [modGa_ok] at h5
    subst h5
    obtain ⟨gs, hb, hl, he, hr⟩ := crossPairsBoth_ok le_rfl h6 hal
    exact ⟨r0, g0, rfl, e0, _, gs, ⟨t, rfl⟩, rfl, hb, hl, he, hr⟩

/-- C116: with `num_offsprings = 2` every pair of parents has two children, new objects made by one crossover of the genotypes of
its members; nothing that existed before changes. -/
theorem C116_two_per_pair {op : CrossOp} {s s' : St σ} (hal : ∀ r ∈ s.ga.parents, r < s.next) (h : crossBoth op s = (.ok (), s')) :
    s'.ga.children.length = s.ga.parents.length ∧ s.ga.parents.length % 2 = 0 ∧ s'.ga.children.Nodup ∧
    s'.ga = { s.ga with children := s'.ga.children } ∧ (∀ r, r < s.next → s'.heap r = s.heap r) ∧ s'.calls = s.calls ∧
    (∀ r ∈ s'.ga.children, s.next ≤ r ∧ r < s'.next) ∧
    ∃ r0 g0, s.ga.population.head? = some r0 ∧ (s.heap r0).genotype = some g0 ∧
    ∀ i x y : Nat, s'.ga.children[2 * i]? = some x → s'.ga.children[2 * i + 1]? = some y → ∃ a b p1 p2 g1 g2,
      s.ga.parents[2 * i]? = some a ∧ s.ga.parents[2 * i + 1]? = some b ∧ (s.heap a).genotype = some p1 ∧
      (s.heap b).genotype = some p2 ∧ s'.heap x = { genotype := some g1 } ∧ s'.heap y = { genotype := some g2 } ∧
      CrossedTo σ op g0.length p1 p2 g1 g2 := by
  obtain ⟨r0, g0, e1, e2, s1, gs, ⟨t, hd⟩, hg, hB, hl, he, hr⟩ := crossBoth_ok h hal
  have hn : s1.next = s.next := by have := congrArg St.next hd; exact this
  have hh : s1.heap = s.heap := by have := congrArg St.heap hd; exact this
  have hc : s1.calls = s.calls := by have := congrArg St.calls hd; exact this
  have hch : s'.ga.children = List.range' s.next gs.length := by rw [hB.ga, hg, hn]; rfl
  have hat : ∀ (i x : Nat), s'.ga.children[i]? = some x → ∃ g, gs[i]? = some g ∧ s'.heap x = { genotype := some g } := by
    intro i x hx
    have hi : i < gs.length := by
      have := (List.getElem?_eq_some_iff.mp hx).1
      rwa [hch, List.length_range'] at this
    rw [hch, List.getElem?_range' hi] at hx
    simp only [Option.some.injEq] at hx
    refine ⟨gs[i], List.getElem?_eq_getElem hi, ?_⟩
    rw [← hB.new i gs[i] (List.getElem?_eq_getElem hi), hn, ← hx]
    congr 1; omega
  refine ⟨by rw [hch, List.length_range', hl], by rw [hl]; exact he, by rw [hch]; exact List.nodup_range', ?_, ?_, ?_, ?_, r0, g0, e1, e2, ?_⟩
  · rw [hB.ga, hg]
  · intro r hr'
    rw [hB.old r (by rw [hn]; exact hr'), hh]
  · rw [hB.calls, hc]
  · intro r hr'
    rw [hch] at hr'
    have := List.mem_range'_1.mp hr'
    rw [hB.next, hn]
    omega
  · intro i x y hx hy
    obtain ⟨g1, k1, k2⟩ := hat _ x hx
    obtain ⟨g2, k3, k4⟩ := hat _ y hy
    obtain ⟨a, b, p1, p2, q1, q2, q3, q4, q5⟩ := hr i g1 g2 k1 k3
    exact ⟨a, b, p1, p2, g1, g2, q1, q2, q3, q4, k2, k4, q5⟩

/-- At every position the two genotypes have the genes of the parents, one each. -/
def Complementary (p1 p2 g1 g2 : List Val) : Prop :=
  ∀ i : Nat, (g1[i]? = p1[i]? ∧ g2[i]? = p2[i]?) ∨ (g1[i]? = p2[i]? ∧ g2[i]? = p1[i]?)

/-- C116, full claim: the two children of a pair are complementary, whatever the crossover. -/
def BothComplementary : Prop :=
  ∀ (op : CrossOp) (p1 p2 g1 g2 : List Val), p1.length = p2.length → CrossedTo ℚ op p1.length p1 p2 g1 g2 → Complementary p1 p2 g1 g2

/-- C116, proved part: after `OnePointCrossover` and `TwoPointCrossover` no gene of the parents is lost.  Missing: the other two
classes (`OrderCrossover` keeps the set of genes instead, `C116_order`; for `UniformCrossover` the claim is false). -/
theorem C116_complementary_partial {op : CrossOp} {p1 p2 g1 g2 : List Val} (ho : op = .onePoint ∨ op = .twoPoint)
    (hl : p1.length = p2.length) (h : CrossedTo σ op p1.length p1 p2 g1 g2) : Complementary p1 p2 g1 g2 := by
  obtain ⟨s, s', h⟩ := h
  rcases ho with rfl | rfl
  · obtain ⟨c, _, _, _, _, k⟩ := C14_one_point rfl hl.symm h
    intro i
    obtain ⟨k1, k2⟩ := k i
    simp only at k1 k2
    by_cases hi : i < c
    · rw [if_pos hi] at k1 k2; exact .inl ⟨k1, k2⟩
    · rw [if_neg hi] at k1 k2; exact .inr ⟨k1, k2⟩
  · obtain ⟨c, d, _, _, _, _, _, k⟩ := C15_two_point rfl hl.symm h
    intro i
    obtain ⟨k1, k2⟩ := k i
    simp only at k1 k2
    by_cases hi : c ≤ i ∧ i < d
    · rw [if_pos hi] at k1 k2; exact .inr ⟨k1, k2⟩
    · rw [if_neg hi] at k1 k2; exact .inl ⟨k1, k2⟩

/-- C116: both children of `OrderCrossover` are rearrangements of the parents, if those are rearrangements of each other without
repeated genes. -/
theorem C116_order {p1 p2 g1 g2 : List Val} (hn : p1.Nodup) (hp : p1.Perm p2) (h : CrossedTo σ .order p1.length p1 p2 g1 g2) :
    g1.Perm p1 ∧ g2.Perm p1 := by
  obtain ⟨s, s', h⟩ := h
  exact C17_order_permutation rfl hn hp h

/-- C116: the children of `UniformCrossover` are equal, so the genes the coins did not pick are lost. -/
theorem C116_uniform {p1 p2 g1 g2 : List Val} {L : Nat} (h : CrossedTo σ .uniform L p1 p2 g1 g2) : g1 = g2 := by
  obtain ⟨s, s', h⟩ := h
  exact (C16_uniform h).1

theorem C116_complementary_refuted : ¬ BothComplementary := by
  intro h
  have hc : CrossedTo ℚ .uniform 2 [.num 0, .num 1] [.num 2, .num 3] [.num 0, .num 3] [.num 0, .num 3] :=
    ⟨{ tape := [0, 1] }, { tape := [] }, rfl⟩
  rcases h .uniform [.num 0, .num 1] [.num 2, .num 3] [.num 0, .num 3] [.num 0, .num 3] rfl hc 0 with ⟨_, h2⟩ | ⟨h1, _⟩
  · exact absurd h2 (by decide)
  · exact absurd h1 (by decide)

/-! ## Mutation of children that share a list -/

theorem sync_ok {a b : Nat} {s s' : St σ} {u : Unit} (h : sync a b s = (.ok u, s')) :
    s' = { s with heap := upd s.heap b { s.heap b with genotype := (s.heap a).genotype } } := by
  unfold sync at h
  obtain ⟨x, s1, h1, h2⟩ := bind_ok.mp h
  obtain ⟨rfl, rfl⟩ := getInd_ok.mp h1
  exact modInd_ok.mp h2

/-- What one object is after the shared list was mutated twice. -/
def MutatedTwice (mop : MutOp) (spec : PopSpec) (lvl : MutLvl) (a b : Ind σ) : Prop :=
  ∃ m, Mutated mop spec lvl a m ∧ Mutated mop spec lvl m b

theorem mutTwins_ok {mop : MutOp} {R : PopSpec → MutLvl → Ind σ → Ind σ → Prop}
    (hR : ∀ {r : Nat} {s s' : St σ} {u : Unit}, mutateChild mop r s = (.ok u, s') →
      R s.ga.attrs.spec (s.mutLvl.effective s.ga.attrs.arith) (s.heap r) (s'.heap r)) : ∀ {n : Nat} {cs : List Nat} {s s' : St σ} {u : Unit}, cs.length ≤ n → cs.length % 2 = 0 → cs.Nodup →
    mutTwins mop cs s = (.ok u, s') →
    (∃ t hp, s' = { s with tape := t, heap := hp }) ∧ (∀ r, r ∉ cs → s'.heap r = s.heap r) ∧
    ∀ i x y : Nat, cs[2 * i]? = some x → cs[2 * i + 1]? = some y → s.heap x = s.heap y →
      s'.heap x = s'.heap y ∧
      ∃ m, R s.ga.attrs.spec (s.mutLvl.effective s.ga.attrs.arith) (s.heap x) m ∧
        R s.ga.attrs.spec (s.mutLvl.effective s.ga.attrs.arith) m (s'.heap x) := by
  intro n
  induction n with
  | zero =>
    intro cs s s' u hl _ _ h
    have : cs = [] := List.length_eq_zero_iff.mp (by omega)
    subst this
    rw [mutTwins] at h
    obtain ⟨_, rfl⟩ := pure_ok.mp h
    exact ⟨⟨_, _, rfl⟩, fun _ _ => rfl, by intro i x y h; simp at h⟩
  | succ n ih =>
    intro cs s s' u hl he hn h
    match cs with
    | [] =>
      rw [mutTwins] at h
      obtain ⟨_, rfl⟩ := pure_ok.mp h
      exact ⟨⟨_, _, rfl⟩, fun _ _ => rfl, by intro i x y h; simp at h⟩
    | [_] => simp at he
    | a :: b :: rest =>
      rw [mutTwins] at h
      obtain ⟨_, s1, h1, h2⟩ := bind_ok.mp h
      obtain ⟨_, s2, h3, h4⟩ := bind_ok.mp h2
      obtain ⟨_, s3, h5, h6⟩ := bind_ok.mp h4
      obtain ⟨_, s4, h7, h8⟩ := bind_ok.mp h6
      obtain ⟨⟨t1, v1, e1⟩, m1⟩ := mutateChild_ok h1
      have e2 := sync_ok h3
      obtain ⟨⟨t3, v3, e3⟩, m3⟩ := mutateChild_ok h5
      have e4 := sync_ok h7
      have r1 := hR h1
      have r3 := hR h5
      have hab : a ≠ b := by
        intro e; subst e; simp at hn
      have har : a ∉ rest := by
        have := (List.nodup_cons.mp hn).1
        simp at this; exact this.2
      have hbr : b ∉ rest := (List.nodup_cons.mp (List.nodup_cons.mp hn).2).1
      obtain ⟨⟨t5, hp5, e5⟩, o5, p5⟩ := ih (by simp at hl; omega) (by simp at he; omega)
        (List.nodup_cons.mp (List.nodup_cons.mp hn).2).2 h8
      have c1a : s1.heap a = v1 := by rw [e1]; simp [upd]
      have c1o : ∀ r, r ≠ a → s1.heap r = s.heap r := by intro r hr; rw [e1]; simp [upd, hr]
      have c2b : s2.heap b = { s1.heap b with genotype := (s1.heap a).genotype } := by rw [e2]; simp [upd]
      have c2o : ∀ r, r ≠ b → s2.heap r = s1.heap r := by intro r hr; rw [e2]; simp [upd, hr]
      have c3o : ∀ r, r ≠ b → s3.heap r = s2.heap r := by intro r hr; rw [e3]; simp [upd, hr]
      have c4a : s4.heap a = { s3.heap a with genotype := (s3.heap b).genotype } := by rw [e4]; simp [upd]
      have c4o : ∀ r, r ≠ a → s4.heap r = s3.heap r := by intro r hr; rw [e4]; simp [upd, hr]
      have g2 : s2.ga = s.ga := by rw [e2, e1]
      have l2 : s2.mutLvl = s.mutLvl := by rw [e2, e1]
      have g4 : s4.ga = s.ga := by rw [e4, e3]; exact g2
      have l4 : s4.mutLvl = s.mutLvl := by rw [e4, e3]; exact l2
      refine ⟨⟨t5, hp5, ?_⟩, ?_, ?_⟩
      · rw [e5, e4, e3, e2, e1]
      · intro r hr
        simp only [List.mem_cons, not_or] at hr
        rw [o5 r hr.2.2, c4o r hr.1, c3o r hr.2.1, c2o r hr.2.1, c1o r hr.1]
      · intro i x y hx hy hxy
        cases i with
        | zero =>
          simp only [Nat.mul_zero, List.getElem?_cons_zero, Option.some.injEq] at hx
          simp only [Nat.mul_zero, Nat.zero_add, List.getElem?_cons_succ, List.getElem?_cons_zero, Option.some.injEq] at hy
          subst hx hy
          rw [g2, l2] at m3 r3
          have k : ∀ {p q : Ind σ}, Mutated mop s.ga.attrs.spec (s.mutLvl.effective s.ga.attrs.arith) p q →
              q = { p with genotype := q.genotype } := by
            intro p q h
            rcases h with rfl | ⟨g, g', _, rfl, _⟩ <;> rfl
          have w1 : s1.heap a = s2.heap b := by
            rw [c2b, c1o b (Ne.symm hab), ← hxy]; exact k m1
          have w2 : s4.heap a = s3.heap b := by
            rw [c4a, c3o a hab, c2o a hab, w1]; exact (k m3).symm
          rw [o5 a har, o5 b hbr, c4o b (Ne.symm hab), w2]
          exact ⟨rfl, s1.heap a, r1, by rw [w1]; exact r3⟩
        | succ i =>
          rw [show 2 * (i + 1) = 2 * i + 1 + 1 by omega] at hx hy
          simp only [List.getElem?_cons_succ] at hx hy
          have mx : x ∈ rest := List.mem_of_getElem? hx
          have my : y ∈ rest := List.mem_of_getElem? hy
          have un : ∀ r ∈ rest, s4.heap r = s.heap r := by
            intro r hr
            have ra : r ≠ a := by rintro rfl; exact har hr
            have rb : r ≠ b := by rintro rfl; exact hbr hr
            rw [c4o r ra, c3o r rb, c2o r rb, c1o r ra]
          obtain ⟨q1, q2⟩ := p5 i x y hx hy (by rw [un x mx, un y my, hxy])
          rw [g4, l4, un x mx] at q2
          exact ⟨q1, q2⟩

theorem mutBoth_uniform_ok {mop : MutOp} {R : PopSpec → MutLvl → Ind σ → Ind σ → Prop}
    (hR : ∀ {r : Nat} {s s' : St σ} {u : Unit}, mutateChild mop r s = (.ok u, s') →
      R s.ga.attrs.spec (s.mutLvl.effective s.ga.attrs.arith) (s.heap r) (s'.heap r)) (hm : mop ≠ .inversion) {s s' : St σ} {u : Unit} (hn : s.ga.children.Nodup)
    (he : s.ga.children.length % 2 = 0) (h : mutBoth .uniform mop s = (.ok u, s')) :
    (∃ t hp, s' = { s with tape := t, heap := hp, mutLvl := s'.mutLvl }) ∧
    (mop ≠ .binString → s'.mutLvl = s.mutLvl) ∧
    (mop = .binString → updateMutLvlR s.ga.attrs.arith.rnd s.mutLvl (s.ga.attrs.idxBits.getLastD 0) = .ok s'.mutLvl) ∧
    (∀ r, r ∉ s.ga.children → s'.heap r = s.heap r) ∧
    ∀ i x y : Nat, s.ga.children[2 * i]? = some x → s.ga.children[2 * i + 1]? = some y → s.heap x = s.heap y →
      s'.heap x = s'.heap y ∧
      ∃ m, R s.ga.attrs.spec (s'.mutLvl.effective s.ga.attrs.arith) (s.heap x) m ∧
        R s.ga.attrs.spec (s'.mutLvl.effective s.ga.attrs.arith) m (s'.heap x) := by
  unfold mutBoth at h
  rw [if_pos ⟨rfl, hm⟩, bind_of_ok (getS_run s)] at h
  have other : mop ≠ .binString → mutTwins mop s.ga.children s = (.ok u, s') →
      (∃ t hp, s' = { s with tape := t, heap := hp, mutLvl := s'.mutLvl }) ∧
      (mop ≠ .binString → s'.mutLvl = s.mutLvl) ∧
      (mop = .binString → updateMutLvlR s.ga.attrs.arith.rnd s.mutLvl (s.ga.attrs.idxBits.getLastD 0) = .ok s'.mutLvl) ∧
      (∀ r, r ∉ s.ga.children → s'.heap r = s.heap r) ∧
      ∀ i x y : Nat, s.ga.children[2 * i]? = some x → s.ga.children[2 * i + 1]? = some y → s.heap x = s.heap y →
        s'.heap x = s'.heap y ∧
        ∃ m, R s.ga.attrs.spec (s'.mutLvl.effective s.ga.attrs.arith) (s.heap x) m ∧
        R s.ga.attrs.spec (s'.mutLvl.effective s.ga.attrs.arith) m (s'.heap x) := by
    intro hb h
    obtain ⟨⟨t, hp, e⟩, o, p⟩ := mutTwins_ok hR le_rfl he hn h
    have hl : s'.mutLvl = s.mutLvl := by rw [e]
    exact ⟨⟨t, hp, by rw [hl]; exact e⟩, fun _ => hl, fun h => absurd h hb, o, by rw [hl]; exact p⟩
  cases mop with
  | inversion => exact absurd rfl hm
  | movement => exact other (by decide) h
  | shift => exact other (by decide) h
  | swap => exact other (by decide) h
  | categorical => exact other (by decide) h
  | binString =>
    simp only at h
    cases hs : s.ga.attrs.spec with
    | binary gray gens =>
      rw [hs] at h
      simp only at h
      obtain ⟨lvl, s1, h1, h2⟩ := bind_ok.mp h
      obtain ⟨q1, rfl⟩ := liftE_ok.mp h1
      obtain ⟨_, s2, h3, h4⟩ := bind_ok.mp h2
      rw [modifyS_run] at h3
      simp only [Prod.mk.injEq] at h3
      obtain ⟨_, rfl⟩ := h3
      obtain ⟨⟨t, hp, e⟩, o, p⟩ := mutTwins_ok hR le_rfl he hn h4
      have hl : s'.mutLvl = lvl := by rw [e]
      refine ⟨⟨t, hp, by rw [hl]; exact e⟩, fun h => absurd rfl h, fun _ => by rw [hl]; exact q1, o, ?_⟩
      rw [hl, ← hs]; exact p
    | cat _ => rw [hs] at h; simp only [throwE_ok] at h
    | orderCat _ _ _ => rw [hs] at h; simp only [throwE_ok] at h

/-- C116: the two children `UniformCrossover` makes of a pair are one genotype twice, and stay so under every mutation but
`InversionMutation`: the shared list is mutated twice and both children show the result. -/
theorem C116_twins {mop : MutOp} (hm : mop ≠ .inversion) {s s1 s2 : St σ} (hal : ∀ r ∈ s.ga.parents, r < s.next)
    (hc : crossBoth .uniform s = (.ok (), s1)) (h : mutBoth .uniform mop s1 = (.ok (), s2)) :
    s2.ga.children.length = s.ga.parents.length ∧
    ∀ i x y : Nat, s2.ga.children[2 * i]? = some x → s2.ga.children[2 * i + 1]? = some y →
      x ≠ y ∧ s2.heap x = s2.heap y ∧
      MutatedTwice mop s.ga.attrs.spec (s2.mutLvl.effective s.ga.attrs.arith) (s1.heap x) (s2.heap x) := by
  obtain ⟨k1, k2, k3, k4, _, _, _, _, _, _, _, k⟩ := C116_two_per_pair hal hc
  obtain ⟨⟨t, hp, e⟩, _, _, _, p⟩ := mutBoth_uniform_ok (fun h => (mutateChild_ok h).2) hm k3 (by rw [k1]; exact k2) h
  have hg : s2.ga = s1.ga := by rw [e]
  rw [hg]
  refine ⟨k1, ?_⟩
  intro i x y hx hy
  obtain ⟨_, _, _, _, g1, g2, _, _, _, _, e1, e2, hcr⟩ := k i x y hx hy
  have hat : s1.ga.attrs = s.ga.attrs := by rw [k4]
  rw [← hat]
  refine ⟨?_, p i x y hx hy (by rw [e1, e2, C116_uniform hcr])⟩
  rintro rfl
  have h1 := List.getElem?_eq_some_iff.mp hx
  have h2 := List.getElem?_eq_some_iff.mp hy
  have := (k3.getElem_inj_iff (hi := h1.1) (hj := h2.1)).mp (h1.2.trans h2.2.symm)
  omega

theorem zip_flip {β : Type} {f : Val → Val} : ∀ {g : List Val} {ds : List β}, ds.length = g.length →
    List.zipWith (fun x _ => f x) g ds = g.map f := by
  intro g
  induction g with
  | nil => intro ds _; simp
  | cons x g ih =>
    intro ds h
    cases ds with
    | nil => simp at h
    | cons d ds => simp [ih (by simpa using h)]

theorem flip_all {q : ℚ} (hq : 999 / 1000 ≤ q) {g g' : List Val} {s s' : St σ} (h : mutateBits (.float q) g s = (.ok g', s')) :
    g' = g.map fun x => if x = bit0 then bit1 else bit0 := by
  obtain ⟨ds, hl, _, _, rfl⟩ := mutateBits_ok.mp h
  have hh : ∀ d, hits q d = true := by
    intro d
    simp only [hits, decide_eq_true_eq]
    have : ((d % 1000 : Nat) : ℚ) ≤ 999 := by
      have := Nat.mod_lt d (show 0 < 1000 by norm_num)
      exact_mod_cast Nat.le_of_lt_succ this
    linarith
  simp only [hh, if_true]
  exact zip_flip hl

theorem mutateChild_bits {r : Nat} {s s' : St σ} {u : Unit} (h : mutateChild .binString r s = (.ok u, s')) :
    ∃ g g', (s.heap r).genotype = some g ∧ s'.heap r = { s.heap r with genotype := some g' } ∧
      MutGeno σ .binString s.ga.attrs.spec (s.mutLvl.effective s.ga.attrs.arith) g g' := by
  unfold mutateChild at h
  rw [bind_of_ok (getS_run s)] at h
  simp only at h
  obtain ⟨g, s1, h1, h2⟩ := bind_ok.mp h
  obtain ⟨e1, rfl⟩ := genoOf_ok.mp h1
  obtain ⟨g', s2, h3, h4⟩ := bind_ok.mp h2
  have hm := modInd_ok.mp h4
  have hh : s2.heap = s1.heap := by obtain ⟨t, rfl⟩ := mutateBits_drew h3; rfl
  refine ⟨g, g', e1, ?_, s1, s2, h3⟩
  rw [hm, hh]; simp [upd]

/-- C116: the same mutation, the same level, but with two children per pair `UniformCrossover` makes `BinStringMutation` work on
each genotype twice.  At a level of 0.999 or more, where it inverts every bit, the children are what they were before. -/
theorem C116_flips_cancel {q : ℚ} (hq : 999 / 1000 ≤ q) {s s1 s2 : St σ} (hal : ∀ r ∈ s.ga.parents, r < s.next)
    (hc : crossBoth .uniform s = (.ok (), s1)) (h : mutBoth .uniform .binString s1 = (.ok (), s2))
    (hlvl : s2.mutLvl.effective s.ga.attrs.arith = .float q)
    (hbits : ∀ r ∈ s.ga.parents, ∀ g, (s.heap r).genotype = some g → ∀ x ∈ g, x = bit0 ∨ x = bit1) :
    ∀ x ∈ s2.ga.children, s2.heap x = s1.heap x := by
  obtain ⟨k1, k2, k3, k4, _, _, _, _, _, _, _, k⟩ := C116_two_per_pair hal hc
  obtain ⟨⟨t, hp, e⟩, _, _, _, p⟩ := mutBoth_uniform_ok (R := fun spec lvl a b => ∃ g g', a.genotype = some g ∧
      b = { a with genotype := some g' } ∧ MutGeno σ .binString spec lvl g g') mutateChild_bits (by decide) k3 (by rw [k1]; exact k2) h
  have hg : s2.ga = s1.ga := by rw [e]
  have hat : s1.ga.attrs = s.ga.attrs := by rw [k4]
  rw [hg]
  have pair : ∀ i x y : Nat, s1.ga.children[2 * i]? = some x → s1.ga.children[2 * i + 1]? = some y →
      s2.heap x = s1.heap x ∧ s2.heap y = s1.heap y := by
    intro i x y hx hy
    obtain ⟨a, b, p1, p2, g1, g2, f1, f2, f3, f4, e1, e2, hcr⟩ := k i x y hx hy
    have e12 : s1.heap x = s1.heap y := by rw [e1, e2, C116_uniform hcr]
    obtain ⟨q1, m, ⟨u1, u2, v1, v2, v3⟩, ⟨u3, u4, v4, v5, v6⟩⟩ := p i x y hx hy e12
    have : s2.heap x = s1.heap x := by
      rw [hat, hlvl] at v3 v6
      obtain ⟨_, _, w1⟩ := v3
      obtain ⟨_, _, w2⟩ := v6
      have z1 := flip_all hq w1
      have z2 := flip_all hq w2
      rw [e1] at v1 v2
      simp only [Option.some.injEq] at v1
      rw [v2] at v4 v5
      simp only [Option.some.injEq] at v4
      rw [v5, e1, z2, ← v4, z1, ← v1, List.map_map]
      have : g1.map ((fun x => if x = bit0 then bit1 else bit0) ∘ fun x => if x = bit0 then bit1 else bit0) = g1.map id := by
        apply List.map_congr_left
        intro z hz
        have hz' : z = bit0 ∨ z = bit1 := by
          obtain ⟨t1, t2, hcr⟩ := hcr
          obtain ⟨i, hi⟩ := List.mem_iff_getElem?.mp hz
          have hlt := (List.getElem?_eq_some_iff.mp hi).1
          have hlen : g1.length = _ := (C16_uniform hcr).2.1
          rw [hlen] at hlt
          rcases (C16_uniform hcr).2.2 i hlt with hh | hh
          · exact hbits a (List.mem_of_getElem? f1) p1 f3 z (List.mem_of_getElem? (hh.symm.trans hi))
          · exact hbits b (List.mem_of_getElem? f2) p2 f4 z (List.mem_of_getElem? (hh.symm.trans hi))
        rcases hz' with rfl | rfl <;> decide
      rw [this]; simp
    exact ⟨this, by rw [← q1, this, e12]⟩
  intro x hx
  obtain ⟨j, hj⟩ := List.mem_iff_getElem?.mp hx
  have hjl := (List.getElem?_eq_some_iff.mp hj).1
  have ev : s1.ga.children.length % 2 = 0 := by rw [k1]; exact k2
  rcases Nat.even_or_odd' j with ⟨i, rfl | rfl⟩
  · have : 2 * i + 1 < s1.ga.children.length := by omega
    exact (pair i x _ hj (List.getElem?_eq_getElem this)).1
  · have : 2 * i < s1.ga.children.length := by omega
    exact (pair i _ x (List.getElem?_eq_getElem this) hj).2

/-- C116: the next generation after two children per pair: all of them and one more than needed of the old, so with at least as
many children as `num_individ` it has one individual more than there are children. -/
theorem C116_size [LinearOrder σ] {op : CrossOp} {tr : Transfer} {s s1 s2 s3 : St σ} (hal : ∀ r ∈ s.ga.parents, r < s.next)
    (hc : crossBoth op s = (.ok (), s1)) (hm : s2.ga = s1.ga) (h : newGenExec tr s2 = (.ok (), s3)) :
    (s.ga.attrs.numIndivid ≤ s.ga.parents.length → s3.ga.population.length = s.ga.parents.length + 1) ∧
    (s.ga.parents.length ≤ s.ga.attrs.numIndivid → s.ga.attrs.numIndivid - s.ga.parents.length < s.ga.population.length →
      s3.ga.population.length = s.ga.attrs.numIndivid + 1) := by
  obtain ⟨k1, _, _, k4, _⟩ := C116_two_per_pair hal hc
  obtain ⟨pop, es, t, _, _, _, _, e, c1, c2⟩ := newGenExec_ok h
  have hl : s3.ga.population.length = s.ga.parents.length + es.length := by
    rw [e]; simp [hm, k1]
  have ha : s2.ga.attrs = s.ga.attrs := by rw [hm, k4]
  have hp : s2.ga.population = s.ga.population := by rw [hm, k4]
  rw [hm, k1, ← hm, ha] at c1 c2
  rw [hp] at c2
  refine ⟨fun h => by rw [hl, c1 h], fun h h' => by rw [hl, c2 h']; omega⟩

/-! ## Concrete cases -/

/-- Two parents `0011` and `0101` of a binary population, each once as first and once as second parent of a pair. -/
def exPair (tape : List Nat) : St ℚ where
  tape := tape
  heap := fun r => if r = 0 then { genotype := some [bit0, bit0, bit1, bit1] } else { genotype := some [bit0, bit1, bit0, bit1] }
  next := 2
  mutLvl := .float 1
  ga := { population := [0, 1], parents := [0, 1, 1, 0], attrs := { spec := .binary false [], idxBits := [4], numIndivid := 2 } }

example : ∃ s' : St ℚ, crossBoth .onePoint (exPair [0, 1]) = (.ok (), s') ∧ s'.ga.children.length = 4 :=
  ⟨_, of_ok (by decide +kernel), by decide +kernel⟩

example : (crossBoth .uniform (exPair [0, 1, 0, 1, 1, 0, 0, 0])).1 = .ok () ∧
    (mutBoth .uniform .binString (crossBoth .uniform (exPair [0, 1, 0, 1, 1, 0, 0, 0, 5, 5, 5, 5, 5, 5, 5, 5, 5, 5, 5, 5, 5, 5, 5, 5])).2).1
      = .ok () := by
  decide +kernel

/-- The children are `0111` twice and `0001` twice, before and after a mutation that inverts every bit. -/
example :
    let s1 := (crossBoth .uniform (exPair [0, 1, 0, 1, 1, 0, 0, 0, 5, 5, 5, 5, 5, 5, 5, 5, 5, 5, 5, 5, 5, 5, 5, 5])).2
    let s2 := (mutBoth .uniform .binString s1).2
    s2.ga.children.map (fun r => (s2.heap r).genotype) = s1.ga.children.map (fun r => (s1.heap r).genotype) ∧
      s1.ga.children = [2, 3, 4, 5] := by
  decide +kernel

/-- With one child per pair the same mutation changes every bit. -/
example :
    let s1 := (crossExec .uniform (exPair [0, 1, 0, 1, 0, 1, 0, 0, 0, 0, 5, 5, 5, 5, 5, 5, 5, 5])).2
    let s2 := (mutExec .binString s1).2
    s1.ga.children.map (fun r => (s1.heap r).genotype) ≠ s2.ga.children.map (fun r => (s2.heap r).genotype) := by
  decide +kernel

example : (exPair []).mutLvl.effective (exPair []).ga.attrs.arith = .float 1 ∧ (999 / 1000 : ℚ) ≤ 1 ∧
    (∀ r ∈ (exPair []).ga.parents, r < (exPair []).next) := by
  refine ⟨?_, by norm_num, by decide⟩
  simp [exPair, MutLvl.effective, Arith.exact, rndSamples]

end BaumEva
