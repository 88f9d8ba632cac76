import Verif.Proofs.Own
import Verif.Props.Run
import Verif.Props.Offspring
/-!
# C118: runs with components the user has written
-/
namespace BaumEva
open Spec

variable {σ : Type} {ops : Ops ℚ} {s0 : St ℚ}

theorem own_generations (hops : OwnRun ops) (h0 : Fresh s0) {k i : Nat} {s : St ℚ}
    (h : After ops s0 k s) (hi : i < k) (l : List (Ind ℚ)) : Generations ops s0 i l ↔ s.snaps[i]? = some l := by
  obtain ⟨si, a, b⟩ := h.own_earlier hops h0 i hi
  constructor
  · rintro ⟨sj, a', rfl⟩
    rw [a.unique a', b]
  · intro hl
    rw [b] at hl
    injection hl with hl
    exact ⟨si, a, hl.symm⟩

/-- C118: whatever the components do within the rules, `best_solution` is an individual of the history, none before it was as good
and none after it is better. -/
theorem C118_best (hops : OwnRun ops) (h0 : Fresh s0) {k : Nat} {s : St ℚ} (h : After ops s0 k s) :
    ∃ b g v, s.ga.best = some (.single b g) ∧ (s.heap b).score = some v ∧ g < k ∧
      (∃ l, Generations ops s0 g l ∧ s.heap b ∈ l) ∧
      (∀ i l, i < k → Generations ops s0 i l → ∀ x ∈ l, ∃ w, x.score = some w ∧ w ≤ v ∧ (i < g → w < v)) := by
  have hinv := (h.own hops h0).1
  have hpos := hinv.pos
  rcases hinv.hist.best with ⟨e, _⟩ | ⟨b, g, v, l, b1, b2, b3, b4, b5, b6, b7, b8⟩
  · omega
  refine ⟨b, g, v, b1, b3, by omega, ⟨l, (own_generations hops h0 h (by omega) l).mpr b5, b6⟩, ?_⟩
  intro i l' hi hl' x hx
  rw [own_generations hops h0 h hi l'] at hl'
  obtain ⟨bb, mm, ww, c1, _, _, hok⟩ := hinv.hist.entry i l' hl'
  obtain ⟨w, hw⟩ := Option.isSome_iff_exists.mp (hok.scored x hx)
  have hle : w ≤ bb := by
    obtain ⟨y, hy, hb⟩ := Option.bind_eq_some_iff.mp hok.best
    obtain ⟨pre, rfl⟩ := List.getLast?_eq_some_iff.mp hy
    rcases List.mem_append.mp hx with hx | hx
    · exact (List.pairwise_append.mp hok.sorted).2.2 x hx y (by simp) w bb hw hb
    · simp at hx
      subst hx
      rw [hw] at hb
      injection hb with hb
      exact hb.le
  refine ⟨w, hw, ?_, fun hig => hle.trans_lt (b7 i bb hig c1)⟩
  by_cases hig : i < g
  · exact hle.trans (b7 i bb hig c1).le
  · exact hle.trans (b8 i bb (by omega) c1).le

/-- C118: the histories of such a run. -/
theorem C118_histories (hops : OwnRun ops) (h0 : Fresh s0) {k : Nat} {s : St ℚ} (h : After ops s0 k s) :
    s.ga.idxGeneration = k ∧ s.ga.histBest.length = k ∧ s.ga.histMed.length = k ∧ s.ga.histWorst.length = k ∧
    s.ga.histBest.Pairwise (· ≤ ·) ∧
    (∃ b g v, s.ga.best = some (.single b g) ∧ (s.heap b).score = some v ∧ s.ga.histBest.getLast? = some v) ∧
    ∀ i, i < k → ∃ l b w, Generations ops s0 i l ∧ s.ga.histBest[i]? = some b ∧ s.ga.histWorst[i]? = some w ∧
      (∀ x ∈ l, ∃ v, x.score = some v ∧ w ≤ v ∧ v ≤ b) ∧ (∃ x ∈ l, x.score = some b) ∧ (∃ x ∈ l, x.score = some w) := by
  have hinv := (h.own hops h0).1
  have hh := hinv.hist
  obtain ⟨b, g, v, r, t1, t2, t3, t4, t5⟩ := hinv.top
  refine ⟨hh.idx, hh.lenB, hh.lenM, hh.lenW, hh.mono, ⟨b, g, v, t1, t2, t5⟩, ?_⟩
  intro i hi
  obtain ⟨si, a, hl⟩ := h.own_earlier hops h0 i hi
  obtain ⟨b, m, w, c1, c2, c3, hok⟩ := hh.entry i _ hl
  generalize hgl : si.ga.population.map si.heap = l at hl hok
  obtain ⟨xb, hxb, hb⟩ := Option.bind_eq_some_iff.mp hok.best
  obtain ⟨xw, hxw, hw⟩ := Option.bind_eq_some_iff.mp hok.worst
  refine ⟨l, b, w, ⟨si, a, hgl.symm⟩, c1, c3, ?_, ⟨xb, List.mem_of_getLast? hxb, hb⟩, ⟨xw, List.mem_of_mem_head? hxw, hw⟩⟩
  intro x hx
  obtain ⟨u, hu⟩ := Option.isSome_iff_exists.mp (hok.scored x hx)
  refine ⟨u, hu, ?_, ?_⟩
  · obtain ⟨ys, rfl⟩ := List.head?_eq_some_iff.mp hxw
    rcases List.mem_cons.mp hx with hx | hx
    · subst hx; rw [hu] at hw; injection hw with hw; exact hw.ge
    · exact (List.pairwise_cons.mp hok.sorted).1 x hx w u hw hu
  · obtain ⟨ys, rfl⟩ := List.getLast?_eq_some_iff.mp hxb
    rcases List.mem_append.mp hx with hx | hx
    · exact (List.pairwise_append.mp hok.sorted).2.2 x hx xb (by simp) u b hu hb
    · simp at hx; subst hx; rw [hu] at hb; injection hb with hb; exact hb.le

/-- C118: the counter of such a run. -/
theorem C118_no_improve (hops : OwnRun ops) (h0 : Fresh s0) {k : Nat} {s : St ℚ} (h : After ops s0 k s) :
    s.ga.noImprove = stale s.ga.histBest ∧ ∃ b g, s.ga.best = some (.single b g) ∧ g + s.ga.noImprove + 1 = k := by
  have hinv := (h.own hops h0).1
  have hpos := hinv.pos
  rcases hinv.hist.best with ⟨e, _⟩ | ⟨b, g, v, l, b1, b2, b3, b4, b5, b6, b7, b8⟩
  · omega
  exact ⟨(stale_of_plateau (by rw [hinv.hist.lenB]; exact b4.symm) b7 b8).symm, b, g, b1, b4⟩

/-- C118: when such a run stops. -/
theorem C118_stops (hops : OwnRun ops) (h0 : Fresh s0) {s' : St ℚ} {N : Nat} {e : Int}
    (hN : s0.ga.numGenerations = N) (he : s0.ga.earlyStop = some e) (h : evolve ops s0 = (.ok (), s')) :
    ∃ k, After ops s0 k s' ∧ 1 ≤ k ∧ k ≤ max 1 N ∧ (k < max 1 N → 2 ≤ k ∧ e < s'.ga.noImprove) ∧
      (∀ i si, 2 ≤ i → i < k → After ops s0 i si → ¬ e < si.ga.noImprove) := by
  obtain ⟨s1, k, a1, k1, k2, ak, c1, c2⟩ := evolve_after h
  have hp : ∀ i si, After ops s0 i si → si.ga.numGenerations = N ∧ si.ga.earlyStop = some e := by
    intro i si hi
    obtain ⟨_, p1, p3⟩ := hi.own hops h0
    exact ⟨p1.trans hN, p3.trans he⟩
  have hs1 := (hp 1 s1 a1).1
  rw [hs1] at k2 c1
  rw [max_one_eq N]
  refine ⟨k, ak, k1, k2, ?_, ?_⟩
  · intro hk
    obtain ⟨a, e', b, c⟩ := c1 hk
    rw [(hp k s' ak).2] at b
    injection b with b
    exact ⟨a, by rw [b]; exact c⟩
  · intro i si i1 i2 hi
    obtain ⟨e', b, c⟩ := c2 i si i1 i2 hi
    rw [(hp i si hi).2] at b
    injection b with b
    rw [b]; exact c

/-- C118: best scores survive: each generation has a member with the best score of the one before. -/
theorem C118_elitism (hops : OwnRun ops) (h0 : Fresh s0) {k : Nat} {s s' : St ℚ} (h : After ops s0 k s) (h' : After ops s0 (k + 1) s') :
    ∃ v, (∀ x ∈ s.ga.population, ∃ w, (s.heap x).score = some w ∧ w ≤ v) ∧ (∃ x ∈ s.ga.population, (s.heap x).score = some v) ∧
      ∃ y ∈ s'.ga.population, ∃ w, (s'.heap y).score = some w ∧ v ≤ w := by
  have hinv := (h.own hops h0).1
  have hinv' := (h'.own hops h0).1
  obtain ⟨b, g, v, r, t1, t2, t3, t4, t5⟩ := hinv.top
  obtain ⟨b', g', v', r', u1, u2, u3, u4, u5⟩ := hinv'.top
  refine ⟨v, ?_, ⟨r, List.mem_of_getLast? t3, t4⟩, r', List.mem_of_getLast? u3, v', u4, ?_⟩
  · intro x hx
    obtain ⟨w, hw⟩ := Option.isSome_iff_exists.mp (hinv.settled.asc.1 x hx)
    exact ⟨w, hw, hinv.settled.asc.last t3 hx hw t4⟩
  · -- `historical_best` of the later state extends the earlier one
    have hg : generation ops s = (.ok (), s') := by
      cases h' with
      | first _ _ => exact absurd h.pos (by omega)
      | next a b => rw [← a.unique h] at b; exact b
    obtain ⟨_, _, _, _, s2, s3, hR, hF, hup⟩ := own_next hops hinv hg
    have hh : ∃ x, s'.ga.histBest = s.ga.histBest ++ [x] := by
      have e : s3.ga.histBest = s.ga.histBest := by rw [hF.ga, hR.ga]
      rw [← e]
      obtain ⟨pop, rb, rm, rw', b, m, w, _, _, _, _, _, _, _, _, _, s4, hdec, rfl⟩ := gaUpdate_ok hup
      cases hdec <;> exact ⟨_, rfl⟩
    obtain ⟨x, hx⟩ := hh
    have hm := hinv'.hist.mono
    rw [hx] at hm u5
    simp only [List.getLast?_append, List.getLast?_singleton, Option.some_or, Option.some.injEq] at u5
    subst u5
    exact (List.pairwise_append.mp hm).2.2 v (List.mem_of_getLast? t5) x (by simp)

/-! ## Programs that follow the rules -/

theorem IsFitness.evaluates {f : M σ Unit} (hf : IsFitness f) {s s' : St σ} (hd : Distinct s) (h : f s = (.ok (), s')) :
    Evaluates s s' := by
  have h := hf s s' _ hd h
  exact ⟨h.ga, h.snaps, h.next.ge, fun r _ hr => h.old r hr, fun _ _ _ hv => h.score hv, h.done⟩

theorem breeds_of_bore {op : CrossOp} {mop : MutOp} {s s' : St ℚ} (hs : Between s) (h : Bore op mop s s') : Breeds s s' := by
  obtain ⟨n0, hn0, hrange, hn1⟩ := h.range
  refine ⟨h.ga, h.snaps, by omega, ?_, by rw [hrange]; exact List.nodup_range', ?_, ?_⟩
  · intro r hr; rw [hrange, List.mem_range'_1] at hr; omega
  · intro r hr; exact (h.core r (hs.alive r hr)).score
  · intro b g e
    obtain ⟨b1, b2⟩ := hs.best b g e
    refine ⟨h.old b b1 b2, ?_⟩
    rw [hrange, List.mem_range'_1]; omega

/-- C118: the components of the library follow the rules. -/
theorem C118_library (fit : Fit ℚ) (sel : SelOp) (op : CrossOp) (mop : MutOp) (tr : Transfer) : OwnRun (singleOps fit sel op mop tr) where
  fitness s s' _ hd h := (baseFitness_isFitness fit).evaluates hd h
  update := rfl
  turnover s s' hs h := by
    unfold turnover at h
    obtain ⟨_, s1, h1, k1⟩ := bind_ok.mp h
    obtain ⟨_, s2, h2, k2⟩ := bind_ok.mp k1
    obtain ⟨_, s3, h3, h4⟩ := bind_ok.mp k2
    have hb : breed (selExec sel) op mop s = (.ok (), s3) := by
      unfold breed
      change selExec sel s = _ at h1
      change crossExec op s1 = _ at h2
      rw [bind_of_ok h1, bind_of_ok h2]; exact h3
    exact replaces_of_breeds hs (breeds_of_bore hs (breed_ok (selExec_isSelection sel) hs.alive hb).1) h4

/-- What mutation does to the rest of the state. -/
theorem mutBoth_frame {op : CrossOp} {mop : MutOp} {s s' : St σ} {u : Unit} (hn : s.ga.children.Nodup) (he : s.ga.children.length % 2 = 0)
    (h : mutBoth op mop s = (.ok u, s')) :
    (∃ t hp, s' = { s with tape := t, heap := hp, mutLvl := s'.mutLvl }) ∧ (∀ r, r ∉ s.ga.children → s'.heap r = s.heap r) := by
  by_cases hc : op = .uniform ∧ mop ≠ .inversion
  · obtain ⟨rfl, hm⟩ := hc
    obtain ⟨a, _, _, b, _⟩ := mutBoth_uniform_ok (R := fun _ _ _ _ => True) (fun _ => trivial) hm hn he h
    exact ⟨a, b⟩
  · unfold mutBoth at h
    rw [if_neg hc] at h
    obtain ⟨a, _, _, b, _⟩ := mutExec_ok h hn
    exact ⟨a, b⟩

/-- The components of a `CollectorGA` whose crossover object has `num_offsprings = 2`. -/
def bothOps (fit : Fit ℚ) (sel : SelOp) (op : CrossOp) (mop : MutOp) (tr : Transfer) : Ops ℚ :=
  { singleOps fit sel op mop tr with crossover := crossBoth op, mutation := mutBoth op mop }

/-- C118: with two children per pair as well. -/
theorem C118_two_children (fit : Fit ℚ) (sel : SelOp) (op : CrossOp) (mop : MutOp) (tr : Transfer) : OwnRun (bothOps fit sel op mop tr) where
  fitness s s' _ hd h := (baseFitness_isFitness fit).evaluates hd h
  update := rfl
  turnover s s' hs h := by
    unfold turnover at h
    obtain ⟨_, s1, h1, k1⟩ := bind_ok.mp h
    obtain ⟨_, s2, h2, k2⟩ := bind_ok.mp k1
    obtain ⟨_, s3, h3, h4⟩ := bind_ok.mp k2
    have hS := ((selExec_isSelection sel) s s1 _ hs.alive h1).1
    have hal : ∀ r ∈ s1.ga.parents, r < s1.next := fun r hr => (hS.fresh r hr).2.1
    obtain ⟨c1, c2, c3, c4, c5, _, c7, _⟩ := C116_two_per_pair hal h2
    obtain ⟨_, _, _, _, sx, gs, ⟨t0, hd⟩, hg, hB, _⟩ := crossBoth_ok h2 hal
    have hsn : s2.snaps = s1.snaps := by rw [hB.snaps]; have := congrArg St.snaps hd; exact this
    have hnx : s1.next ≤ s2.next := by
      have : sx.next = s1.next := by have := congrArg St.next hd; exact this
      rw [hB.next, this]; omega
    obtain ⟨⟨t, hp, e⟩, ho⟩ := mutBoth_frame c3 (by rw [c1]; exact c2) h3
    have hga : s3.ga = s2.ga := by rw [e]
    have hn3 : s3.next = s2.next := by rw [e]
    have old : ∀ r, r < s.next → s3.heap r = s1.heap r := by
      intro r hr
      have : r < s1.next := hr.trans_le hS.next
      rw [ho r (fun hc => by have := (c7 r hc).1; omega), c5 r this]
    refine replaces_of_breeds hs ⟨?_, ?_, ?_, ?_, ?_, ?_, ?_⟩ h4
    · rw [hga, c4, hS.ga]
    · rw [e]; simp only; rw [hsn, hS.snaps]
    · rw [hn3]; exact hS.next.trans hnx
    · rw [hga, hn3]; exact fun r hr => (c7 r hr).2
    · rw [hga]; exact c3
    · intro r hr
      rw [old r (hs.alive r hr)]
      exact (hS.core r (hs.alive r hr)).score
    · intro b g eb
      obtain ⟨b1, b2⟩ := hs.best b g eb
      refine ⟨by rw [old b b1]; exact hS.old b b1 b2, ?_⟩
      rw [hga]
      intro hc
      have := (c7 b hc).1
      have := hS.next
      omega

/-- A replacement class of the user: nobody is removed. -/
def keepAll : M σ Unit := modGa fun ga => { ga with
  population := ga.population ++ ga.children
  attrs := { ga.attrs with isSorted := false } }

/-- C118: a replacement that keeps the whole population follows the rules, after any selection, crossover and mutation that do. -/
theorem C118_keep_all {ops : Ops ℚ} (hf : ∀ s s' : St ℚ, (∀ r ∈ s.ga.population, r < s.next) → Distinct s → ops.fitness s = (.ok (), s') → Evaluates s s')
    (hu : ops.update = gaUpdate)
    (hb : ∀ s s' : St ℚ, Between s → (do ops.selection; ops.crossover; ops.mutation : M ℚ Unit) s = (.ok (), s') → Breeds s s')
    (hn : ops.newGen = keepAll) : OwnRun ops where
  fitness := hf
  update := hu
  turnover s s' hs h := by
    unfold turnover at h
    obtain ⟨_, s1, h1, k1⟩ := bind_ok.mp h
    obtain ⟨_, s2, h2, k2⟩ := bind_ok.mp k1
    obtain ⟨_, s3, h3, h4⟩ := bind_ok.mp k2
    have hB := hb s s3 hs (by rw [bind_of_ok h1, bind_of_ok h2]; exact h3)
    rw [hn] at h4
    unfold keepAll at h4
    rw [modGa_ok] at h4
    have hpop : s3.ga.population = s.ga.population := by rw [hB.ga]
    subst h4
    refine ⟨⟨by simp only; rw [hB.ga], rfl, hB.snaps, hB.next, ?_, ?_, ?_⟩, ?_⟩
    · intro r hr
      rcases List.mem_append.mp hr with hr | hr
      · rw [hpop] at hr; exact (hs.alive r hr).trans_le hB.next
      · exact hB.alive r hr
    · have : s3.ga.population.filter (fun r => (s3.heap r).score.isNone) = [] := by
        rw [List.filter_eq_nil_iff, hpop]
        intro r hr
        have h1 := hs.scored r hr
        rw [← hB.kept r hr] at h1
        simpa using Option.isSome_iff_ne_none.mp h1
      unfold Distinct
      simp only
      rw [List.filter_append, this, List.nil_append]
      exact hB.distinct.filter _
    · intro b g e
      obtain ⟨c1, c2⟩ := hB.best b g e
      refine ⟨c1, ?_⟩
      simp only
      rw [hpop, List.mem_append]
      rintro (hc | hc)
      · exact (hs.best b g e).2 hc
      · exact c2 hc
    · intro r hr
      have hm := List.mem_of_getLast? hr
      exact ⟨r, List.mem_append_left _ (by rw [hpop]; exact hm), hB.kept r hm⟩

/-- The components of the library with that replacement. -/
example (fit : Fit ℚ) (sel : SelOp) (op : CrossOp) (mop : MutOp) (tr : Transfer) :
    OwnRun { singleOps fit sel op mop tr with newGen := keepAll } :=
  C118_keep_all (fun _ _ _ hd h => (baseFitness_isFitness fit).evaluates hd h) rfl
    (fun _ _ hs h => breeds_of_bore hs (breed_ok (selExec_isSelection sel) hs.alive (op := op) (mop := mop) h).1) rfl

/-! ## A program that does not -/

/-- A replacement class of the user: the children replace the population. -/
def onlyChildren : M σ Unit := modGa fun ga => { ga with
  population := ga.children
  attrs := { ga.attrs with isSorted := false } }

/-- The components of the library with that replacement. -/
def childOps (fit : Fit ℚ) (sel : SelOp) (op : CrossOp) (mop : MutOp) : Ops ℚ :=
  { singleOps fit sel op mop .best with newGen := onlyChildren }

/-- Minimise the sum of the genes. -/
def ownFit : Fit ℚ := ⟨hyperbolaTask exObj exObj false none none, false, [.optimize], []⟩

/-- Four individuals with three genes from 0 to 8. -/
def ownStart : Except PyErr Unit × St ℚ :=
  collectorSetPopulation (.cat [.range 0 9 1, .range 0 9 1, .range 0 9 1]) 4 3 none (1 / 2) (some 10) .exact
    { tape := exTape, mutLvl := .float (1 / 100) }

set_option maxRecDepth 100000 in
theorem ownStart_ok : ownStart.1 = .ok () := by decide +kernel

theorem ownStart_fresh : Fresh ownStart.2 :=
  (collectorSetPopulation_ok (show collectorSetPopulation _ _ _ _ _ _ _ _ = _ from of_ok ownStart_ok)).fresh

def ownBoth : Ops ℚ := bothOps ownFit (.tournament 2) .uniform .categorical .best

set_option maxRecDepth 100000 in
/-- A run with two children per pair: the hypotheses of the theorems above can be met by other programs than those of C42-C49. -/
example : OwnRun ownBoth ∧ Fresh ownStart.2 ∧ (evolve ownBoth ownStart.2).1 = .ok () ∧
    (evolve ownBoth ownStart.2).2.ga.histBest.length = 3 :=
  ⟨C118_two_children _ _ _ _ _, ownStart_fresh, by decide +kernel, by decide +kernel⟩

def ownChild : Ops ℚ := childOps ownFit (.tournament 2) .uniform .categorical

/-- The two generations of the program that breaks the rule. -/
def ownFirst : Except PyErr Unit × St ℚ := (do ownChild.fitness; ownChild.update : M ℚ Unit) ownStart.2

def ownSecond : Except PyErr Unit × St ℚ := generation ownChild ownFirst.2

set_option maxRecDepth 100000 in
theorem ownFirst_ok : ownFirst.1 = .ok () := by decide +kernel

set_option maxRecDepth 100000 in
theorem ownSecond_ok : ownSecond.1 = .ok () := by decide +kernel

set_option maxRecDepth 100000 in
theorem ownSecond_worse : ownSecond.2.ga.histBest = [-7, -9] := by decide +kernel

/-- C118: the rule about the best member cannot be dropped. A program that keeps all other rules has a decreasing
`historical_best`. -/
theorem C118_needs_elite : ∃ (ops : Ops ℚ) (s0 s : St ℚ),
    (∀ s s' : St ℚ, (∀ r ∈ s.ga.population, r < s.next) → Distinct s → ops.fitness s = (.ok (), s') → Evaluates s s') ∧
    ops.update = gaUpdate ∧ (∀ s s' : St ℚ, Between s → turnover ops s = (.ok (), s') → Installs s s') ∧ Fresh s0 ∧
    After ops s0 2 s ∧ ¬ s.ga.histBest.Pairwise (· ≤ ·) := by
  refine ⟨ownChild, ownStart.2, ownSecond.2, fun s s' _ hd h => (baseFitness_isFitness _).evaluates hd h, rfl, ?_, ownStart_fresh, ?_, ?_⟩
  · intro s s' hs h
    unfold turnover at h
    obtain ⟨_, s1, h1, k1⟩ := bind_ok.mp h
    obtain ⟨_, s2, h2, k2⟩ := bind_ok.mp k1
    obtain ⟨_, s3, h3, h4⟩ := bind_ok.mp k2
    have hb : breed (selExec (.tournament 2)) .uniform .categorical s = (.ok (), s3) := by
      unfold breed
      change selExec (.tournament 2) s = _ at h1
      change crossExec .uniform s1 = _ at h2
      rw [bind_of_ok h1, bind_of_ok h2]; exact h3
    have hB := breeds_of_bore hs (breed_ok (selExec_isSelection (.tournament 2)) hs.alive hb).1
    change onlyChildren s3 = _ at h4
    unfold onlyChildren at h4
    rw [modGa_ok] at h4
    subst h4
    exact ⟨by simp only; rw [hB.ga], rfl, hB.snaps, hB.next, hB.alive, hB.distinct.filter _, hB.best⟩
  · have h1 : (do ownChild.fitness; ownChild.update : M ℚ Unit) ownStart.2 = (.ok (), ownFirst.2) := of_ok ownFirst_ok
    obtain ⟨_, s1, h2, h3⟩ := bind_ok.mp h1
    exact .next (.first h2 h3) (of_ok ownSecond_ok)
  · rw [ownSecond_worse]
    simp
    norm_num

end BaumEva
