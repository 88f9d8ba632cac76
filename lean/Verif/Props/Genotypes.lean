import Verif.Props.Run
import Verif.Props.Coding
import Verif.Props.Crossover
import Verif.Props.Mutation
/-!
# C48: genotypes stay well-formed
-/
namespace BaumEva
open Spec

/-- Crossover and mutation keep `P`. -/
def ClosedGeno (op : CrossOp) (mop : MutOp) (spec : PopSpec) (P : List Val → Prop) : Prop :=
  ∀ (lvl : MutLvl) (g0 p1 p2 g1 g : List Val), P g0 → P p1 → P p2 → CrossResult ℚ op g0.length p1 p2 g1 →
    (g = g1 ∨ MutGeno ℚ mop spec lvl g1 g) → P g

/-- Crossover and mutation keep `P` (for any kind of scores). -/
def ClosedFor (σ : Type) (op : CrossOp) (mop : MutOp) (spec : PopSpec) (P : List Val → Prop) : Prop :=
  ∀ (lvl : MutLvl) (g0 p1 p2 g1 g : List Val), P g0 → P p1 → P p2 → CrossResult σ op g0.length p1 p2 g1 →
    (g = g1 ∨ MutGeno σ mop spec lvl g1 g) → P g

/-- The genotype satisfies `P`, and in a population with phenotypes the phenotype is its decoding. -/
def WellFormed {σ : Type} (P : List Val → Prop) (at_ : Attrs) (x : Ind σ) : Prop :=
  ∃ g, x.genotype = some g ∧ P g ∧ (at_.isPhenotype = true → ∃ p, x.phenotype = some p ∧ decodeIndivid at_ g = .ok p)

section
variable {fit : Fit ℚ} {sel : SelOp} {op : CrossOp} {mop : MutOp} {tr : Transfer} {s0 : St ℚ} {P : List Val → Prop}

theorem fitness_wellFormed {s s' : St ℚ} {at_ : Attrs} {b : Bool} (hat : s.ga.attrs = { at_ with isSorted := b })
    (hnd : (newMembers s.heap s.ga.population).Nodup)
    (hpre : ∀ r ∈ s.ga.population, (∃ g, (s.heap r).genotype = some g ∧ P g ∧ (s.heap r).phenotype = none) ∨ WellFormed P at_ (s.heap r))
    (h : baseFitnessExec fit s = (.ok (), s')) : ∀ r ∈ s.ga.population, WellFormed P at_ (s'.heap r) := by
  obtain ⟨_, _, _, _, c5, c6, _, c8, _, _⟩ := C35_one_call_each h hnd
  have hph : s.ga.attrs.isPhenotype = at_.isPhenotype := by rw [hat]
  have hdec : ∀ g, decodeIndivid s.ga.attrs g = decodeIndivid at_ g := by rw [hat]; intro g; rfl
  intro r hr
  rcases hpre r hr with ⟨g, e1, e2, e3⟩ | ⟨g, e1, e2, e3⟩
  · refine ⟨g, by rw [c5]; exact e1, e2, ?_⟩
    intro hp
    obtain ⟨g', p, d1, d2, d3⟩ := c8 (by rw [hph]; exact hp) r hr e3
    rw [e1] at d1
    injection d1 with d1
    subst d1
    exact ⟨p, d3, by rw [← hdec]; exact d2⟩
  · refine ⟨g, by rw [c5]; exact e1, e2, ?_⟩
    intro hp
    obtain ⟨p, d1, d2⟩ := e3 hp
    exact ⟨p, c6 r p d1, d2⟩

/-- Everything that holds of the initial genotypes and is kept by the operators holds in all generations. -/
theorem genotypes_invariant (h0 : Fresh s0) (hcl : ClosedGeno op mop s0.ga.attrs.spec P)
    (hfirst : ∀ r ∈ s0.ga.population, WellFormed P s0.ga.attrs (s0.heap r)) {k : Nat} {s : St ℚ}
    (h : After (singleOps fit sel op mop tr) s0 k s) :
    s.ga.attrs = { s0.ga.attrs with isSorted := true } ∧ ∀ r ∈ s.ga.population, WellFormed P s0.ga.attrs (s.heap r) := by
  have hops := singleOps_run fit sel op mop tr
  induction h with
  | @first s1 s a b =>
    obtain ⟨_, hperm, hheap, hat, _, hS, _⟩ := first_inv hops.fitness h0 a b
    refine ⟨hat, ?_⟩
    intro r hr
    have hr0 := hperm.subset hr
    rw [hheap r (h0.alive r hr0)]
    exact fitness_wellFormed (b := s0.ga.attrs.isSorted) (by rfl) (h0.distinct.sublist List.filter_sublist)
      (fun r hr => .inr (hfirst r hr)) a r hr0
  | @next k s s' a b ih =>
    obtain ⟨i1, i2⟩ := ih
    have hinv := a.inv hops h0
    obtain ⟨_, s1, s2, s3, es, t, hB, hlen, hel, e2, e3, e4, hun, hfit, hF, hup, hperm, hheap, hat, _⟩ :=
      generation_inv hops hinv b
    refine ⟨hat.trans i1, ?_⟩
    obtain ⟨n0, hn0, hrange, hn1⟩ := hB.range
    have hp2 : s2.ga.population = s1.ga.children ++ es := by rw [e2]
    have hh2 : s2.heap = s1.heap := by rw [e2]
    have hat2 : s2.ga.attrs = { s0.ga.attrs with isSorted := false } := by
      rw [e2]
      simp only
      rw [hB.ga]
      simp only
      rw [i1]
    have hnd : (newMembers s2.heap s2.ga.population).Nodup := by
      have : newMembers s2.heap s2.ga.population = unscored s2.heap s2.ga.population := rfl
      rw [this, hun, hrange]
      exact List.nodup_range'
    have hgood := fitness_wellFormed (fit := fit) (P := P) (at_ := s0.ga.attrs) hat2 hnd ?_ hfit
    · intro r hr
      have hr' := hperm.subset hr
      have hlt : r < s1.next := by
        rcases List.mem_append.mp hr' with hx | hx
        · rw [hrange, List.mem_range'_1] at hx; omega
        · have := hinv.settled.alive r (hel.mem r hx); omega
      rw [hheap r hlt]
      exact hgood r (by rw [hp2]; exact hr')
    · intro r hr
      rw [hp2] at hr
      rw [hh2]
      rcases List.mem_append.mp hr with hx | hx
      · left
        obtain ⟨r0, g0, hr0, hg0, hnew⟩ := hB.new
        obtain ⟨g, hcell, x, y, p1, p2, g1, hxm, hym, hp1, hp2', hcr, hmu⟩ := hnew r hx
        have hPof : ∀ z q, z ∈ s.ga.population → (s.heap z).genotype = some q → P q := by
          intro z q hz hq
          obtain ⟨q', d1, d2, _⟩ := i2 z hz
          rw [hq] at d1
          injection d1 with d1
          rw [d1]; exact d2
        refine ⟨g, by rw [hcell], ?_, by rw [hcell]⟩
        have hspec : s.ga.attrs.spec = s0.ga.attrs.spec := by rw [i1]
        rw [hspec] at hmu
        exact hcl _ g0 p1 p2 g1 g (hPof r0 g0 (List.mem_of_mem_head? hr0) hg0) (hPof x p1 hxm hp1) (hPof y p2 hym hp2')
          hcr hmu
      · right
        have hm := hel.mem r hx
        have hcore := hB.core r (hinv.settled.alive r hm)
        obtain ⟨g, d1, d2, d3⟩ := i2 r hm
        exact ⟨g, by rw [hcore.genotype]; exact d1, d2, by rw [hcore.phenotype]; exact d3⟩

end

/-! ## the three classes of genotypes -/

theorem mutateBits_level {σ : Type} {lvl : MutLvl} {g g' : List Val} {s s' : St σ} (h : mutateBits lvl g s = (.ok g', s')) :
    g' = g ∨ ∃ q, lvl = .float q := by
  cases g with
  | nil => rw [mutateBits] at h; obtain ⟨rfl, _⟩ := pure_ok.mp h; exact .inl rfl
  | cons x xs =>
    rw [mutateBits] at h
    obtain ⟨m, s1, h1, _⟩ := bind_ok.mp h
    obtain ⟨q, d, t, e, _⟩ := determines_ok.mp h1
    exact .inr ⟨q, e⟩

theorem mutateCat_level {σ : Type} {lvl : MutLvl} {ps : List CatGene} {g g' : List Val} {s s' : St σ}
    (h : mutateCat lvl ps g s = (.ok g', s')) : g' = g ∨ ∃ q, lvl = .float q := by
  cases g with
  | nil => rw [mutateCat] at h; obtain ⟨rfl, _⟩ := pure_ok.mp h; exact .inl rfl
  | cons x xs =>
    rw [mutateCat] at h
    obtain ⟨m, s1, h1, _⟩ := bind_ok.mp h
    unfold mutateCatAt at h1
    obtain ⟨m, s2, h2, _⟩ := bind_ok.mp h1
    obtain ⟨q, d, t, e, _⟩ := determines_ok.mp h2
    exact .inr ⟨q, e⟩

/-- Bit strings of a given length. -/
theorem bits_closed (spec : PopSpec) (L : Nat) : ClosedGeno .onePoint .binString spec (fun g => IsBits g ∧ g.length = L) := by
  rintro lvl g0 p1 p2 g1 g ⟨_, l0⟩ ⟨b1, l1⟩ ⟨b2, l2⟩ ⟨s, s', cs, hc, hcs⟩ hg
  obtain ⟨c, c1, c2, c3, c4, hpos⟩ := C14_one_point (l1.trans l0.symm) (l2.trans l0.symm) hc
  have hP1 : IsBits g1 ∧ g1.length = L := by
    have hb : IsBits cs.1 ∧ IsBits cs.2 := by
      constructor
      · intro x hx
        obtain ⟨i, hi⟩ := List.getElem?_of_mem hx
        rw [(hpos i).1] at hi
        split at hi
        · exact b1 x (List.mem_of_getElem? hi)
        · exact b2 x (List.mem_of_getElem? hi)
      · intro x hx
        obtain ⟨i, hi⟩ := List.getElem?_of_mem hx
        rw [(hpos i).2] at hi
        split at hi
        · exact b2 x (List.mem_of_getElem? hi)
        · exact b1 x (List.mem_of_getElem? hi)
    rcases hcs with rfl | rfl
    · exact ⟨hb.1, c3.trans l0⟩
    · exact ⟨hb.2, c4.trans l0⟩
  rcases hg with rfl | ⟨s1, s2, hm⟩
  · exact hP1
  · simp only at hm
    rcases mutateBits_level hm with rfl | ⟨q, rfl⟩
    · exact hP1
    · obtain ⟨ds, _, _, d3, d4, _⟩ := C20_bit_mutation hm
      exact ⟨d4 hP1.1, d3.trans hP1.2⟩

/-- Repetition-free tracks. -/
theorem track_closed (spec : PopSpec) (a b k : Int) : ClosedGeno .order .movement spec (IsTrack a b k) := by
  rintro lvl g0 p1 p2 g1 g ⟨l0, _, _⟩ ⟨l1, n1, m1⟩ ⟨l2, n2, m2⟩ ⟨s, s', cs, hc, hcs⟩ hg
  obtain ⟨c, d, _, _, _, o1, o2⟩ := C17_order (L := g0.length) (by omega) (by omega) n1 n2 hc
  have hP1 : IsTrack a b k g1 := by
    rcases hcs with rfl | rfl
    · refine ⟨by rw [o1.length]; exact l0, o1.nodup, ?_⟩
      intro x hx
      rcases o1.genes x hx with h | h
      · exact m1 x h
      · exact m2 x h
    · refine ⟨by rw [o2.length]; exact l0, o2.nodup, ?_⟩
      intro x hx
      rcases o2.genes x hx with h | h
      · exact m2 x h
      · exact m1 x h
  rcases hg with rfl | ⟨s1, s2, hm⟩
  · exact hP1
  · simp only at hm
    have hp := C21_permutes hm
    exact ⟨by rw [hp.length_eq]; exact hP1.1, hp.nodup_iff.mpr hP1.2.1, fun x hx => hP1.2.2 x (hp.subset hx)⟩

/-- Tuples of pool values. -/
theorem tuple_closed (gens : List CatGene) : ClosedGeno .uniform .categorical (.cat gens) (IsTuple gens) := by
  rintro lvl g0 p1 p2 g1 g h0 h1 h2 ⟨s, s', cs, hc, hcs⟩ hg
  obtain ⟨e, hl, hpos⟩ := C16_uniform hc
  have hlen : g0.length = gens.length := h0.length_eq.symm
  have hP1 : IsTuple gens g1 := by
    have hg1 : g1 = cs.1 := by rcases hcs with rfl | rfl; rfl; exact e.symm
    unfold IsTuple
    rw [List.forall₂_iff_get]
    refine ⟨by rw [hg1, hl, hlen], ?_⟩
    intro i i1 i2
    have hi : g1[i]? = some g1[i] := List.getElem?_eq_getElem i2
    have := hpos i (by omega)
    rw [← hg1] at this
    simp only [List.get_eq_getElem]
    rcases this with h | h
    · rw [hi] at h
      have hh := (List.forall₂_iff_get.mp h1).2 i i1 (List.getElem?_eq_some_iff.mp h.symm).1
      simp only [List.get_eq_getElem, (List.getElem?_eq_some_iff.mp h.symm).2] at hh
      exact hh
    · rw [hi] at h
      have hh := (List.forall₂_iff_get.mp h2).2 i i1 (List.getElem?_eq_some_iff.mp h.symm).1
      simp only [List.get_eq_getElem, (List.getElem?_eq_some_iff.mp h.symm).2] at hh
      exact hh
  rcases hg with rfl | ⟨s1, s2, pools, hsp, hm⟩
  · exact hP1
  · injection hsp with hsp
    subst hsp
    rcases mutateCat_level hm with rfl | ⟨q, rfl⟩
    · exact hP1
    · exact C22_stays_in_pools hm hP1

/-! ## C48 -/

/-- The populations of all generations of a finished `optimize()`, as contents of their individuals. -/
def generationsOf {σ : Type} (s' : St σ) : List (List (Ind σ)) := s'.snaps

/-- Facade runs record exactly their generations. -/
theorem facade_generations {f : SingleFacade} {c : Cfg} {ov : Option ℚ} {s s' : St ℚ} (h : f.optimize c ov s = (.ok (), s')) :
    ∃ fit tr s0, Started f.spec c.numIndivid c.numGenerations c.input c.childrenPercent (some c.stop) c.arith s0 ∧
      ∀ l ∈ generationsOf s', ∃ i, Generations (singleOps fit (.tournament c.tournamentSize) f.cross f.mutOp tr) s0 i l := by
  obtain ⟨fit, tr, s0, k, hst, hev, hk, _⟩ := SingleFacade.run h
  refine ⟨fit, tr, s0, hst, ?_⟩
  intro l hl
  obtain ⟨i, hi⟩ := List.getElem?_of_mem hl
  have hops := singleOps_run fit (.tournament c.tournamentSize) f.cross f.mutOp tr
  have hik : i < k := by
    have := (List.getElem?_eq_some_iff.mp hi).1
    unfold generationsOf at this
    rw [(hk.inv hops hst.fresh).hist.snaps] at this
    exact this
  exact ⟨i, (snap_generations hops hst.fresh hk hik l).mpr hi⟩

theorem facade_wellFormed {f : SingleFacade} {c : Cfg} {ov : Option ℚ} {s s' : St ℚ} {Q : Ind ℚ → Prop}
    (h : f.optimize c ov s = (.ok (), s'))
    (hQ : ∀ s0 : St ℚ, (∃ s1 : St ℚ, createPopulation f.spec c.numIndivid c.input s1 = (.ok (), s0)) →
      ∃ P, ClosedGeno f.cross f.mutOp f.spec P ∧ s0.ga.attrs.spec = f.spec ∧
        (∀ r ∈ s0.ga.population, WellFormed P s0.ga.attrs (s0.heap r)) ∧ ∀ x, WellFormed P s0.ga.attrs x → Q x) :
    ∀ l ∈ generationsOf s', ∀ x ∈ l, Q x := by
  obtain ⟨fit, tr, s0, hst, hgen⟩ := facade_generations h
  obtain ⟨P, p1, p2, p3, p4⟩ := hQ s0 hst.created
  intro l hl x hx
  obtain ⟨i, si, ha, rfl⟩ := hgen l hl
  obtain ⟨r, hr, rfl⟩ := List.mem_map.mp hx
  exact p4 _ ((genotypes_invariant hst.fresh (by rw [p2]; exact p1) p3 ha).2 r hr)

/-- C48 for `BinaryGA`: there is one bit length `L` (determined by the genes) such that in every generation every
genotype is a bit string of length `L` and every phenotype is its decoding, in exact arithmetic within the gene ranges. -/
theorem C48_binary {c : Cfg} {gray : Bool} {gens : List BinGene} {ov : Option ℚ} {s s' : St ℚ} (hg : Proper gens)
    (h : binaryGA c gray gens ov s = (.ok (), s')) :
    ∃ at_, Prepared at_ gray gens ∧ at_.arith = c.arith ∧ ∀ l ∈ generationsOf s', ∀ x ∈ l, ∃ g p, x.genotype = some g ∧
      x.phenotype = some p ∧ IsBits g ∧ g.length = at_.idxBits.getLastD 0 ∧ decodeIndivid at_ g = .ok p ∧
      (c.arith = .exact → List.Forall₂ InGene gens p) := by
  have h' : (SingleFacade.binary gray gens).optimize c ov s = (.ok (), s') := h
  obtain ⟨fit, tr, s0, hst, hgen⟩ := facade_generations h'
  obtain ⟨s1, hc⟩ := hst.created
  obtain ⟨hprep, hpop⟩ := C10_fill_binary hc
  refine ⟨s0.ga.attrs, hprep, hst.arith, ?_⟩
  have hph : s0.ga.attrs.isPhenotype = true := by
    obtain ⟨_, hd, _⟩ := createPopulation_ok hc
    exact hd.phen.mpr ⟨gray, gens, rfl⟩
  intro l hl x hx
  obtain ⟨i, si, ha, rfl⟩ := hgen l hl
  obtain ⟨r, hr, rfl⟩ := List.mem_map.mp hx
  obtain ⟨g, g1, ⟨g2, g3⟩, g4⟩ := (genotypes_invariant hst.fresh (bits_closed _ (s0.ga.attrs.idxBits.getLastD 0))
    (fun r hr => by
      obtain ⟨g, p, e1, e2, e3, e4, e5⟩ := hpop r hr
      exact ⟨g, e1, ⟨e3, e4⟩, fun _ => ⟨p, e2, e5⟩⟩) ha).2 r hr
  obtain ⟨p, p1, p2⟩ := g4 hph
  refine ⟨g, p, g1, p1, g2, g3, p2, fun hx => ?_⟩
  obtain ⟨xs, x1, x2⟩ := C05_decode_in_range hprep (hst.arith.trans hx) hg g2 g3
  rw [p2] at x1
  injection x1 with x1
  rw [x1]; exact x2

/-- C48 for `CombinatoryGA` with valid (or no) input population: repetition-free tracks. -/
theorem C48_combinatory {c : Cfg} {a b k : Int} {ov : Option ℚ} {s s' : St ℚ} (hin : ∀ x ∈ c.input.getD [], IsTrack a b k x)
    (h : combinatoryGA c a b k ov s = (.ok (), s')) :
    ∀ l ∈ generationsOf s', ∀ x ∈ l, ∃ g, x.genotype = some g ∧ IsTrack a b k g := by
  have h' : (SingleFacade.combinatory a b k).optimize c ov s = (.ok (), s') := h
  refine facade_wellFormed h' ?_
  rintro s0 ⟨s1, hc⟩
  have hd := (createPopulation_ok hc).2.1
  have hnp : s0.ga.attrs.isPhenotype ≠ true := by
    intro hp
    obtain ⟨_, _, e⟩ := hd.phen.mp hp
    simp [SingleFacade.spec] at e
  refine ⟨IsTrack a b k, track_closed _ a b k, hd.spec_eq, ?_, ?_⟩
  · intro r hr
    obtain ⟨i, hi⟩ := List.getElem?_of_mem hr
    have hgood : ∃ g, (s0.heap r).genotype = some g ∧ IsTrack a b k g := by
      by_cases hil : i < (c.input.getD []).length
      · cases hci : c.input with
        | none => rw [hci] at hil; simp at hil
        | some inp =>
          rw [hci] at hil hin
          simp only [Option.getD_some] at hil hin
          rw [hci] at hc
          obtain ⟨_, hall⟩ := C11_input_adopted (by simp [SingleFacade.spec]) hc
          obtain ⟨r', hr', hg⟩ := hall i inp[i] (List.getElem?_eq_getElem hil)
          rw [hi] at hr'
          injection hr' with hr'
          subst hr'
          exact ⟨_, hg, hin _ (List.getElem_mem hil)⟩
      · exact C13_generated_tracks hc i r (by omega) hi
    obtain ⟨g, g1, g2⟩ := hgood
    exact ⟨g, g1, g2, fun hp => absurd hp hnp⟩
  · rintro x ⟨g, g1, g2, _⟩
    exact ⟨g, g1, g2⟩

/-- C48 for `CategoricalGA` with valid (or no) input population: tuples of pool values. -/
theorem C48_categorical {c : Cfg} {gens : List CatGene} {ov : Option ℚ} {s s' : St ℚ} (hin : ∀ x ∈ c.input.getD [], IsTuple gens x)
    (h : categoricalGA c gens ov s = (.ok (), s')) :
    ∀ l ∈ generationsOf s', ∀ x ∈ l, ∃ g, x.genotype = some g ∧ IsTuple gens g := by
  have h' : (SingleFacade.categorical gens).optimize c ov s = (.ok (), s') := h
  refine facade_wellFormed h' ?_
  rintro s0 ⟨s1, hc⟩
  have hd := (createPopulation_ok hc).2.1
  have hnp : s0.ga.attrs.isPhenotype ≠ true := by
    intro hp
    obtain ⟨_, _, e⟩ := hd.phen.mp hp
    simp [SingleFacade.spec] at e
  refine ⟨IsTuple gens, tuple_closed gens, hd.spec_eq, ?_, ?_⟩
  · intro r hr
    obtain ⟨i, hi⟩ := List.getElem?_of_mem hr
    have hgood : ∃ g, (s0.heap r).genotype = some g ∧ IsTuple gens g := by
      by_cases hil : i < (c.input.getD []).length
      · cases hci : c.input with
        | none => rw [hci] at hil; simp at hil
        | some inp =>
          rw [hci] at hil hin
          simp only [Option.getD_some] at hil hin
          rw [hci] at hc
          obtain ⟨_, hall⟩ := C11_input_adopted (by simp [SingleFacade.spec]) hc
          obtain ⟨r', hr', hg⟩ := hall i inp[i] (List.getElem?_eq_getElem hil)
          rw [hi] at hr'
          injection hr' with hr'
          subst hr'
          exact ⟨_, hg, hin _ (List.getElem_mem hil)⟩
      · exact C12_generated_in_pools hc i r (by omega) hi
    obtain ⟨g, g1, g2⟩ := hgood
    exact ⟨g, g1, g2, fun hp => absurd hp hnp⟩
  · rintro x ⟨g, g1, g2, _⟩
    exact ⟨g, g1, g2⟩

/-! ## Concrete runs -/

def exBinary : M ℚ Unit := binaryGA exCfg true [⟨0, 3, 1⟩, ⟨-1, 1, 1 / 2⟩] none
def exCombinatory : M ℚ Unit := combinatoryGA exCfg 1 6 5 (some 2)

set_option maxRecDepth 100000 in
example : succeeded (exBinary { tape := exTape }) = true := by decide +kernel
set_option maxRecDepth 100000 in
example : succeeded (exCombinatory { tape := exTape }) = true := by decide +kernel

end BaumEva
