import Verif.Proofs.Reach
/-!
# Property C67: initial individuals are uniformly distributed over the search space
-/
namespace BaumEva
open Spec
variable {σ : Type}

/-! ## Binary -/

/-- The symbols generated from a draw. -/
def symbolsOf (gray : Bool) (p : GeneParams) (x : Nat) : List Val :=
  match encodeIndex gray (x % 2 ^ p.numBits) p.numBits with
  | .ok l => l
  | .error _ => []

theorem genBinGene_cons {rnd : ℚ → ℚ} {gray : Bool} {g : BinGene} {p : GeneParams} (h : geneParamsR rnd g = .ok p) (s : St σ) (x : Nat)
    (u : List Nat) : genBinGene gray p { s with tape := x :: u } = (.ok (symbolsOf gray p x), { s with tape := u }) := by
  obtain ⟨h1, h2, _⟩ := geneParamsR_ok h
  have hpow : 1 ≤ 2 ^ p.numBits := Nat.one_le_two_pow
  have hv : x % 2 ^ p.numBits < 2 ^ p.numBits := Nat.mod_lt _ (by omega)
  unfold genBinGene
  rw [bind_of_ok (randint_cons (by omega) s x u), h2]
  have he : ((0 : Int) + (x : Int) % (((2 ^ p.numBits - 1 : Nat) : Int) - 0 + 1)).toNat = x % 2 ^ p.numBits := by
    have : (((2 ^ p.numBits - 1 : Nat) : Int) - 0 + 1) = ((2 ^ p.numBits : Nat) : Int) := by omega
    rw [this, zero_add, ← Int.natCast_mod, Int.toNat_natCast]
  rw [he]
  unfold symbolsOf
  obtain ⟨l, e, _⟩ := encodeIndex_eq (gray := gray) h1 hv
  rw [e]
  rfl

theorem symbolsOf_unique {gray : Bool} {p : GeneParams} (h : 1 ≤ p.numBits) {l : List Val}
    (hl : l.length = p.numBits) (hb : IsBits l) : ∃! v, v < 2 ^ p.numBits ∧ symbolsOf gray p v = l := by
  have hlt : decIdx gray (bitsValue l) < 2 ^ p.numBits := decIdx_lt (by rw [← hl]; exact bitsValue_lt)
  refine ⟨decIdx gray (bitsValue l), ⟨hlt, ?_⟩, ?_⟩
  · unfold symbolsOf
    rw [Nat.mod_eq_of_lt hlt]
    obtain ⟨l', e1, e2, e3, e4⟩ := encodeIndex_eq (gray := gray) h hlt
    rw [e1]
    simp only
    rw [encIdx_decIdx] at e4
    exact bitsValue_inj e3 hb (by omega) e4
  · rintro v ⟨v1, v2⟩
    unfold symbolsOf at v2
    rw [Nat.mod_eq_of_lt v1] at v2
    obtain ⟨l', e1, e2, e3, e4⟩ := encodeIndex_eq (gray := gray) h v1
    rw [e1] at v2
    simp only at v2
    subst v2
    rw [e4, decIdx_encIdx]

/-- A bit string splits into the segments of the genes in one way. -/
theorem bits_split : ∀ {ps : List GeneParams} {g : List Val}, IsBits g → g.length = totalBits ps →
    ∃ segs, List.Forall₂ (fun p l => l.length = p.numBits ∧ IsBits l) ps segs ∧ segs.flatten = g := by
  intro ps
  induction ps with
  | nil =>
    intro g _ hl
    exact ⟨[], .nil, (List.length_eq_zero_iff.mp (by simpa [totalBits] using hl)).symm⟩
  | cons p ps ih =>
    intro g hb hl
    have hl' : g.length = p.numBits + totalBits ps := by rw [hl]; simp [totalBits]
    have hsplit : IsBits (g.take p.numBits) ∧ IsBits (g.drop p.numBits) :=
      isBits_append.mp (by rw [List.take_append_drop]; exact hb)
    obtain ⟨segs, h1, h2⟩ := ih hsplit.2 (by rw [List.length_drop]; omega)
    exact ⟨g.take p.numBits :: segs, .cons ⟨by rw [List.length_take]; omega, hsplit.1⟩ h1, by
      rw [List.flatten_cons, h2, List.take_append_drop]⟩

theorem flatten_inj_of_lengths {ps : List GeneParams} : ∀ {a b : List (List Val)},
    List.Forall₂ (fun p l => l.length = p.numBits) ps a → List.Forall₂ (fun p l => l.length = p.numBits) ps b →
    a.flatten = b.flatten → a = b := by
  induction ps with
  | nil => intro a b ha hb _; cases ha; cases hb; rfl
  | cons p ps ih =>
    intro a b ha hb h
    cases ha with
    | cons a1 a2 =>
      cases hb with
      | cons b1 b2 =>
        rw [List.flatten_cons, List.flatten_cons] at h
        obtain ⟨h1, h2⟩ := List.append_inj h (by omega)
        rw [h1, ih a2 b2 h2]

theorem generate_binary_det {at_ : Attrs} {gray : Bool} {gens : List BinGene} (hp : Prepared at_ gray gens) :
    Det (σ := σ) (generate at_) at_.params.length (fun t => (List.zipWith (symbolsOf gray) at_.params t).flatten) := by
  unfold generate
  rw [hp.spec]
  refine Det.map (Det.mapEach ?_) List.flatten
  intro p hm s x u
  have hf := hp.forallR
  obtain ⟨i, hi, rfl⟩ := List.getElem_of_mem hm
  have := (List.forall₂_iff_get.mp hf).2 i (by rw [hf.length_eq]; exact hi) hi
  exact genBinGene_cons this s x u

/-- C67, binary and Gray populations: every bit string of the right length, hence every combination of grid points
(C05, C06), is generated with the same probability, namely by exactly one of the `∏ 2^num_bits` combinations of
reduced draws. -/
theorem C67_binary {at_ : Attrs} {gray : Bool} {gens : List BinGene} (hp : Prepared at_ gray gens) :
    Uniform (σ := σ) (generate at_) (at_.params.map fun p => 2 ^ p.numBits)
      (fun g => IsBits g ∧ g.length = at_.idxBits.getLastD 0) := by
  rintro g ⟨hb, hl⟩
  rw [hp.total] at hl
  have hf := hp.forallR
  have hone : ∀ p ∈ at_.params, 1 ≤ p.numBits := by
    intro p hm
    obtain ⟨i, hi, rfl⟩ := List.getElem_of_mem hm
    exact (geneParamsR_ok ((List.forall₂_iff_get.mp hf).2 i (by rw [hf.length_eq]; exact hi) hi)).1
  obtain ⟨segs, hs, rfl⟩ := bits_split hb hl
  obtain ⟨t, ⟨t1, t2⟩, t3⟩ := zip_unique (n := fun p : GeneParams => 2 ^ p.numBits) (f := symbolsOf gray)
    (P := fun p l => l.length = p.numBits ∧ IsBits l) (l := at_.params)
    (fun p hm l hl => symbolsOf_unique (hone p hm) hl.1 hl.2) hs
  have len : ∀ {t}, Reduced (at_.params.map fun p => 2 ^ p.numBits) t → t.length = at_.params.length :=
    fun h => by rw [← h.length_eq, List.length_map]
  refine ⟨t, ⟨t1, (generate_binary_det hp).gives (len t1) |>.mpr (by rw [t2])⟩, ?_⟩
  rintro t' ⟨r1, r2⟩
  have r2 := ((generate_binary_det hp).gives (len r1)).mp r2
  refine t3 t' ⟨r1, ?_⟩
  refine flatten_inj_of_lengths (ps := at_.params) ?_ (hs.imp fun _ _ h => h.1) r2
  rw [List.forall₂_iff_get]
  have hlen := len r1
  refine ⟨by simp [hlen], ?_⟩
  intro i h1 h2
  simp only [List.get_eq_getElem, List.getElem_zipWith]
  unfold symbolsOf
  obtain ⟨l, e1, e2, _⟩ := encodeIndex_eq (gray := gray) (hone _ (List.getElem_mem h1))
    (Nat.mod_lt (t'[i]'(by omega)) (Nat.two_pow_pos (at_.params[i]'h1).numBits))
  rw [e1]
  exact e2

/-! ## Categorical -/

/-- Number of listed values, or of values of the range. -/
def poolSize : CatGene → Nat
  | .range lo hi step => (rangeLen lo (hi + 1) step).toNat
  | .values l => l.length
  | .other => 0

/-- A pool with values in which no value is listed twice. -/
def PlainPool : CatGene → Prop
  | .range lo hi step => step ≠ 0 ∧ (0 < step → lo ≤ hi) ∧ (step < 0 → hi + 1 < lo)
  | .values l => l ≠ [] ∧ l.Nodup
  | .other => False

/-- The value drawn. -/
def poolValue : CatGene → Nat → Val
  | .range lo hi step, x => .num ((lo + step * ((x : Int) % rangeLen lo (hi + 1) step) : Int) : ℚ)
  | .values l, x => l[x % l.length]?.getD bit0
  | .other, _ => bit0

theorem PlainPool.pos {lo hi step : Int} (h : PlainPool (.range lo hi step)) : 0 < rangeLen lo (hi + 1) step := by
  obtain ⟨h0, h1, h2⟩ := h
  rw [rangeLen_pos_spec h0]
  rcases lt_or_gt_of_ne h0 with h | h
  · right; exact ⟨h, by have := h2 h; omega⟩
  · left; exact ⟨h, by have := h1 h; omega⟩

theorem genCatGene_cons {g : CatGene} (h : PlainPool g) (s : St σ) (x : Nat) (u : List Nat) :
    genCatGene g { s with tape := x :: u } = (.ok (poolValue g x), { s with tape := u }) := by
  cases g with
  | range lo hi step =>
    rw [genCatGene, bind_of_ok (randrange_cons h.1 h.pos s x u)]
    rfl
  | values l =>
    rw [genCatGene, choice_cons h.1 s x u, poolValue,
      List.getElem?_eq_getElem (Nat.mod_lt _ (List.length_pos_of_ne_nil h.1))]
    rfl
  | other => exact h.elim

theorem poolValue_unique {g : CatGene} (h : PlainPool g) {v : Val} (hv : InPool g v) :
    ∃! x, x < poolSize g ∧ poolValue g x = v := by
  cases g with
  | range lo hi step =>
    obtain ⟨i, rfl, hi'⟩ := hv
    have hpos := h.pos
    have hlt : (i : Int) < rangeLen lo (hi + 1) step := by
      rw [rangeLen_pos_spec h.1]
      rcases hi' with ⟨a, b⟩ | ⟨a, b⟩
      · left; exact ⟨a, by omega⟩
      · right; exact ⟨a, by omega⟩
    have val : ∀ j : Nat, (j : Int) < rangeLen lo (hi + 1) step →
        poolValue (.range lo hi step) j = .num ((lo + step * (j : Int) : Int) : ℚ) := by
      intro j hj
      rw [poolValue, Int.emod_eq_of_lt (by omega) hj]
    refine ⟨i, ⟨by simp only [poolSize]; omega, val i hlt⟩, ?_⟩
    rintro j ⟨j1, j2⟩
    simp only [poolSize] at j1
    rw [val j (by omega)] at j2
    simp only [Val.num.injEq, Int.cast_inj] at j2
    have : step * (j : Int) = step * (i : Int) := by omega
    have := mul_left_cancel₀ h.1 this
    omega
  | values l =>
    obtain ⟨i, hi, rfl⟩ := List.getElem_of_mem hv
    refine ⟨i, ⟨hi, by simp [poolValue, Nat.mod_eq_of_lt hi, List.getElem?_eq_getElem hi]⟩, ?_⟩
    rintro j ⟨j1, j2⟩
    simp only [poolSize] at j1
    simp only [poolValue, Nat.mod_eq_of_lt j1, List.getElem?_eq_getElem j1, Option.getD_some] at j2
    exact (List.Nodup.getElem_inj_iff h.2).mp j2
  | other => exact h.elim

/-- C67, categorical populations without repeated pool values: every tuple of pool values is generated by exactly one
of the `∏ pool size` combinations of reduced draws. -/
theorem C67_categorical {at_ : Attrs} {gens : List CatGene} (hs : at_.spec = .cat gens) (hp : ∀ g ∈ gens, PlainPool g) :
    Uniform (σ := σ) (generate at_) (gens.map poolSize) (IsTuple gens) := by
  have hdet : Det (σ := σ) (generate at_) gens.length (fun t => List.zipWith poolValue gens t) := by
    unfold generate
    rw [hs]
    exact Det.mapEach fun g hg s x u => genCatGene_cons (hp g hg) s x u
  intro vs hv
  obtain ⟨t, ⟨t1, t2⟩, t3⟩ := zip_unique (n := poolSize) (f := poolValue) (P := InPool) (l := gens)
    (fun g hg v hv => poolValue_unique (hp g hg) hv) hv
  have len : ∀ {t}, Reduced (gens.map poolSize) t → t.length = gens.length :=
    fun h => by rw [← h.length_eq, List.length_map]
  exact ⟨t, ⟨t1, (hdet.gives (len t1)).mpr t2⟩, fun t' h => t3 t' ⟨h.1, (hdet.gives (len h.1)).mp h.2⟩⟩

/-! ## Ordinal -/

/-- C67, ordinal populations: every repetition-free track of the declared length over the declared range is generated by
exactly one of the `m (m-1) .. (m-k+1)` combinations of reduced draws (`m` numbers in the range). -/
theorem C67_tracks {at_ : Attrs} {a b k : Int} (hs : at_.spec = .orderCat a b k) (hk : 0 ≤ k) (hk2 : k ≤ b - a + 1) :
    Uniform (σ := σ) (generate at_) (countdown (b - a + 1).toNat k.toNat) (IsTrack a b k) := by
  have hlen : (pyRange a (b + 1) 1).length = (b - a + 1).toNat := by rw [length_pyRange_one]; omega
  have hdet : Det (σ := σ) (generate at_) k.toNat
      (fun t => (pick (pyRange a (b + 1) 1) t).map fun i : Int => Val.num (i : ℚ)) := by
    unfold generate
    rw [hs]
    refine Det.map ?_ (fun l : List Int => l.map fun i : Int => Val.num (i : ℚ))
    unfold sample
    rw [if_neg (by rw [hlen]; omega)]
    exact sampleAux_det (by rw [hlen]; omega)
  rintro g ⟨g1, g2, g3⟩
  -- the integers of the track
  obtain ⟨ys, rfl⟩ : ∃ ys : List Int, g = ys.map fun i : Int => Val.num (i : ℚ) := by
    clear g1 g2
    induction g with
    | nil => exact ⟨[], rfl⟩
    | cons x g ih =>
      obtain ⟨i, rfl, _⟩ := g3 x (List.mem_cons_self ..)
      obtain ⟨ys, rfl⟩ := ih fun y hy => g3 y (List.mem_cons_of_mem _ hy)
      exact ⟨i :: ys, rfl⟩
  have hn : ys.Nodup := List.Nodup.of_map _ g2
  have hsub : ∀ y ∈ ys, y ∈ pyRange a (b + 1) 1 := by
    intro y hy
    obtain ⟨i, e, h1, h2⟩ := g3 _ (List.mem_map_of_mem hy)
    have : y = i := num_inj e
    subst this
    exact mem_pyRange_one.mpr ⟨h1, h2⟩
  have hky : ys.length = k.toNat := by rw [List.length_map] at g1; omega
  obtain ⟨t, ⟨t1, t2⟩, t3⟩ := pick_unique nodup_pyRange_one hn hsub
  rw [hlen, hky] at t1 t3
  have len : ∀ {t}, Reduced (countdown (b - a + 1).toNat k.toNat) t → t.length = k.toNat :=
    fun h => by rw [← h.length_eq, countdown_length]
  refine ⟨t, ⟨t1, (hdet.gives (len t1)).mpr (by rw [t2])⟩, ?_⟩
  rintro t' ⟨r1, r2⟩
  have r2 := (hdet.gives (len r1)).mp r2
  exact t3 t' ⟨r1, List.map_injective_iff.mpr num_inj r2⟩

/-! ## Whole populations -/

theorem addDict_run (g : List Val) (s : St σ) : addDict g s = (.ok (), { s with
    heap := upd s.heap s.next { genotype := some g }, next := s.next + 1,
    ga := { s.ga with population := s.ga.population ++ [s.next] } }) := rfl

/-- The loop of `fill` produces any list of individuals that can be generated one by one. -/
theorem generateLoop_gives {at_ : Attrs} {α : Type} : ∀ {L : List (List Val)},
    (∀ g ∈ L, ∃ t, Gives (σ := σ) (generate at_) t g) →
    ∃ t : List Nat, ∀ (l : List α) (s : St σ) (u : List Nat), l.length = L.length →
      ∃ s', forEach l (fun _ => do let g ← generate at_; addDict g) { s with tape := t ++ u } = (.ok (), s') ∧
        s'.tape = u ∧ Appended s s' L := by
  intro L
  induction L with
  | nil =>
    intro _
    refine ⟨[], ?_⟩
    intro l s u hl
    obtain rfl := List.length_eq_zero_iff.mp hl
    exact ⟨_, rfl, rfl, Appended.nil_of_drew ⟨_, rfl⟩⟩
  | cons g L ih =>
    intro h
    obtain ⟨t1, h1⟩ := h g (List.mem_cons_self ..)
    obtain ⟨t2, h2⟩ := ih fun x hx => h x (List.mem_cons_of_mem _ hx)
    refine ⟨t1 ++ t2, ?_⟩
    intro l s u hl
    cases l with
    | nil => simp at hl
    | cons x l =>
      have key : (do let g ← generate at_; addDict g : M σ Unit) { s with tape := t1 ++ t2 ++ u } =
          addDict g { s with tape := t2 ++ u } := by
        rw [List.append_assoc, bind_of_ok (h1 s (t2 ++ u))]
      obtain ⟨s', e1, e2, e3⟩ := h2 l { s with
        heap := upd s.heap s.next { genotype := some g }, next := s.next + 1,
        ga := { s.ga with population := s.ga.population ++ [s.next] } } u (by simpa using hl)
      refine ⟨s', ?_, e2, ?_⟩
      · rw [forEach, bind_of_ok (key.trans (addDict_run g _))]
        exact e1
      · have := (addDict_appended (addDict_run g s)).trans e3
        simpa using this

theorem phenoLoop_total {at_ : Attrs} : ∀ {rs : List Nat} {s : St σ},
    (∀ r ∈ rs, (s.heap r).phenotype.isSome ∨ ∃ g p, (s.heap r).genotype = some g ∧ decodeIndivid at_ g = .ok p) →
    ∃ s', forEach rs (fun r => do
      let ind ← getInd r
      match ind.phenotype with
      | some _ => pure ()
      | none => do
        let g ← genoOf r
        let p ← liftE (decodeIndivid at_ g)
        modInd r fun ind => { ind with phenotype := some p }) s = (.ok (), s') := by
  intro rs
  induction rs with
  | nil => intro s _; exact ⟨s, rfl⟩
  | cons r rs ih =>
    intro s h
    rcases hph : (s.heap r).phenotype with _ | p
    · rcases h r (List.mem_cons_self ..) with hc | ⟨g, p, h1, h2⟩
      · rw [hph] at hc; simp at hc
      · obtain ⟨s', e⟩ := ih (s := { s with heap := upd s.heap r { s.heap r with phenotype := some p } }) (by
          intro r' hr'
          by_cases he : r' = r
          · subst he; left; simp [upd]
          · simp only [upd, if_neg he]
            exact h r' (List.mem_cons_of_mem _ hr'))
        refine ⟨s', ?_⟩
        rw [forEach]
        refine (bind_of_ok (a := ()) (s' := { s with heap := upd s.heap r { s.heap r with phenotype := some p } }) ?_).trans e
        rw [bind_of_ok (getInd_run r s), hph]
        simp only
        rw [bind_of_ok (genoOf_run h1), h2, bind_of_ok (liftE_run_ok p s)]
        rfl
    · obtain ⟨s', e⟩ := ih (s := s) fun r' hr' => h r' (List.mem_cons_of_mem _ hr')
      refine ⟨s', ?_⟩
      rw [forEach]
      refine (bind_of_ok (a := ()) (s' := s) ?_).trans e
      rw [bind_of_ok (getInd_run r s), hph]
      rfl

/-- The search space of a population. -/
def InSpace (spec : PopSpec) (g : List Val) : Prop :=
  match spec with
  | .binary _ gens => ∃ ps offs, gensParams gens 0 = .ok (ps, offs) ∧ IsBits g ∧ g.length = totalBits ps
  | .cat gens => (∀ p ∈ gens, PlainPool p) ∧ IsTuple gens g
  | .orderCat a b k => IsTrack a b k g

/-- Usable gene declarations (the conditions under which `fill` can succeed). -/
def Usable (spec : PopSpec) : Prop :=
  match spec with
  | .binary _ gens => ∀ g ∈ gens, ¬ Degenerate g
  | .cat gens => ∀ p ∈ gens, PlainPool p
  | .orderCat a b k => 0 ≤ k ∧ k ≤ b - a + 1

theorem prepare_total {s : St σ} {spec : PopSpec} (hx : s.ga.attrs.arith = .exact) (hs : s.ga.attrs.spec = spec) (hu : Usable spec) :
    ∃ at_ : Attrs, prepare s = (.ok (), { s with ga := { s.ga with attrs := at_ } }) ∧ at_.spec = spec ∧ at_.arith = .exact ∧
      at_.numIndivid = s.ga.attrs.numIndivid ∧ at_.isPhenotype = s.ga.attrs.isPhenotype ∧
      ∀ gray gens, spec = .binary gray gens → Prepared at_ gray gens := by
  unfold prepare
  rw [bind_of_ok (getGa_run s), hs]
  cases spec with
  | cat gens => exact ⟨s.ga.attrs, rfl, hs, hx, rfl, rfl, by simp⟩
  | orderCat a b k => exact ⟨s.ga.attrs, rfl, hs, hx, rfl, rfl, by simp⟩
  | binary gray gens =>
    obtain ⟨r, hr⟩ := gensParams_accepts (off := 0) hu
    refine ⟨{ s.ga.attrs with params := r.1, idxBits := 0 :: r.2 }, ?_, hs, hx, rfl, rfl, ?_⟩
    · simp only
      rw [show gensParamsR s.ga.attrs.arith.rnd gens 0 = .ok r by rw [hx, Arith.exact_rnd, gensParamsR_id, hr],
        bind_of_ok (liftE_run_ok r s)]
      rfl
    · rintro gray' gens' h
      injection h with h1 h2
      subst h1; subst h2
      exact ⟨hs, r.2, by rw [show ({ s.ga.attrs with params := r.1, idxBits := 0 :: r.2 } : Attrs).arith = .exact from hx, Arith.exact_rnd, gensParamsR_id]; exact hr, rfl⟩

/-- C67: for every list of genotypes of the search space there are draws on which `set_params` + `fill` creates exactly
this population, in this order. -/
theorem C67_every_population {spec : PopSpec} (hu : Usable spec) {L : List (List Val)} (hL : ∀ g ∈ L, InSpace spec g) :
    ∃ t : List Nat, ∀ (s : St σ) (u : List Nat), s.ga.attrs.arith = .exact → ∃ s',
      createPopulation spec L.length none { s with tape := t ++ u } = (.ok (), s') ∧ s'.tape = u ∧
      s'.ga.population.map (fun r => (s'.heap r).genotype) = L.map some := by
  -- the attributes do not depend on the state
  obtain ⟨at0, p1, p2, px, p3, p4, p5⟩ := prepare_total (σ := σ) (spec := spec)
    (s := { ga := { attrs := { numIndivid := L.length, spec := spec, isPhenotype := spec.hasPhenotype } } }) rfl rfl hu
  have hgen : ∀ g ∈ L, ∃ t, Gives (σ := σ) (generate at0) t g := by
    intro g hg
    have hin := hL g hg
    cases spec with
    | cat gens =>
      obtain ⟨t, ht, _⟩ := C67_categorical (σ := σ) p2 hin.1 g hin.2
      exact ⟨t, ht.2⟩
    | orderCat a b k =>
      obtain ⟨t, ht, _⟩ := C67_tracks (σ := σ) p2 hu.1 hu.2 g hin
      exact ⟨t, ht.2⟩
    | binary gray gens =>
      have hprep := p5 gray gens rfl
      obtain ⟨ps, offs, h1, h2, h3⟩ := hin
      obtain ⟨offs', e1, _⟩ := hprep.ok
      rw [px, Arith.exact_rnd, gensParamsR_id, h1] at e1
      injection e1 with e1
      injection e1 with e1 _
      obtain ⟨t, ht, _⟩ := C67_binary (σ := σ) hprep g ⟨h2, by rw [hprep.total, h3, e1]⟩
      exact ⟨t, ht.2⟩
  obtain ⟨t, ht⟩ := generateLoop_gives (α := Nat) hgen
  refine ⟨t, ?_⟩
  intro s u hx
  let s1 : St σ := { s with tape := t ++ u, ga := { s.ga with population := [], attrs := at0 } }
  obtain ⟨s2, e1, e2, e3⟩ := ht (List.range L.length) { s with ga := { s.ga with population := [], attrs := at0 } } u (by simp)
  let at1 : Attrs := { numIndivid := L.length, spec := spec, isPhenotype := spec.hasPhenotype }
  let s0 : St σ := { s with tape := t ++ u, ga := { s.ga with population := [], attrs := at1 } }
  have hset : setParams spec L.length none { s with tape := t ++ u } = (.ok (), s0) := by
    unfold setParams
    rw [ite_run, if_neg (by simp)]
    simp only [s0, at1, ← hx]
    rfl
  have hprep : prepare s0 = (.ok (), s1) := by
    simp only [s0, at1]
    unfold prepare at p1 ⊢
    rw [bind_of_ok (getGa_run _)] at p1 ⊢
    cases spec with
    | cat gens =>
      simp only [pure_run, Prod.mk.injEq, true_and, St.mk.injEq, GaData.mk.injEq] at p1
      simp only [pure_run, s1, Prod.mk.injEq, true_and, St.mk.injEq, GaData.mk.injEq, and_true]
      exact p1.1.1
    | orderCat a b k =>
      simp only [pure_run, Prod.mk.injEq, true_and, St.mk.injEq, GaData.mk.injEq] at p1
      simp only [pure_run, s1, Prod.mk.injEq, true_and, St.mk.injEq, GaData.mk.injEq, and_true]
      exact p1.1.1
    | binary gray gens =>
      obtain ⟨r, hr⟩ := gensParams_accepts (off := 0) hu
      simp only at p1 ⊢
      rw [Arith.exact_rnd, gensParamsR_id, hr, bind_of_ok (liftE_run_ok r _), modGa_run] at p1
      rw [Arith.exact_rnd, gensParamsR_id, hr, bind_of_ok (liftE_run_ok r _), modGa_run]
      simp only [Prod.mk.injEq, true_and, St.mk.injEq, GaData.mk.injEq] at p1
      simp only [s1, Prod.mk.injEq, true_and, St.mk.injEq, GaData.mk.injEq, and_true]
      exact p1.1.1
  have hpop : s2.ga.population = List.range' s.next L.length := by rw [e3.pop]; simp
  have hatt : s2.ga.attrs = at0 := by rw [e3.pop]
  -- phenotypes
  have hph : ∃ s3, (if at0.isPhenotype then getPhenotype s2 else (.ok (), s2)) = (.ok (), s3) ∧ SameBut s2 s3 ∧
      ∀ r ∈ s2.ga.population, (s3.heap r).genotype = (s2.heap r).genotype := by
    by_cases hb : at0.isPhenotype = true
    · rw [if_pos hb]
      have : ∃ s3, getPhenotype s2 = (.ok (), s3) := by
        unfold getPhenotype
        rw [bind_of_ok (getGa_run s2)]
        refine phenoLoop_total ?_
        intro r hr
        right
        rw [hpop] at hr
        obtain ⟨r1, r2⟩ := List.mem_range'_1.mp hr
        have hnew := e3.new (r - s.next) L[r - s.next] (List.getElem?_eq_getElem (by omega))
        simp only [show s.next + (r - s.next) = r by omega] at hnew
        rw [p4] at hb
        cases spec with
        | cat gens => simp [PopSpec.hasPhenotype] at hb
        | orderCat a b k => simp [PopSpec.hasPhenotype] at hb
        | binary gray gens =>
          have hprep := p5 gray gens rfl
          obtain ⟨ps, offs, h1, h2, h3⟩ := hL L[r - s.next] (List.getElem_mem (by omega))
          obtain ⟨offs', q1, _⟩ := hprep.ok
          rw [px, Arith.exact_rnd, gensParamsR_id, h1] at q1
          injection q1 with q1
          injection q1 with q1 _
          refine ⟨L[r - s.next], points gray L[r - s.next] gens at0.params, by rw [hnew], ?_⟩
          rw [hatt]
          exact hprep.decode px h2 (by rw [h3, q1])
      obtain ⟨s3, h3⟩ := this
      obtain ⟨b1, b2, _⟩ := getPhenotype_ok h3
      refine ⟨s3, h3, b1, ?_⟩
      intro r hr
      rcases b2 r hr with ⟨_, e⟩ | ⟨_, g, p, _, _, e⟩
      · rw [e]
      · rw [e]
    · rw [if_neg hb]
      exact ⟨s2, rfl, SameBut.refl _, fun _ _ => rfl⟩
  obtain ⟨s3, e4, e5, e6⟩ := hph
  obtain ⟨s4, r1, r2, _, r4, _⟩ := resetIdx_run s3
  refine ⟨s4, ?_, by rw [r2.tape, e5.tape, e2], ?_⟩
  · unfold createPopulation
    rw [bind_of_ok hset]
    unfold fill
    rw [bind_of_ok hprep, bind_of_ok (getGa_run s1)]
    simp only [s1, Option.getD_none, List.length_nil, Nat.sub_zero]
    rw [bind_of_ok forEach_nil, p3, bind_of_ok e1, ite_run]
    split at e4
    · rename_i hb
      rw [if_pos hb, bind_of_ok e4]
      exact r1
    · rename_i hb
      simp only [Prod.mk.injEq, true_and] at e4
      subst e4
      rw [if_neg hb]
      exact r1
  · rw [r2.ga, e5.ga]
    apply List.ext_getElem?
    intro i
    rw [List.getElem?_map, List.getElem?_map]
    by_cases hi : i < L.length
    · have hget : s2.ga.population[i]? = some (s.next + i) := by rw [hpop, List.getElem?_range' hi]; simp
      obtain ⟨k, hk⟩ := r4 (s.next + i)
      have hm : s.next + i ∈ s2.ga.population := List.mem_of_getElem? hget
      have hnew := e3.new i L[i] (List.getElem?_eq_getElem hi)
      simp only at hnew
      rw [hget, List.getElem?_eq_getElem hi, Option.map_some, Option.map_some, hk]
      simp only [e6 _ hm, hnew]
    · rw [List.getElem?_eq_none (by rw [hpop]; simp; omega), List.getElem?_eq_none (by omega)]
      rfl

/-! ## Concrete cases -/

example : Usable (.binary true [⟨0, 3, 1⟩, ⟨-1, 1, 1 / 2⟩]) := by
  intro g hg
  simp only [List.mem_cons, List.not_mem_nil, or_false] at hg
  rcases hg with rfl | rfl <;> (unfold Degenerate; norm_num)

example : Usable (.cat [.range 0 6 2, .values [.str "a", .str "b"]]) := by
  intro g hg
  simp only [List.mem_cons, List.not_mem_nil, or_false] at hg
  rcases hg with rfl | rfl
  · exact ⟨by decide, by decide, by decide⟩
  · exact ⟨by decide, by decide⟩

example : InSpace (.orderCat 1 5 3) [.num 4, .num 1, .num 5] := by
  refine ⟨by decide, by decide, ?_⟩
  intro x hx
  simp only [List.mem_cons, List.not_mem_nil, or_false] at hx
  rcases hx with rfl | rfl | rfl
  · exact ⟨4, rfl, by decide, by decide⟩
  · exact ⟨1, rfl, by decide, by decide⟩
  · exact ⟨5, rfl, by decide, by decide⟩

end BaumEva
