import Verif.Proofs.Sort
/-!
# Properties C10-C13 and C52: populations
-/
namespace BaumEva
open Spec
variable {σ : Type}

/-- Did a run succeed?  (Used in examples only.) -/
def succeeded {α : Type} (r : Except PyErr α × St σ) : Bool := match r.1 with | .ok _ => true | .error _ => false

/-! ## C10 -/

/-- C10: after `set_params` + `fill` the population holds exactly `num_individ` pairwise distinct new objects,
numbered `0..num_individ-1`, feasible, without score; older objects are untouched. -/
theorem C10_fill_shape {spec : PopSpec} {n : Nat} {input : Option (List (List Val))} {s s' : St σ}
    (h : createPopulation spec n input s = (.ok (), s')) :
    s'.ga.population.length = n ∧ s'.ga.population.Nodup ∧
    (∀ (i r : Nat), s'.ga.population[i]? = some r →
      s.next ≤ r ∧ r < s'.next ∧ (s'.heap r).idx = some i ∧ (s'.heap r).feasible = true ∧
      (s'.heap r).score = none ∧ (s'.heap r).objScore = none ∧ (s'.heap r).rank = none ∧
      (s'.heap r).genotype.isSome) ∧
    (∀ r, r < s.next → s'.heap r = s.heap r) := by
  obtain ⟨_, _, hp, hn, hold, gs, hl, _, _, hg⟩ := createPopulation_ok h
  refine ⟨by rw [hp]; simp, by rw [hp]; exact List.nodup_range', ?_, hold⟩
  intro i r hr
  have hi : i < n := by
    have := (List.getElem?_eq_some_iff.mp hr).1
    rw [hp] at this; simpa using this
  rw [hp, List.getElem?_range' hi] at hr
  simp only [Nat.one_mul, Option.some.injEq] at hr
  subst hr
  obtain ⟨p, e, _⟩ := hg i gs[i] (List.getElem?_eq_getElem (by omega))
  rw [e]
  refine ⟨by omega, by omega, rfl, rfl, rfl, rfl, rfl, rfl⟩

/-- C10, binary populations: genes were accepted, every genotype is a bit string of the total bit length and
every phenotype is the decoding of its genotype. -/
theorem C10_fill_binary {gray : Bool} {gens : List BinGene} {n : Nat} {input : Option (List (List Val))}
    {s s' : St σ} (h : createPopulation (.binary gray gens) n input s = (.ok (), s')) :
    Prepared s'.ga.attrs gray gens ∧
    ∀ r ∈ s'.ga.population, ∃ g p, (s'.heap r).genotype = some g ∧ (s'.heap r).phenotype = some p ∧
      IsBits g ∧ g.length = s'.ga.attrs.idxBits.getLastD 0 ∧ decodeIndivid s'.ga.attrs g = .ok p := by
  obtain ⟨hin, hd, hp, hn, hold, gs, hl, hf, hgen, hg⟩ := createPopulation_ok h
  have hprep := hd.prep gray gens rfl
  refine ⟨hprep, ?_⟩
  intro r hr
  rw [hp] at hr
  obtain ⟨h1, h2⟩ := List.mem_range'_1.mp hr
  have hi : r - s.next < gs.length := by omega
  obtain ⟨p, e, hpp⟩ := hg (r - s.next) _ (List.getElem?_eq_getElem hi)
  rw [if_pos (hd.phen.mpr ⟨gray, gens, rfl⟩)] at hpp
  obtain ⟨q, rfl, hq⟩ := hpp
  rw [show s.next + (r - s.next) = r by omega] at e
  have hshape : IsBits gs[r - s.next] ∧ gs[r - s.next].length = totalBits s'.ga.attrs.params := by
    by_cases hc : r - s.next < (input.getD []).length
    · have hm : gs[r - s.next] ∈ gs.take (input.getD []).length := by
        rw [List.mem_take_iff_getElem]
        exact ⟨r - s.next, by omega, rfl⟩
      obtain ⟨j, hj, e2⟩ := List.getElem_of_mem hm
      have := (List.forall₂_iff_get.mp hf).2 j (by rw [hf.length_eq]; exact hj) hj
      simp only [List.get_eq_getElem, e2] at this
      exact adopt_shape hprep this
    · have hm : gs[r - s.next] ∈ gs.drop (input.getD []).length := by
        rw [List.mem_drop_iff_getElem]
        refine ⟨r - s.next - (input.getD []).length, by omega, ?_⟩
        congr 1; omega
      have := hgen _ hm
      unfold GenShape at this
      rw [hd.spec_eq] at this
      exact this
  refine ⟨_, q, by rw [e], by rw [e], hshape.1, ?_, hq⟩
  rw [hprep.total]; exact hshape.2

/-- C10, other populations: phenotypes stay empty. -/
theorem C10_fill_no_phenotype {spec : PopSpec} {n : Nat} {input : Option (List (List Val))}
    {s s' : St σ} (hs : ∀ gray gens, spec ≠ .binary gray gens)
    (h : createPopulation spec n input s = (.ok (), s')) :
    ∀ r ∈ s'.ga.population, (s'.heap r).phenotype = none := by
  obtain ⟨hin, hd, hp, hn, hold, gs, hl, hf, hgen, hg⟩ := createPopulation_ok h
  intro r hr
  rw [hp] at hr
  obtain ⟨h1, h2⟩ := List.mem_range'_1.mp hr
  obtain ⟨p, e, hpp⟩ := hg (r - s.next) _ (List.getElem?_eq_getElem (by omega))
  rw [if_neg (by intro hc; obtain ⟨a, b, c⟩ := hd.phen.mp hc; exact hs a b c)] at hpp
  rw [show s.next + (r - s.next) = r by omega] at e
  rw [e, hpp]

example : succeeded (createPopulation (.cat [.range 0 4 2, .values [.str "a", .str "b"]]) 2
    (some [[.num 7, .str "z"]]) ({ tape := [5, 3] } : St ℚ)) = true := by decide +kernel

/-! ## C11 -/

/-- C11: an input population longer than `num_individ` is rejected and nothing changes. -/
theorem C11_oversized_rejected {spec : PopSpec} {n : Nat} {input : List (List Val)} (s : St σ)
    (hl : n < input.length) : createPopulation spec n (some input) s = (.error .exception, s) := by
  unfold createPopulation setParams
  apply bind_of_err
  rw [ite_run, if_pos (by simpa using hl)]
  rfl

/-- C11, categorical and ordinal: the input individuals come first, in order, verbatim. -/
theorem C11_input_adopted {spec : PopSpec} {n : Nat} {input : List (List Val)} {s s' : St σ}
    (hs : ∀ gray gens, spec ≠ .binary gray gens)
    (h : createPopulation spec n (some input) s = (.ok (), s')) :
    input.length ≤ n ∧ ∀ (i : Nat) (x : List Val), input[i]? = some x → ∃ r, s'.ga.population[i]? = some r ∧
      (s'.heap r).genotype = some x := by
  obtain ⟨hin, hd, hp, hn, hold, gs, hl, hf, hgen, hg⟩ := createPopulation_ok h
  simp only [Option.getD_some] at hin hf
  refine ⟨hin, ?_⟩
  intro i x hx
  obtain ⟨hi, rfl⟩ := List.getElem?_eq_some_iff.mp hx
  have hi2 : i < (gs.take input.length).length := by rw [← hf.length_eq]; exact hi
  have := (List.forall₂_iff_get.mp hf).2 i hi hi2
  simp only [List.get_eq_getElem, List.getElem_take] at this
  unfold adopt at this
  rw [hd.spec_eq] at this
  obtain ⟨p, e, _⟩ := hg i _ (List.getElem?_eq_getElem (by omega))
  refine ⟨s.next + i, by rw [hp, List.getElem?_range' (by omega)]; simp, ?_⟩
  rw [e]
  simp only
  cases spec with
  | cat gens => simp only [Except.ok.injEq] at this; rw [this]
  | orderCat a b k => simp only [Except.ok.injEq] at this; rw [this]
  | binary gray gens => exact absurd rfl (hs gray gens)

/-- C11, binary: the input individuals come first, in order, encoded. -/
theorem C11_input_encoded {gray : Bool} {gens : List BinGene} {n : Nat} {input : List (List Val)} {s s' : St σ}
    (h : createPopulation (.binary gray gens) n (some input) s = (.ok (), s')) :
    input.length ≤ n ∧ ∀ (i : Nat) (x : List Val), input[i]? = some x → ∃ r g, s'.ga.population[i]? = some r ∧
      (s'.heap r).genotype = some g ∧ encodeIndividR s'.ga.attrs.arith.rnd gray gens s'.ga.attrs.params x = .ok g := by
  obtain ⟨hin, hd, hp, hn, hold, gs, hl, hf, hgen, hg⟩ := createPopulation_ok h
  simp only [Option.getD_some] at hin hf
  refine ⟨hin, ?_⟩
  intro i x hx
  obtain ⟨hi, rfl⟩ := List.getElem?_eq_some_iff.mp hx
  have hi2 : i < (gs.take input.length).length := by rw [← hf.length_eq]; exact hi
  have := (List.forall₂_iff_get.mp hf).2 i hi hi2
  simp only [List.get_eq_getElem, List.getElem_take] at this
  unfold adopt at this
  rw [hd.spec_eq] at this
  obtain ⟨p, e, _⟩ := hg i _ (List.getElem?_eq_getElem (by omega))
  exact ⟨s.next + i, _, by rw [hp, List.getElem?_range' (by omega)]; simp, by rw [e], this⟩

example : succeeded (createPopulation (.orderCat 1 5 3) 3
    (some [[.num 3, .num 1, .num 2], [.num 5, .num 4, .num 1]]) ({ tape := [5, 3, 7] } : St ℚ)) = true := by
  decide +kernel

/-! ## C12 -/

/-- C12: every generated categorical individual has one value per gene, each from the pool of its gene. -/
theorem C12_generated_in_pools {gens : List CatGene} {n : Nat} {input : Option (List (List Val))} {s s' : St σ}
    (h : createPopulation (.cat gens) n input s = (.ok (), s')) :
    ∀ (i r : Nat), (input.getD []).length ≤ i → s'.ga.population[i]? = some r →
      ∃ g, (s'.heap r).genotype = some g ∧ IsTuple gens g := by
  obtain ⟨hin, hd, hp, hn, hold, gs, hl, hf, hgen, hg⟩ := createPopulation_ok h
  intro i r hi hr
  have hin : i < n := by
    have := (List.getElem?_eq_some_iff.mp hr).1
    rw [hp] at this; simpa using this
  rw [hp, List.getElem?_range' hin] at hr
  simp only [Nat.one_mul, Option.some.injEq] at hr
  subst hr
  obtain ⟨p, e, _⟩ := hg i _ (List.getElem?_eq_getElem (by omega))
  have hm : gs[i] ∈ gs.drop (input.getD []).length := by
    rw [List.mem_drop_iff_getElem]
    refine ⟨i - (input.getD []).length, by omega, ?_⟩
    congr 1; omega
  have := hgen _ hm
  unfold GenShape at this
  rw [hd.spec_eq] at this
  exact ⟨_, by rw [e], this⟩

/-- C12, nothing is missing from the pools: every pool value is generated by some draw. -/
theorem C12_every_pool_value_drawable {g : CatGene} {v : Val} (hv : InPool g v) (s : St σ) (t : List Nat) :
    ∃ x, genCatGene g { s with tape := x :: t } = (.ok v, { s with tape := t }) := by
  cases g with
  | range lo hi step =>
    obtain ⟨i, rfl, hi'⟩ := hv
    refine ⟨i, ?_⟩
    have h0 : step ≠ 0 := by rcases hi' with ⟨h, _⟩ | ⟨h, _⟩ <;> omega
    have hlt : (i : Int) < rangeLen lo (hi + 1) step := by
      rw [rangeLen_pos_spec h0]
      rcases hi' with ⟨a, b⟩ | ⟨a, b⟩
      · left; exact ⟨a, by omega⟩
      · right; exact ⟨a, by omega⟩
    have hr : (randrange lo (hi + 1) step : M σ Int) { s with tape := i :: t } =
        (.ok (lo + step * (i : Int)), { s with tape := t }) := by
      unfold randrange
      rw [ite_run, if_neg h0, ite_run, if_neg (by omega)]
      have : (draw : M σ Nat) { s with tape := i :: t } = (.ok i, { s with tape := t }) := rfl
      rw [bind_of_ok this, pure_run, Int.emod_eq_of_lt (by omega) hlt]
    rw [genCatGene, bind_of_ok hr, pure_run]
  | values l =>
    obtain ⟨i, hi, rfl⟩ := List.getElem_of_mem hv
    refine ⟨i, ?_⟩
    have hne : l.isEmpty = false := by cases l with | nil => simp at hi | cons => rfl
    rw [genCatGene, choice, ite_run, if_neg (by simp [hne])]
    have : (draw : M σ Nat) { s with tape := i :: t } = (.ok i, { s with tape := t }) := rfl
    rw [bind_of_ok this, Nat.mod_eq_of_lt hi, List.getElem?_eq_getElem hi]
    rfl
  | other => exact hv.elim

example : IsTuple [.range 0 4 2, .values [.str "a", .str "b"]] [.num 4, .str "b"] :=
  .cons ⟨2, by norm_num, Or.inl ⟨by norm_num, by norm_num⟩⟩ (.cons (by simp [InPool]) .nil)
example : ¬ InPool (.range 0 4 2) (.num 6) := by
  rintro ⟨i, h1, ⟨_, h2⟩ | ⟨h2, _⟩⟩
  · injection h1 with h1
    have : (6 : Int) = 0 + 2 * (i : Int) := by exact_mod_cast h1
    omega
  · omega

/-! ## C13 -/

/-- C13: every generated ordinal individual is a repetition-free track of `k` integers between `a` and `b`. -/
theorem C13_generated_tracks {a b k : Int} {n : Nat} {input : Option (List (List Val))} {s s' : St σ}
    (h : createPopulation (.orderCat a b k) n input s = (.ok (), s')) :
    ∀ (i r : Nat), (input.getD []).length ≤ i → s'.ga.population[i]? = some r →
      ∃ g, (s'.heap r).genotype = some g ∧ IsTrack a b k g := by
  obtain ⟨hin, hd, hp, hn, hold, gs, hl, hf, hgen, hg⟩ := createPopulation_ok h
  intro i r hi hr
  have hin : i < n := by
    have := (List.getElem?_eq_some_iff.mp hr).1
    rw [hp] at this; simpa using this
  rw [hp, List.getElem?_range' hin] at hr
  simp only [Nat.one_mul, Option.some.injEq] at hr
  subst hr
  obtain ⟨p, e, _⟩ := hg i _ (List.getElem?_eq_getElem (by omega))
  have hm : gs[i] ∈ gs.drop (input.getD []).length := by
    rw [List.mem_drop_iff_getElem]
    refine ⟨i - (input.getD []).length, by omega, ?_⟩
    congr 1; omega
  have := hgen _ hm
  unfold GenShape at this
  rw [hd.spec_eq] at this
  exact ⟨_, by rw [e], this⟩

/-- C13: too long tracks (`k > b - a + 1`, and negative `k`) raise `ValueError`. -/
theorem C13_too_long_raises {at_ : Attrs} {a b k : Int} (hs : at_.spec = .orderCat a b k)
    (hk : k < 0 ∨ max 0 (b - a + 1) < k) (s : St σ) : generate at_ s = (.error .valueError, s) := by
  unfold generate
  rw [hs]
  simp only
  apply bind_of_err
  unfold sample
  rw [ite_run, if_pos (by rw [length_pyRange_one]; omega)]
  rfl

/-- C13: a track that fits is generated whenever enough random numbers are left. -/
theorem C13_fitting_succeeds {at_ : Attrs} {a b k : Int} (hs : at_.spec = .orderCat a b k)
    (hk : 0 ≤ k) (hk2 : k ≤ b - a + 1) (s : St σ) (ht : k ≤ s.tape.length) :
    ∃ g s', generate at_ s = (.ok g, s') := by
  have aux : ∀ (k : Nat) (l : List Int) (s : St σ), k ≤ l.length → k ≤ s.tape.length →
      ∃ g s', sampleAux k l s = (.ok g, s') := by
    intro k
    induction k with
    | zero => intro l s _ _; exact ⟨_, _, rfl⟩
    | succ k ih =>
      intro l s hl ht
      cases htape : s.tape with
      | nil => rw [htape] at ht; simp at ht
      | cons x t =>
        have hd : draw s = (.ok x, { s with tape := t }) := draw_ok.mpr ⟨t, htape, rfl⟩
        have hlt : x % l.length < l.length := Nat.mod_lt _ (by omega)
        obtain ⟨g, s', e⟩ := ih (l.eraseIdx (x % l.length)) { s with tape := t }
          (by rw [List.length_eraseIdx_of_lt hlt]; omega) (by rw [htape] at ht; simpa using ht)
        refine ⟨l[x % l.length] :: g, s', ?_⟩
        rw [sampleAux, bind_of_ok hd, List.getElem?_eq_getElem hlt]
        simp only
        rw [bind_of_ok e]
        rfl
  unfold generate
  rw [hs]
  simp only
  obtain ⟨g, s', e⟩ := aux k.toNat (pyRange a (b + 1) 1) s (by rw [length_pyRange_one]; omega) (by omega)
  refine ⟨g.map fun i : Int => Val.num (i : ℚ), s', ?_⟩
  have : sample (pyRange a (b + 1) 1) k s = (.ok g, s') := by
    unfold sample
    rw [ite_run, if_neg (by rw [length_pyRange_one]; omega)]
    exact e
  rw [bind_of_ok this]
  rfl

example : IsTrack 1 5 3 [.num 4, .num 1, .num 5] := by
  refine ⟨rfl, by decide +kernel, ?_⟩
  intro x hx
  simp only [List.mem_cons, List.not_mem_nil, or_false] at hx
  rcases hx with rfl | rfl | rfl
  · exact ⟨4, by norm_num, by norm_num, by norm_num⟩
  · exact ⟨1, by norm_num, by norm_num, by norm_num⟩
  · exact ⟨5, by norm_num, by norm_num, by norm_num⟩

/-! ## C52 -/

/-- C52: `is_duplicate` reports `True` iff two listed positions hold equal genotypes; it changes nothing. -/
theorem C52_duplicate_exact {rs : List Nat} {s s' : St σ} {b : Bool} (h : isDuplicate rs s = (.ok b, s')) :
    s' = s ∧ (b = true ↔ ∃ (i j x y : Nat), i < j ∧ rs[i]? = some x ∧ rs[j]? = some y ∧
      (s.heap x).genotype = (s.heap y).genotype) := by
  obtain ⟨h1, _, h2⟩ := isDuplicate_ok h
  refine ⟨h1, h2.trans ?_⟩
  rw [List.nodup_iff_getElem?_ne_getElem?]
  push Not
  constructor
  · rintro ⟨i, j, hij, hj, e⟩
    rw [List.length_map] at hj
    rw [List.getElem?_map, List.getElem?_map, List.getElem?_eq_getElem hj,
      List.getElem?_eq_getElem (by omega : i < rs.length)] at e
    simp only [Option.map_some, Option.some.injEq] at e
    exact ⟨i, j, rs[i], rs[j], hij, List.getElem?_eq_getElem _, List.getElem?_eq_getElem _, e⟩
  · rintro ⟨i, j, x, y, hij, hx, hy, e⟩
    refine ⟨i, j, hij, by rw [List.length_map]; exact (List.getElem?_eq_some_iff.mp hy).1, ?_⟩
    rw [List.getElem?_map, List.getElem?_map, hx, hy]
    simp [e]

/-- C52: `sort_by_dict('score')` permutes the population into ascending score order, keeps the order of equal
scores and changes nothing else except the flag `is_sorted`. -/
theorem C52_sort_stable [LinearOrder σ] {s s' : St σ} (h : sortByScore s = (.ok (), s')) :
    s'.ga.population.Perm s.ga.population ∧
    (∀ (i j a b : Nat) (va vb : σ), i ≤ j → s'.ga.population[i]? = some a → s'.ga.population[j]? = some b →
      (s.heap a).score = some va → (s.heap b).score = some vb → va ≤ vb) ∧
    (∀ v : σ, s'.ga.population.filter (fun r => (s.heap r).score = some v) =
      s.ga.population.filter (fun r => (s.heap r).score = some v)) ∧
    s'.heap = s.heap ∧ s'.next = s.next ∧ s'.tape = s.tape ∧
    s'.ga = { s.ga with population := s'.ga.population, attrs := { s.ga.attrs with isSorted := true } } := by
  obtain ⟨pop, hs, rfl⟩ := sortByScore_ok h
  refine ⟨hs.perm, ?_, hs.stable, rfl, rfl, rfl, rfl⟩
  intro i j a b va vb hij ha hb h1 h2
  rcases Nat.lt_or_ge i j with hlt | hge
  · obtain ⟨i1, rfl⟩ := List.getElem?_eq_some_iff.mp ha
    obtain ⟨j1, rfl⟩ := List.getElem?_eq_some_iff.mp hb
    exact List.pairwise_iff_getElem.mp hs.sorted i j i1 j1 hlt va vb h1 h2
  · have : i = j := by omega
    subst this
    rw [ha] at hb
    injection hb with hb
    subst hb
    rw [h1] at h2
    injection h2 with h2
    exact h2.le

/-- C52: sorting succeeds on every fully scored population. -/
theorem C52_sort_total [LinearOrder σ] {s : St σ} (h : ∀ r ∈ s.ga.population, (s.heap r).score.isSome) :
    ∃ s', sortByScore s = (.ok (), s') := sortByScore_succeeds h

/-- Example state: three individuals with scores 2, 1, 1 and two equal genotypes. -/
def exScored : St ℚ :=
  { heap := fun r => match r with
      | 0 => { genotype := some [bit0], score := some 2 }
      | 1 => { genotype := some [bit1], score := some 1 }
      | _ => { genotype := some [bit0], score := some 1 }
    next := 3
    ga := { population := [0, 1, 2] } }

example : (sortByScore exScored).2.ga.population = [1, 2, 0] := by decide +kernel
example : (isDuplicate [0, 1, 2] exScored).1 = .ok true ∧ (isDuplicate [0, 1] exScored).1 = .ok false := by
  exact ⟨rfl, rfl⟩

end BaumEva
