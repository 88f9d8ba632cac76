import Verif.Proofs.Crossover
import Verif.Model.Mutation
/-!
# Lemmas about mutations
-/
namespace BaumEva
variable {σ α : Type}

/-! ## determines_mutation -/

/-- The draw `d` triggers mutation at level `q` (as the code has it). -/
def hits (q : ℚ) (d : Nat) : Bool := decide (((d % 1000 : Nat) : ℚ) ≤ q * 1000)

theorem determines_ok {lvl : MutLvl} {s s' : St σ} {b : Bool} :
    determinesMutation lvl s = (.ok b, s') ↔
      ∃ q d t, lvl = .float q ∧ s.tape = d :: t ∧ s' = { s with tape := t } ∧ b = hits q d := by
  unfold determinesMutation rndSamples
  constructor
  · intro h
    obtain ⟨v, s1, h1, h2⟩ := bind_ok.mp h
    unfold randint at h1
    rw [ite_run, if_neg (by norm_num)] at h1
    obtain ⟨x, s2, h3, h4⟩ := bind_ok.mp h1
    obtain ⟨rfl, rfl⟩ := pure_ok.mp h4
    obtain ⟨t, e1, e2⟩ := draw_ok.mp h3
    cases lvl with
    | float q =>
      simp only at h2
      obtain ⟨rfl, rfl⟩ := pure_ok.mp h2
      refine ⟨q, x, t, rfl, e1, e2, ?_⟩
      unfold hits
      rw [decide_eq_decide]
      have : (0 + (x : Int) % (((1000 : Nat) : Int) - 1 - 0 + 1)) = ((x % 1000 : Nat) : Int) := by
        push_cast; norm_num
      rw [this]
      push_cast
      rfl
    | str _ => simp only [throwE_ok] at h2
    | other => simp only [throwE_ok] at h2
  · rintro ⟨q, d, t, rfl, e1, rfl, rfl⟩
    have hr : randint 0 (((1000 : Nat) : Int) - 1) s = (.ok ((d % 1000 : Nat) : Int), { s with tape := t }) := by
      unfold randint
      rw [ite_run, if_neg (by norm_num), bind_of_ok (draw_ok.mpr ⟨t, e1, rfl⟩), pure_run]
      congr 2
      push_cast; norm_num
    rw [bind_of_ok hr]
    simp only
    rw [pure_run]
    congr 2

theorem determines_drew {lvl : MutLvl} {s s' : St σ} {b : Bool} (h : determinesMutation lvl s = (.ok b, s')) :
    Drew s s' := by
  obtain ⟨_, _, t, _, _, e, _⟩ := determines_ok.mp h
  exact ⟨t, e⟩

/-! ## bits -/

theorem mutateBits_ok {q : ℚ} : ∀ {g g' : List Val} {s s' : St σ},
    mutateBits (.float q) g s = (.ok g', s') ↔
      ∃ ds, ds.length = g.length ∧ s.tape = ds ++ s'.tape ∧ s' = { s with tape := s'.tape } ∧
        g' = List.zipWith (fun x d => if hits q d then (if x = bit0 then bit1 else bit0) else x) g ds := by
  intro g
  induction g with
  | nil =>
    intro g' s s'
    rw [mutateBits, pure_ok]
    constructor
    · rintro ⟨rfl, rfl⟩; exact ⟨[], rfl, rfl, rfl, rfl⟩
    · rintro ⟨ds, h1, h2, h3, h4⟩
      have : ds = [] := List.length_eq_zero_iff.mp h1
      subst this
      refine ⟨by simpa using h4, ?_⟩
      rw [h3]
      simp only [List.nil_append] at h2
      rw [← h2]
  | cons x xs ih =>
    intro g' s s'
    rw [mutateBits]
    constructor
    · intro h
      obtain ⟨m, s1, h1, h2⟩ := bind_ok.mp h
      obtain ⟨ys, s2, h3, h4⟩ := bind_ok.mp h2
      obtain ⟨rfl, rfl⟩ := pure_ok.mp h4
      obtain ⟨q', d, t, e, e1, rfl, rfl⟩ := determines_ok.mp h1
      cases e
      obtain ⟨ds, f1, f2, f3, f4⟩ := ih.mp h3
      refine ⟨d :: ds, by simp [f1], ?_, ?_, ?_⟩
      · rw [e1]
        simp only at f2
        rw [f2]; rfl
      · rw [f3]
      · rw [f4]; rfl
    · rintro ⟨ds, h1, h2, h3, h4⟩
      obtain ⟨d, ds, rfl⟩ := List.exists_cons_of_length_eq_add_one h1
      have hd : determinesMutation (.float q) s = (.ok (hits q d), { s with tape := ds ++ s'.tape }) :=
        determines_ok.mpr ⟨q, d, ds ++ s'.tape, rfl, by simpa using h2, rfl, rfl⟩
      rw [bind_of_ok hd]
      have h5 := (ih (s := { s with tape := ds ++ s'.tape }) (s' := s')
        (g' := List.zipWith (fun x d => if hits q d then (if x = bit0 then bit1 else bit0) else x) xs ds)).mpr
        ⟨ds, by simpa using h1, rfl, by rw [h3], rfl⟩
      rw [bind_of_ok h5, pure_run, h4]
      rfl

theorem mutateBits_float {lvl : MutLvl} {g g' : List Val} {s s' : St σ} (h : mutateBits lvl g s = (.ok g', s')) :
    g = [] ∨ ∃ q, lvl = .float q := by
  cases g with
  | nil => left; rfl
  | cons x xs =>
    right
    rw [mutateBits] at h
    obtain ⟨m, s1, h1, _⟩ := bind_ok.mp h
    obtain ⟨q, _, _, e, _⟩ := determines_ok.mp h1
    exact ⟨q, e⟩

theorem mutateBits_drew {lvl : MutLvl} {g g' : List Val} {s s' : St σ} (h : mutateBits lvl g s = (.ok g', s')) :
    Drew s s' := by
  rcases mutateBits_float h with rfl | ⟨q, rfl⟩
  · rw [mutateBits, pure_ok] at h
    rw [h.2]; exact Drew.refl _
  · obtain ⟨_, _, _, e, _⟩ := mutateBits_ok.mp h
    exact ⟨_, e⟩

/-! ## combinatorial rearrangements -/

theorem split3 (l : List α) {i j : Nat} (h : i ≤ j) : l.take i ++ slice l i j ++ l.drop j = l := by
  unfold slice
  have : l.drop j = (l.drop i).drop (j - i) := by rw [List.drop_drop]; congr 1; omega
  rw [this, List.append_assoc, List.take_append_drop, List.take_append_drop]

theorem inversion_perm {i j : Nat} (h : i ≤ j) (g : List α) : (inversion i j g).Perm g := by
  have := split3 g (show i ≤ j + 1 by omega)
  conv_rhs => rw [← this]
  unfold inversion
  exact ((List.reverse_perm _).append_left _).append_right _

theorem inversion_get {i j : Nat} {g : List α} (hij : i ≤ j) (hj : j < g.length) (k : Nat) :
    (inversion i j g)[k]? = if i ≤ k ∧ k ≤ j then g[i + j - k]? else g[k]? := by
  have hs : (slice g i (j + 1)).length = j + 1 - i := slice_length (by omega)
  have ht : (g.take i).length = i := by simp; omega
  unfold inversion
  by_cases h1 : k < i
  · rw [if_neg (by omega), List.append_assoc, List.getElem?_append_left (by omega), List.getElem?_take, if_pos h1]
  · by_cases h2 : k ≤ j
    · rw [if_pos (by omega), List.append_assoc, List.getElem?_append_right (by omega),
        List.getElem?_append_left (by simp only [List.length_reverse]; omega),
        List.getElem?_reverse (by omega), slice_get (by omega)]
      congr 1; omega
    · rw [if_neg (by omega), List.getElem?_append_right (by simp [hs]; omega), List.getElem?_drop]
      congr 1
      simp [hs]; omega

theorem movement_perm {i j : Nat} {g : List α} (hi : i < g.length) (hj : j < g.length) : (movement i j g).Perm g := by
  unfold movement
  rw [List.getElem?_eq_getElem hi]
  simp only
  refine (List.perm_insertIdx _ _ ?_).trans (List.getElem_cons_eraseIdx_perm hi)
  rw [List.length_eraseIdx_of_lt hi]; omega

theorem swap_perm {i j : Nat} {g : List α} (hi : i < g.length) (hj : j < g.length) : (swapGenes i j g).Perm g := by
  unfold swapGenes
  rw [List.getElem?_eq_getElem hi, List.getElem?_eq_getElem hj]
  simp only
  exact List.set_set_perm hi hj

theorem swap_get {i j : Nat} {g : List α} (hi : i < g.length) (hj : j < g.length) (k : Nat) :
    (swapGenes i j g)[k]? = if k = j then g[i]? else if k = i then g[j]? else g[k]? := by
  unfold swapGenes
  rw [List.getElem?_eq_getElem hi, List.getElem?_eq_getElem hj]
  simp only
  rw [List.getElem?_set]
  by_cases h : k = j
  · subst h; simp [hj]
  · rw [if_neg (Ne.symm h), if_neg h, List.getElem?_set]
    by_cases h2 : k = i
    · subst h2; simp [hi]
    · rw [if_neg (Ne.symm h2), if_neg h2]

theorem shift_perm {s e i : Nat} (h : s ≤ e) (g : List α) : (shiftGenes s e i g).Perm g := by
  unfold shiftGenes
  simp only
  have h1 := split3 g h
  generalize slice g s e = chain at h1 ⊢
  generalize hr : g.take s ++ g.drop e = rest
  have h2 : (rest.take i ++ chain ++ rest.drop i).Perm (chain ++ rest) := by
    have : (rest.take i ++ chain).Perm (chain ++ rest.take i) := List.perm_append_comm
    refine (this.append_right _).trans ?_
    rw [List.append_assoc, List.take_append_drop]
  refine h2.trans ?_
  conv_rhs => rw [← h1]
  rw [← hr]
  have : (g.take s ++ chain).Perm (chain ++ g.take s) := List.perm_append_comm
  have := this.symm.append_right (g.drop e)
  rwa [List.append_assoc] at this

/-- In a repetition-free list, position determines the element. -/
theorem ne_of_getElem?_ne {g g' : List α} {k : Nat} (h : g'[k]? ≠ g[k]?) : g' ≠ g := by
  intro e; rw [e] at h; exact h rfl

theorem nodup_get {g : List α} (hn : g.Nodup) {i j : Nat} (hi : i < g.length) (hj : j < g.length) (hne : i ≠ j) :
    g[i]? ≠ g[j]? := by
  rw [List.getElem?_eq_getElem hi, List.getElem?_eq_getElem hj]
  intro h
  simp only [Option.some.injEq] at h
  exact hne ((hn.getElem_inj_iff).mp h)

theorem movement_get_target {i j : Nat} {g : List α} (hi : i < g.length) (hj : j < g.length) :
    (movement i j g)[j]? = g[i]? := by
  unfold movement
  rw [List.getElem?_eq_getElem hi]
  simp only
  rw [List.getElem?_insertIdx_self, if_pos]
  rw [List.length_eraseIdx_of_lt hi]; omega

theorem shift_get {s e i : Nat} {g : List α} (hse : s < e) (he : e ≤ g.length) (hi : i ≤ g.length - (e - s)) :
    (shiftGenes s e i g)[i]? = g[s]? := by
  unfold shiftGenes
  simp only
  have hs : (slice g s e).length = e - s := slice_length he
  have hr : (g.take s ++ g.drop e).length = g.length - (e - s) := by simp; omega
  have ht : ((g.take s ++ g.drop e).take i).length = i := by rw [List.length_take, hr]; omega
  rw [List.append_assoc, List.getElem?_append_right (by omega), List.getElem?_append_left (by omega), ht,
    slice_get (by omega)]
  congr 1; omega

/-- Complete description of `mutateComb`. -/
theorem mutateComb_inversion {g g' : List Val} {s s' : St σ} (h : mutateComb .inversion g s = (.ok g', s')) :
    ∃ i j, i < j ∧ j < g.length ∧ g' = inversion i j g ∧ Drew s s' := by
  rw [mutateComb] at h
  obtain ⟨ij, s1, h1, h2⟩ := bind_ok.mp h
  obtain ⟨rfl, rfl⟩ := pure_ok.mp h2
  obtain ⟨_, b, c, d⟩ := segmentPoints_ok h1
  exact ⟨_, _, b, c, rfl, d⟩

theorem mutateComb_movement {g g' : List Val} {s s' : St σ} (h : mutateComb .movement g s = (.ok g', s')) :
    ∃ i j, i ≠ j ∧ i < g.length ∧ j < g.length ∧ g' = movement i j g ∧ Drew s s' := by
  rw [mutateComb] at h
  obtain ⟨l, s1, h1, h2⟩ := bind_ok.mp h
  obtain ⟨i, j, rfl, hi, hj, hne, hd⟩ := sample_two List.nodup_range h1
  obtain ⟨rfl, rfl⟩ := pure_ok.mp h2
  exact ⟨i, j, hne, by simpa using hi, by simpa using hj, rfl, hd⟩

theorem mutateComb_swap {g g' : List Val} {s s' : St σ} (h : mutateComb .swap g s = (.ok g', s')) :
    ∃ i j, i ≠ j ∧ i < g.length ∧ j < g.length ∧ g' = swapGenes i j g ∧ Drew s s' := by
  rw [mutateComb] at h
  obtain ⟨l, s1, h1, h2⟩ := bind_ok.mp h
  obtain ⟨i, j, rfl, hi, hj, hne, hd⟩ := sample_two List.nodup_range h1
  obtain ⟨rfl, rfl⟩ := pure_ok.mp h2
  exact ⟨i, j, hne, by simpa using hi, by simpa using hj, rfl, hd⟩

theorem mutateComb_shift {g g' : List Val} {s s' : St σ} (h : mutateComb .shift g s = (.ok g', s')) :
    ∃ b e i, b < e ∧ e ≤ g.length ∧ e - b ≤ g.length - 2 ∧ i ≤ g.length - (e - b) ∧ i ≠ b ∧
      g' = shiftGenes b e i g ∧ Drew s s' := by
  rw [mutateComb] at h
  obtain ⟨chain, s1, h1, h2⟩ := bind_ok.mp h
  obtain ⟨b, s2, h3, h4⟩ := bind_ok.mp h2
  obtain ⟨i, s3, h5, h6⟩ := bind_ok.mp h4
  obtain ⟨rfl, rfl⟩ := pure_ok.mp h6
  obtain ⟨c1, c2, d1⟩ := randint_ok h1
  obtain ⟨b1, b2, d2⟩ := randint_ok h3
  obtain ⟨hm, d3⟩ := choice_ok h5
  rw [List.mem_filter, List.mem_range] at hm
  have hne : i ≠ b.toNat := by simpa using hm.2
  refine ⟨b.toNat, (b + chain).toNat, i, by omega, by omega, by omega, by omega, hne, rfl, (d1.trans d2).trans d3⟩

/-! ## categorical -/

theorem mutateCatGene_drew {p : CatGene} {x y : Val} {s s' : St σ} (h : mutateCatGene p x s = (.ok y, s')) :
    Drew s s' := by
  cases p with
  | values l =>
    rw [mutateCatGene, ite_run] at h
    split at h
    · exact (choice_ok h).2
    · obtain ⟨_, rfl⟩ := pure_ok.mp h; exact Drew.refl _
  | range lo hi st =>
    rw [mutateCatGene, ite_run] at h
    split at h
    · rw [throwE_ok] at h; exact h.elim
    · simp only [ite_run] at h
      split at h
      · exact (choice_ok h).2
      · obtain ⟨_, rfl⟩ := pure_ok.mp h; exact Drew.refl _
  | other => rw [mutateCatGene, throwE_ok] at h; exact h.elim

theorem mutateCatAt_drew {lvl : MutLvl} {x y : Val} {pools : List CatGene} {s s' : St σ}
    (h : mutateCatAt lvl pools x s = (.ok y, s')) : Drew s s' := by
  unfold mutateCatAt at h
  obtain ⟨m, s1, h1, h3⟩ := bind_ok.mp h
  refine (determines_drew h1).trans ?_
  rw [ite_run] at h3
  split at h3
  · cases pools with
    | nil => simp only [throwE_ok] at h3
    | cons p ps => simp only at h3; exact mutateCatGene_drew h3
  · obtain ⟨_, rfl⟩ := pure_ok.mp h3; exact Drew.refl _

theorem mutateCat_drew {lvl : MutLvl} : ∀ {g g' : List Val} {pools : List CatGene} {s s' : St σ},
    mutateCat lvl pools g s = (.ok g', s') → Drew s s' := by
  intro g
  induction g with
  | nil =>
    intro g' pools s s' h
    rw [mutateCat] at h
    obtain ⟨_, rfl⟩ := pure_ok.mp h; exact Drew.refl _
  | cons x xs ih =>
    intro g' pools s s' h
    rw [mutateCat] at h
    obtain ⟨y, s2, h3, h4⟩ := bind_ok.mp h
    obtain ⟨ys, s3, h5, h6⟩ := bind_ok.mp h4
    obtain ⟨_, rfl⟩ := pure_ok.mp h6
    exact (mutateCatAt_drew h3).trans (ih h5)

/-! ## the loop over children -/

/-- `g'` is what `get_mutation` of the class makes of genotype `g` for some draws. -/
def MutGeno (σ : Type) (op : MutOp) (spec : PopSpec) (lvl : MutLvl) (g g' : List Val) : Prop :=
  ∃ s1 s2 : St σ, match op with
    | .binString => mutateBits lvl g s1 = (.ok g', s2)
    | .categorical => ∃ pools, spec = .cat pools ∧ mutateCat lvl pools g s1 = (.ok g', s2)
    | op => mutateComb op g s1 = (.ok g', s2)

/-- One individual before and after mutation. -/
def Mutated (op : MutOp) (spec : PopSpec) (lvl : MutLvl) (a b : Ind σ) : Prop :=
  b = a ∨ ∃ g g', a.genotype = some g ∧ b = { a with genotype := some g' } ∧ MutGeno σ op spec lvl g g'

theorem mutateComb_drew {op : MutOp} {g g' : List Val} {s s' : St σ} (h : mutateComb op g s = (.ok g', s')) :
    Drew s s' := by
  cases op with
  | inversion => obtain ⟨_, _, _, _, _, d⟩ := mutateComb_inversion h; exact d
  | movement => obtain ⟨_, _, _, _, _, _, d⟩ := mutateComb_movement h; exact d
  | swap => obtain ⟨_, _, _, _, _, _, d⟩ := mutateComb_swap h; exact d
  | shift => obtain ⟨_, _, _, _, _, _, _, _, _, d⟩ := mutateComb_shift h; exact d
  | binString => simp only [mutateComb] at h; obtain ⟨_, rfl⟩ := pure_ok.mp h; exact Drew.refl _
  | categorical => simp only [mutateComb] at h; obtain ⟨_, rfl⟩ := pure_ok.mp h; exact Drew.refl _

/-- The state differs at most in tape and in the heap cell `r`. -/
def Touched (r : Nat) (s s' : St σ) : Prop :=
  ∃ t v, s' = { s with tape := t, heap := upd s.heap r v }

theorem upd_self (h : Nat → Ind σ) (r : Nat) : upd h r (h r) = h := by
  funext x; unfold upd; split
  · rename_i e; rw [e]
  · rfl

theorem mutateChild_ok {op : MutOp} {r : Nat} {s s' : St σ} {u : Unit} (h : mutateChild op r s = (.ok u, s')) :
    Touched r s s' ∧ Mutated op s.ga.attrs.spec (s.mutLvl.effective s.ga.attrs.arith) (s.heap r) (s'.heap r) := by
  have fin : ∀ {g g' : List Val} {s1 : St σ}, (s.heap r).genotype = some g → Drew s s1 →
      MutGeno σ op s.ga.attrs.spec (s.mutLvl.effective s.ga.attrs.arith) g g' →
      s' = { s1 with heap := upd s1.heap r { s1.heap r with genotype := some g' } } →
      Touched r s s' ∧ Mutated op s.ga.attrs.spec (s.mutLvl.effective s.ga.attrs.arith) (s.heap r) (s'.heap r) := by
    intro g g' s1 hg hd hm he
    obtain ⟨t, rfl⟩ := hd
    subst he
    refine ⟨⟨t, _, rfl⟩, Or.inr ⟨g, g', hg, ?_, hm⟩⟩
    simp [upd]
  have comb : ∀ op' : MutOp, op = op' → (op' ≠ .binString ∧ op' ≠ .categorical) →
      (do let m ← determinesMutation (s.mutLvl.effective s.ga.attrs.arith)
          if m then do
            let g ← genoOf r
            let g' ← mutateComb op' g
            modInd r fun ind => { ind with genotype := some g' }
          else pure ()) s = (.ok u, s') →
      Touched r s s' ∧ Mutated op s.ga.attrs.spec (s.mutLvl.effective s.ga.attrs.arith) (s.heap r) (s'.heap r) := by
    intro op' ho hop h
    obtain ⟨m, s1, h1, h2⟩ := bind_ok.mp h
    have d1 := determines_drew h1
    rw [ite_run] at h2
    split at h2
    · obtain ⟨g, s2, h3, h4⟩ := bind_ok.mp h2
      obtain ⟨e1, rfl⟩ := genoOf_ok.mp h3
      obtain ⟨g', s3, h5, h6⟩ := bind_ok.mp h4
      rw [modInd_ok] at h6
      have hm : MutGeno σ op s.ga.attrs.spec (s.mutLvl.effective s.ga.attrs.arith) g g' := by
        refine ⟨s2, s3, ?_⟩
        subst ho
        cases op
        all_goals first | exact h5 | exact absurd rfl hop.1 | exact absurd rfl hop.2
      refine fin ?_ (d1.trans (mutateComb_drew h5)) hm h6
      obtain ⟨t, rfl⟩ := d1
      exact e1
    · obtain ⟨_, rfl⟩ := pure_ok.mp h2
      obtain ⟨t, rfl⟩ := d1
      exact ⟨⟨t, s.heap r, by rw [upd_self]⟩, Or.inl rfl⟩
  unfold mutateChild at h
  rw [bind_of_ok (getS_run s)] at h
  cases op with
  | binString =>
    simp only at h
    obtain ⟨g, s2, h3, h4⟩ := bind_ok.mp h
    obtain ⟨e1, rfl⟩ := genoOf_ok.mp h3
    obtain ⟨g', s3, h5, h6⟩ := bind_ok.mp h4
    rw [modInd_ok] at h6
    exact fin e1 (mutateBits_drew h5) ⟨s2, s3, h5⟩ h6
  | categorical =>
    simp only at h
    obtain ⟨g, s2, h3, h4⟩ := bind_ok.mp h
    obtain ⟨e1, rfl⟩ := genoOf_ok.mp h3
    cases hsp : s2.ga.attrs.spec with
    | cat pools =>
      rw [hsp] at h4
      simp only at h4
      obtain ⟨g', s3, h5, h6⟩ := bind_ok.mp h4
      rw [modInd_ok] at h6
      rw [hsp] at fin
      exact fin e1 (mutateCat_drew h5) ⟨s2, s3, pools, rfl, h5⟩ h6
    | orderCat _ _ _ => rw [hsp] at h4; simp only [throwE_ok] at h4
    | binary _ _ => rw [hsp] at h4; simp only [throwE_ok] at h4
  | inversion => exact comb .inversion rfl (by decide) h
  | movement => exact comb .movement rfl (by decide) h
  | shift => exact comb .shift rfl (by decide) h
  | swap => exact comb .swap rfl (by decide) h

theorem mutLoop_ok {op : MutOp} : ∀ {cs : List Nat} {s s' : St σ} {u : Unit}, cs.Nodup →
    forEach cs (mutateChild op) s = (.ok u, s') →
    (∃ t h, s' = { s with tape := t, heap := h }) ∧
    (∀ r, r ∉ cs → s'.heap r = s.heap r) ∧
    (∀ r ∈ cs, Mutated op s.ga.attrs.spec (s.mutLvl.effective s.ga.attrs.arith) (s.heap r) (s'.heap r)) := by
  intro cs
  induction cs with
  | nil =>
    intro s s' u _ h
    rw [forEach_nil] at h
    simp at h; subst h
    exact ⟨⟨s.tape, s.heap, rfl⟩, fun _ _ => rfl, by intro r hr; simp at hr⟩
  | cons c cs ih =>
    intro s s' u hn h
    obtain ⟨s1, h1, h2⟩ := forEach_cons_ok.mp h
    obtain ⟨⟨t, v, rfl⟩, hm⟩ := mutateChild_ok h1
    rw [List.nodup_cons] at hn
    obtain ⟨⟨t2, hh, rfl⟩, ho, hi⟩ := ih hn.2 h2
    refine ⟨⟨t2, hh, rfl⟩, ?_, ?_⟩
    · intro r hr
      simp only [List.mem_cons, not_or] at hr
      rw [ho r hr.2]
      exact upd_ne hr.1
    · intro r hr
      by_cases e : r = c
      · subst e
        rw [ho r hn.1]
        exact hm
      · have hr' : r ∈ cs := by simpa [e] using hr
        have := hi r hr'
        simp only [upd_ne e] at this
        exact this

/-- Complete description of a successful `mutation.execute`. -/
theorem mutExec_ok {op : MutOp} {s s' : St σ} {u : Unit} (h : mutExec op s = (.ok u, s')) (hn : s.ga.children.Nodup) :
    (∃ t hp, s' = { s with tape := t, heap := hp, mutLvl := s'.mutLvl }) ∧
    (op ≠ .binString → s'.mutLvl = s.mutLvl) ∧
    (op = .binString → updateMutLvlR s.ga.attrs.arith.rnd s.mutLvl (s.ga.attrs.idxBits.getLastD 0) = .ok s'.mutLvl) ∧
    (∀ r, r ∉ s.ga.children → s'.heap r = s.heap r) ∧
    (∀ r ∈ s.ga.children, Mutated op s.ga.attrs.spec (s'.mutLvl.effective s.ga.attrs.arith) (s.heap r) (s'.heap r)) := by
  unfold mutExec at h
  rw [bind_of_ok (getS_run s)] at h
  have other : op ≠ .binString → forEach s.ga.children (mutateChild op) s = (.ok u, s') →
      (∃ t hp, s' = { s with tape := t, heap := hp, mutLvl := s'.mutLvl }) ∧
      (op ≠ .binString → s'.mutLvl = s.mutLvl) ∧
      (op = .binString → updateMutLvlR s.ga.attrs.arith.rnd s.mutLvl (s.ga.attrs.idxBits.getLastD 0) = .ok s'.mutLvl) ∧
      (∀ r, r ∉ s.ga.children → s'.heap r = s.heap r) ∧
      (∀ r ∈ s.ga.children, Mutated op s.ga.attrs.spec (s'.mutLvl.effective s.ga.attrs.arith) (s.heap r) (s'.heap r)) := by
    intro hop h
    obtain ⟨⟨t, hp, e⟩, b, c⟩ := mutLoop_ok hn h
    have hl : s'.mutLvl = s.mutLvl := by rw [e]
    refine ⟨⟨t, hp, by rw [hl]; exact e⟩, fun _ => hl, fun e => absurd e hop, b, ?_⟩
    rw [hl]; exact c
  cases op with
  | binString =>
    simp only at h
    cases hsp : s.ga.attrs.spec with
    | binary gray gens =>
      rw [hsp] at h
      simp only at h
      obtain ⟨lvl, s1, h1, h2⟩ := bind_ok.mp h
      obtain ⟨e, rfl⟩ := liftE_ok.mp h1
      obtain ⟨_, s2, h3, h4⟩ := bind_ok.mp h2
      rw [modifyS_ok] at h3
      subst h3
      obtain ⟨⟨t, hp, e2⟩, b, c⟩ := mutLoop_ok hn h4
      have hl : s'.mutLvl = lvl := by rw [e2]
      refine ⟨⟨t, hp, by rw [hl]; exact e2⟩, fun h => absurd rfl h, fun _ => by rw [hl]; exact e, b, ?_⟩
      rw [hl]
      simp only [hsp] at c
      exact c
    | cat _ => rw [hsp] at h; simp only [throwE_ok] at h
    | orderCat _ _ _ => rw [hsp] at h; simp only [throwE_ok] at h
  | inversion => exact other (by decide) h
  | movement => exact other (by decide) h
  | shift => exact other (by decide) h
  | swap => exact other (by decide) h
  | categorical => exact other (by decide) h

theorem MutLvl.stored_exact (l : MutLvl) : l.stored .exact = l := by cases l <;> rfl

theorem MutLvl.effective_exact (l : MutLvl) : l.effective .exact = l := by
  cases l <;> simp [MutLvl.effective, Arith.exact, rndSamples]

end BaumEva
