import Verif.Props.Liveness
/-!
# C71-C73: what a run evaluates, and what it says about it
-/
namespace BaumEva
open Spec

/-- No call of the objective. -/
def SameCalls {σ : Type} (a b : St σ) : Prop := b.calls = a.calls

theorem sameCalls_quiet {σ : Type} : Quiet (SameCalls (σ := σ)) where
  step := ⟨fun _ => rfl, fun h1 h2 => h2.trans h1⟩
  tape := fun _ _ _ _ => rfl
  seeded := fun _ _ _ => rfl
  heap := fun _ _ _ => rfl
  ga := fun _ _ _ => rfl
  mutLvl := fun _ _ => rfl
  snaps := fun _ _ => rfl

theorem startUp_calls {σ : Type} {c : Cfg} {spec : PopSpec} {task : Task σ} {mutOp : MutOp} {s s0 : St σ} {p : Fit σ × Transfer}
    (h : startUp c spec task mutOp s = (.ok p, s0)) : s0.calls = s.calls := by
  unfold startUp at h
  unfold newGaData at h
  rw [bind_of_ok (modifyS_run _ _)] at h
  obtain ⟨_, s2, h2, h3⟩ := bind_ok.mp h
  have e2 : s2.calls = s.calls ∧ s2.ga.population = [] := by
    unfold newPopulation at h2
    obtain ⟨t, ht⟩ := reseed_ok h2
    rw [ht]; exact ⟨rfl, rfl⟩
  obtain ⟨_, s3, h4, h5⟩ := bind_ok.mp h3
  unfold setParams at h4
  rw [ite_run] at h4
  split at h4
  · rw [throwE_ok] at h4; exact h4.elim
  rename_i hlen
  rw [modGa_ok] at h4
  obtain ⟨fit, s4, h6, h7⟩ := bind_ok.mp h5
  have e4 : s4 = { s3 with conds := s4.conds } := by
    rcases (newFitness_ok h6).2 with ⟨_, _, e, _⟩ | ⟨_, _, cs, _, _, ⟨_, _, _, e⟩ | ⟨_, _, _, _, e⟩⟩
    · rw [e]
    · rw [e]
    · rw [e]
  obtain ⟨_, s5, h8, h9⟩ := bind_ok.mp h7
  unfold newMutation at h8
  obtain ⟨l, s5', g1, g2⟩ := bind_ok.mp h8
  obtain ⟨g3, rfl⟩ := liftE_ok.mp g1
  rw [bind_of_ok (getGa_run _), modifyS_ok] at g2
  obtain ⟨tr, s6, h10, h11⟩ := bind_ok.mp h9
  obtain ⟨htr, rfl⟩ := liftE_ok.mp h10
  obtain ⟨_, s0, h12, h13⟩ := bind_ok.mp h11
  obtain ⟨rfl, rfl⟩ := pure_ok.mp h13
  have hs6 : s6.ga.population = [] ∧ s6.ga.attrs.numIndivid = c.numIndivid := by
    rw [g2, e4, h4]; exact ⟨rfl, rfl⟩
  obtain ⟨_, _, _, _, _, _, _, _, _, _, _, _, b4, _⟩ := fill_ok hs6.1 (by rw [hs6.2]; omega) h12
  rw [b4, g2, e4, h4]
  exact e2.1

/-- A finished `optimize()` with everything known about its beginning. -/
theorem SingleFacade.run_full {f : SingleFacade} {c : Cfg} {ov : Option ℚ} {s s' : St ℚ} (h : f.optimize c ov s = (.ok (), s')) :
    ∃ (p : Fit ℚ × Transfer) (s0 sa sb : St ℚ) (k : Nat),
      newFitness (hyperbolaTask c.obj1 c.obj2 c.inputTruthy c.penalty ov c.arith) sa = (.ok p.1, sb) ∧ sa.conds = s.conds ∧
      Started f.spec c.numIndivid c.numGenerations c.input c.childrenPercent (some c.stop) c.arith s0 ∧ s0.calls = s.calls ∧
      After (f.ops c p) s0 k s' := by
  rw [f.optimize_eq] at h
  obtain ⟨p, s0, h1, h2⟩ := bind_ok.mp h
  obtain ⟨_, s1, h3, h4⟩ := bind_ok.mp h2
  obtain ⟨sa, sb, a1, a2, _, _, _, _, a7⟩ := startUp_ok h1
  obtain ⟨_, k, _, _, _, hk, _⟩ := evolve_after h3
  have he : s1 = s' := by
    split at h4
    · exact (printBest_state h4).symm
    · exact (pure_ok.mp h4).2.symm
  rw [he] at hk
  exact ⟨p, s0, sa, sb, k, a1, a2, a7, startUp_calls h1, hk⟩

/-- Individuals of a new population have the default entries. -/
theorem Started.cells {σ : Type} {spec : PopSpec} {n N : Nat} {input : Option (List (List Val))} {cp : ℚ} {es : Option Int}
    {s0 : St σ} (h : Started spec n N input cp es ar s0) : s0.ga.population.length = n ∧ s0.ga.attrs.numIndivid = n ∧
      s0.ga.attrs.isPhenotype = spec.hasPhenotype ∧
      ∀ r ∈ s0.ga.population, (s0.heap r).feasible = true := by
  obtain ⟨s1, hc⟩ := h.created
  obtain ⟨_, hd, hp, _, _, gs, hl, _, _, hg⟩ := createPopulation_ok hc
  refine ⟨by rw [hp, List.length_range'], hd.num, ?_, ?_⟩
  · have := hd.phen
    cases spec <;> simp_all [PopSpec.hasPhenotype]

  intro r hr
  rw [hp, List.mem_range'_1] at hr
  obtain ⟨p, e, _⟩ := hg (r - s1.next) gs[r - s1.next] (List.getElem?_eq_getElem (by omega))
  rw [show s1.next + (r - s1.next) = r by omega] at e
  rw [e]

/-! ## the ledger of a run -/

/-- `y` is `x` up to the bookkeeping entries, and shows the objective the same argument. -/
def SameResult {σ : Type} (b : Bool) (x y : Ind σ) : Prop :=
  y = { x with phenotype := y.phenotype, idx := y.idx, rank := y.rank } ∧ argument b y = argument b x

/-- A statement about evaluated individuals that does not look at the bookkeeping entries. -/
structure Verdict {σ : Type} (b : Bool) (T : Ind σ → Prop) : Prop where
  stable : ∀ x y, T x → SameResult b x y → T y
  scored : ∀ x, T x → x.score.isSome
  arg : ∀ x, T x → (argument b x).isSome

/-- `T` holds for what a fitness evaluation has just evaluated. -/
def Judges (fit : Fit ℚ) (b : Bool) (T : Ind ℚ → Prop) : Prop :=
  ∀ s s' : St ℚ, s.ga.attrs.isPhenotype = b → baseFitnessExec fit s = (.ok (), s') →
    (newMembers s.heap s.ga.population).Nodup → ∀ r ∈ s.ga.population, (s.heap r).score = none → (s.heap r).feasible = true →
    T (s'.heap r)

/-- Books of the run from `s0` after `k` generations. -/
structure Ledger (T : Ind ℚ → Prop) (b : Bool) (s0 s : St ℚ) (k : Nat) : Prop where
  attrs : s.ga.attrs = { s0.ga.attrs with isSorted := true }
  members : ∀ r ∈ s.ga.population, T (s.heap r)
  snaps : ∀ l ∈ s.snaps, ∀ x ∈ l, T x
  calls : ∃ gs, s.calls = s0.calls ++ gs ∧ gs.length = s0.ga.population.length + (k - 1) * numPairs s0.ga 1 ∧
    (∀ g ∈ gs, ∃ l ∈ s.snaps, ∃ x ∈ l, argument b x = some g) ∧
    (∀ r ∈ s.ga.population, ∃ g ∈ gs, argument b (s.heap r) = some g) ∧
    (∀ l ∈ s.snaps, ∀ x ∈ l, ∃ g ∈ gs, argument b x = some g)
  init : ∀ r ∈ s0.ga.population, ∃ l ∈ s.snaps, ∃ x ∈ l, x.genotype = (s0.heap r).genotype

section
variable {fit : Fit ℚ} {sel : SelOp} {op : CrossOp} {mop : MutOp} {tr : Transfer} {s0 : St ℚ} {T : Ind ℚ → Prop} {b : Bool}

theorem fitness_ledger (hT : Verdict b T) (hJ : Judges fit b T) {s s' : St ℚ} (hb : s.ga.attrs.isPhenotype = b)
    (hnd : (newMembers s.heap s.ga.population).Nodup)
    (hpre : ∀ r ∈ s.ga.population, ((s.heap r).score = none ∧ (s.heap r).feasible = true) ∨ T (s.heap r))
    (h : baseFitnessExec fit s = (.ok (), s')) :
    (∀ r ∈ s.ga.population, T (s'.heap r)) ∧
    (∀ r ∈ s.ga.population, T (s.heap r) → SameResult b (s.heap r) (s'.heap r)) ∧
    (∀ r, (s'.heap r).genotype = (s.heap r).genotype) ∧
    ∃ gs, s'.calls = s.calls ++ gs ∧ List.Forall₂ (fun r g => argument b (s'.heap r) = some g) (newMembers s.heap s.ga.population) gs := by
  obtain ⟨c1, _, c3, _, c5, c6, c7, _, _, _⟩ := C35_one_call_each h hnd
  rw [hb] at c1 c7
  have hsame : ∀ r ∈ s.ga.population, T (s.heap r) → SameResult b (s.heap r) (s'.heap r) := by
    intro r hr ht
    have e := c3 r hr (hT.scored _ ht)
    refine ⟨by rw [e], ?_⟩
    have ha := hT.arg _ ht
    unfold argument at ha ⊢
    cases b with
    | false => simpa using c5 r
    | true =>
      simp only [if_true] at ha ⊢
      obtain ⟨p, hp⟩ := Option.isSome_iff_exists.mp ha
      rw [c6 r p hp, hp]
  refine ⟨?_, hsame, c5, c1⟩
  intro r hr
  rcases hpre r hr with ⟨e1, e2⟩ | ht
  · exact hJ s s' hb h hnd r hr e1 e2
  · exact hT.stable _ _ ht (hsame r hr ht)

theorem ledger (h0 : Fresh s0) (hfe : ∀ r ∈ s0.ga.population, (s0.heap r).feasible = true) (hb : s0.ga.attrs.isPhenotype = b)
    (hT : Verdict b T) (hJ : Judges fit b T) {k : Nat} {s : St ℚ} (h : After (singleOps fit sel op mop tr) s0 k s) :
    Ledger T b s0 s k := by
  have hops := singleOps_run fit sel op mop tr
  induction h with
  | @first s1 s a c =>
    obtain ⟨_, hperm, hheap, hat, _, hS, _⟩ := first_inv hops.fitness h0 a c
    obtain ⟨d1, d2, d3, gs, d4, d5⟩ := fitness_ledger hT hJ hb (h0.distinct.sublist List.filter_sublist)
      (fun r hr => .inl ⟨h0.unscored r hr, hfe r hr⟩) a
    have hnew : newMembers s0.heap s0.ga.population = s0.ga.population := by
      unfold newMembers
      rw [List.filter_eq_self]
      intro r hr
      rw [h0.unscored r hr]; rfl
    rw [hnew] at d5
    have hsn : s.snaps = [s.ga.population.map s.heap] := by
      rw [gaUpdate_snaps c, hS.snaps, h0.snaps]; rfl
    have hcell : ∀ r ∈ s0.ga.population, s.heap r = s1.heap r := fun r hr => hheap r (h0.alive r hr)
    have hcalls : s.calls = s1.calls := (gaUpdate_frame sameCalls_quiet).ok c
    have hmem : ∀ r ∈ s.ga.population, T (s.heap r) := by
      intro r hr
      rw [hcell r (hperm.subset hr)]
      exact d1 r (hperm.subset hr)
    have hev : ∀ r ∈ s.ga.population, ∃ g ∈ gs, argument b (s.heap r) = some g := by
      intro r hr
      have hr0 := hperm.subset hr
      obtain ⟨i, hi, rfl⟩ := List.mem_iff_getElem.mp hr0
      have hi2 : i < gs.length := by rw [← d5.length_eq]; exact hi
      have := (List.forall₂_iff_get.mp d5).2 i hi hi2
      exact ⟨gs[i], List.getElem_mem _, by rw [hcell _ hr0]; simpa using this⟩
    refine ⟨hat, hmem, ?_, ⟨gs, by rw [hcalls, d4], by rw [← d5.length_eq]; simp, ?_, hev, ?_⟩, ?_⟩
    · intro l hl x hx
      rw [hsn, List.mem_singleton] at hl
      subst hl
      obtain ⟨r, hr, rfl⟩ := List.mem_map.mp hx
      exact hmem r hr
    · intro g hg
      obtain ⟨i, hi, rfl⟩ := List.mem_iff_getElem.mp hg
      have hi2 : i < s0.ga.population.length := by rw [d5.length_eq]; exact hi
      have := (List.forall₂_iff_get.mp d5).2 i hi2 hi
      have hm : s0.ga.population[i] ∈ s0.ga.population := List.getElem_mem _
      refine ⟨_, by rw [hsn]; exact List.mem_singleton.mpr rfl, s.heap s0.ga.population[i],
        List.mem_map.mpr ⟨_, hperm.symm.subset hm, rfl⟩, ?_⟩
      rw [hcell _ hm]
      simpa using this
    · intro l hl x hx
      rw [hsn, List.mem_singleton] at hl
      subst hl
      obtain ⟨r, hr, rfl⟩ := List.mem_map.mp hx
      exact hev r hr
    · intro r hr
      refine ⟨_, by rw [hsn]; exact List.mem_singleton.mpr rfl, s.heap r, List.mem_map.mpr ⟨r, hperm.symm.subset hr, rfl⟩, ?_⟩
      rw [hcell r hr]; exact d3 r
  | @next k s s' a c ih =>
    have hinv := a.inv hops h0
    have hkp := a.pos
    obtain ⟨_, hcp, _⟩ := (a.keeps sameSetup_frame (singleOps_keep fit sel op mop tr)).1
    obtain ⟨i1, i2, i3, ⟨gs, i4, i5, i6, i7, i9⟩, i8⟩ := ih
    have hsn := generation_snaps hops hinv c
    obtain ⟨_, s1, s2, s3, es, t, hB, hlen, hel, e2, e3, e4, hun, hfit, hF, hup, hperm, hheap, hat, _⟩ :=
      generation_inv hops hinv c
    obtain ⟨n0, hn0, hrange, hn1⟩ := hB.range
    have hp2 : s2.ga.population = s1.ga.children ++ es := by rw [e2]
    have hh2 : s2.heap = s1.heap := by rw [e2]
    have hat2 : s2.ga.attrs.isPhenotype = b := by
      rw [e2]
      simp only
      rw [hB.ga]
      simp only
      rw [i1]
      exact hb
    have hnm : newMembers s2.heap s2.ga.population = s1.ga.children := hun
    have hnd : (newMembers s2.heap s2.ga.population).Nodup := by
      rw [hnm, hrange]
      exact List.nodup_range'
    have hold : ∀ r ∈ es, T (s2.heap r) ∧ SameResult b (s.heap r) (s2.heap r) := by
      intro r hr
      have hm := hel.mem r hr
      have hcore := hB.core r (hinv.settled.alive r hm)
      have hsr : SameResult b (s.heap r) (s2.heap r) := by
        rw [hh2]
        refine ⟨?_, ?_⟩
        · rw [hcore.phenotype]; exact hcore
        · unfold argument; rw [hcore.genotype, hcore.phenotype]
      exact ⟨hT.stable _ _ (i2 r hm) hsr, hsr⟩
    obtain ⟨d1, d2, d3, gs', d4, d5⟩ := fitness_ledger hT hJ hat2 hnd (by
      intro r hr
      rw [hp2] at hr
      rcases List.mem_append.mp hr with hx | hx
      · left
        obtain ⟨r0, g0, hr0, hg0, hnew⟩ := hB.new
        obtain ⟨g, hcell, _⟩ := hnew r hx
        rw [hh2, hcell]
        exact ⟨rfl, rfl⟩
      · exact .inr (hold r hx).1) hfit
    have hlt : ∀ r ∈ s1.ga.children ++ es, r < s1.next := by
      intro r hr
      rcases List.mem_append.mp hr with hx | hx
      · rw [hrange, List.mem_range'_1] at hx; omega
      · have := hinv.settled.alive r (hel.mem r hx); omega
    have hcell : ∀ r ∈ s1.ga.children ++ es, s'.heap r = s3.heap r := fun r hr => hheap r (hlt r hr)
    have hmem : ∀ r ∈ s'.ga.population, T (s'.heap r) := by
      intro r hr
      have hr' := hperm.subset hr
      rw [hcell r hr']
      exact d1 r (by rw [hp2]; exact hr')
    have hcalls : s'.calls = s0.calls ++ (gs ++ gs') := by
      have e1 : s'.calls = s3.calls := (gaUpdate_frame sameCalls_quiet).ok hup
      have e5 : s2.calls = s.calls := by rw [e2]; exact hB.calls
      rw [e1, d4, e5, i4, List.append_assoc]
    have hpairs : numPairs s.ga 1 = numPairs s0.ga 1 := by
      unfold numPairs
      rw [hcp, i1]
    rw [hnm] at d5
    have hev : ∀ r ∈ s'.ga.population, ∃ g ∈ gs ++ gs', argument b (s'.heap r) = some g := by
      intro r hr
      have hr' := hperm.subset hr
      rw [hcell r hr']
      rcases List.mem_append.mp hr' with hx | hx
      · obtain ⟨i, hi, rfl⟩ := List.mem_iff_getElem.mp hx
        have hi2 : i < gs'.length := by rw [← d5.length_eq]; exact hi
        have := (List.forall₂_iff_get.mp d5).2 i hi hi2
        exact ⟨gs'[i], List.mem_append_right _ (List.getElem_mem _), by simpa using this⟩
      · obtain ⟨g, hg, e⟩ := i7 r (hel.mem r hx)
        obtain ⟨o1, o2⟩ := hold r hx
        have := d2 r (by rw [hp2]; exact hr') o1
        exact ⟨g, List.mem_append_left _ hg, by rw [this.2, o2.2]; exact e⟩
    refine ⟨hat.trans i1, hmem, ?_, ⟨gs ++ gs', hcalls, ?_, ?_, hev, ?_⟩, ?_⟩
    · intro l hl x hx
      rw [hsn, List.mem_append, List.mem_singleton] at hl
      rcases hl with hl | rfl
      · exact i3 l hl x hx
      · obtain ⟨r, hr, rfl⟩ := List.mem_map.mp hx
        exact hmem r hr
    · rw [List.length_append, i5, ← d5.length_eq, hlen, hpairs]
      obtain ⟨j, rfl⟩ : ∃ j, k = j + 1 := ⟨k - 1, by omega⟩
      simp only [Nat.add_sub_cancel]
      ring
    · intro g hg
      rcases List.mem_append.mp hg with hg | hg
      · obtain ⟨l, hl, hx⟩ := i6 g hg
        exact ⟨l, by rw [hsn]; exact List.mem_append_left _ hl, hx⟩
      · obtain ⟨i, hi, rfl⟩ := List.mem_iff_getElem.mp hg
        have hi2 : i < s1.ga.children.length := by rw [d5.length_eq]; exact hi
        have := (List.forall₂_iff_get.mp d5).2 i hi2 hi
        have hm : s1.ga.children[i] ∈ s1.ga.children ++ es := List.mem_append_left _ (List.getElem_mem _)
        refine ⟨_, by rw [hsn]; exact List.mem_append_right _ (List.mem_singleton.mpr rfl), s'.heap s1.ga.children[i],
          List.mem_map.mpr ⟨_, hperm.symm.subset hm, rfl⟩, ?_⟩
        rw [hcell _ hm]
        simpa using this
    · intro l hl x hx
      rw [hsn, List.mem_append, List.mem_singleton] at hl
      rcases hl with hl | rfl
      · obtain ⟨g, hg, e⟩ := i9 l hl x hx
        exact ⟨g, List.mem_append_left _ hg, e⟩
      · obtain ⟨r, hr, rfl⟩ := List.mem_map.mp hx
        exact hev r hr
    · intro r hr
      obtain ⟨l, hl, hx⟩ := i8 r hr
      exact ⟨l, by rw [hsn]; exact List.mem_append_left _ hl, hx⟩

end

/-! ## vocabulary -/

/-- What is minimised: the objective value, or its distance from the target value. -/
def cost (target : Option ℚ) (o : ℚ) : ℚ := match target with | none => o | some t => |t - o|

/-- The score of an individual with objective value `o` and penalty `pen`: `-(o + pen)`, or `1 / (1 + |t - o| + pen)`, every
operation carried out in the arithmetic `ar`. -/
def earned (ar : Arith) (target : Option ℚ) (o pen : ℚ) : ℚ :=
  match target with
  | none => -ar.rnd (o + pen)
  | some t => ar.rnd (1 / ar.rnd (ar.rnd (1 + |ar.rnd (t - o)|) + pen))

/-- Arguments of the objective calls made between two states. -/
def evaluated {σ : Type} (s s' : St σ) : List (List Val) := s'.calls.drop s.calls.length

/-- `optimize` of the facade treats the task as one with constraints. -/
def Constrained (c : Cfg) (conds : Option (List Cond)) : Prop := c.penalty.isSome ∧ 2 ≤ (conds.getD [.optimize]).length

theorem earned_le {target : Option ℚ} {o o' pen pen' : ℚ} (h : 0 ≤ pen) (h' : 0 ≤ pen') :
    earned .exact target o' pen' ≤ earned .exact target o pen ↔ cost target o + pen ≤ cost target o' + pen' := by
  cases target with
  | none => simp only [earned, cost, Arith.exact]; constructor <;> intro h <;> linarith
  | some t =>
    simp only [earned, cost, Arith.exact]
    have h1 := abs_nonneg (t - o)
    have h2 := abs_nonneg (t - o')
    rw [one_div_le_one_div (by linarith) (by linarith)]
    constructor <;> intro h <;> linarith

theorem Cfg.children_exact {c : Cfg} (h : c.arith = .exact) : c.children = ⌊c.childrenPercent * c.numIndivid⌋.toNat := by
  unfold Cfg.children
  rw [h, share_exact_one]

theorem hyperbolaR_earned {ar : Arith} {target : Option ℚ} {o pen sc : ℚ} (h : hyperbolaR ar.rnd target o pen = .ok sc) :
    sc = earned ar target o pen := by
  unfold hyperbolaR at h
  unfold earned
  cases target with
  | none => injection h with h; exact h.symm
  | some t =>
    simp only at h
    split at h
    · cases h
    · injection h with h; exact h.symm

theorem numPairs_children {σ : Type} {c : Cfg} {ga : GaData σ} (h1 : ga.attrs.numIndivid = c.numIndivid)
    (h2 : ga.childrenPercent = c.childrenPercent) (h3 : ga.attrs.arith = c.arith) : numPairs ga 1 = c.children := by
  rw [numPairs_share, h1, h2, h3]; rfl

/-! ## C71 -/

theorem evaluated_verdict (b : Bool) : Verdict b (fun x : Ind ℚ => x.score.isSome ∧ (argument b x).isSome) where
  stable := fun x y h e => ⟨by rw [e.1]; exact h.1, by rw [e.2]; exact h.2⟩
  scored := fun _ h => h.1
  arg := fun _ h => h.2

theorem evaluated_judges (fit : Fit ℚ) (b : Bool) : Judges fit b (fun x => x.score.isSome ∧ (argument b x).isSome) := by
  rintro s s' rfl h hnd r hr hs _
  obtain ⟨⟨gs, _, c1⟩, _, _, c4, _⟩ := C35_one_call_each h hnd
  refine ⟨c4 r hr, ?_⟩
  have hm : r ∈ newMembers s.heap s.ga.population := List.mem_filter.mpr ⟨hr, by simp [hs]⟩
  obtain ⟨i, hi, rfl⟩ := List.mem_iff_getElem.mp hm
  have hi2 : i < gs.length := by rw [← c1.length_eq]; exact hi
  have := (List.forall₂_iff_get.mp c1).2 i hi hi2
  simp only [List.get_eq_getElem] at this
  rw [this]; rfl

/-- The ledger of a finished `optimize()`. -/
theorem SingleFacade.ledger {f : SingleFacade} {c : Cfg} {s0 s' : St ℚ} {p : Fit ℚ × Transfer} {k : Nat} {T : Ind ℚ → Prop}
    (hst : Started f.spec c.numIndivid c.numGenerations c.input c.childrenPercent (some c.stop) c.arith s0)
    (hT : Verdict f.spec.hasPhenotype T) (hJ : Judges p.1 f.spec.hasPhenotype T) (h : After (f.ops c p) s0 k s') :
    Ledger T f.spec.hasPhenotype s0 s' k := by
  obtain ⟨_, _, hb, hfe⟩ := hst.cells
  exact BaumEva.ledger hst.fresh hfe hb hT hJ h

/-- C71: a finished `optimize()` has called the objective once for each of the `num_individ` initial individuals and
once for each child of each later generation, and not otherwise; every argument of a call belongs to an individual
of some generation and every individual of every generation was evaluated in this run. -/
theorem C71_budget {f : SingleFacade} {c : Cfg} {ov : Option ℚ} {s s' : St ℚ} (h : f.optimize c ov s = (.ok (), s')) :
    s'.calls = s.calls ++ evaluated s s' ∧
    (evaluated s s').length = c.numIndivid + (s'.ga.idxGeneration - 1) * c.children ∧
    (∀ g ∈ evaluated s s', ∃ l ∈ generationsOf s', ∃ x ∈ l, argument f.spec.hasPhenotype x = some g) ∧
    (∀ l ∈ generationsOf s', ∀ x ∈ l, ∃ g ∈ evaluated s s', argument f.spec.hasPhenotype x = some g) := by
  obtain ⟨p, s0, sa, sb, k, _, _, hst, hcalls, hk⟩ := f.run_full h
  obtain ⟨hlen, hnum, _, _⟩ := hst.cells
  obtain ⟨_, _, _, ⟨gs, l1, l2, l3, _, l4⟩, _⟩ := f.ledger hst (evaluated_verdict _) (evaluated_judges _ _) hk
  have hidx := (hk.inv (singleOps_run p.1 (.tournament c.tournamentSize) f.cross f.mutOp p.2) hst.fresh).hist.idx
  have he : evaluated s s' = gs := by unfold evaluated; rw [l1, hcalls, List.drop_left]
  rw [he]
  refine ⟨by rw [l1, hcalls], ?_, l3, l4⟩
  rw [l2, hlen, numPairs_children hnum hst.percent hst.arith, hidx]

/-- C71, the bound in terms of the parameters, reached when there is no early stop. -/
theorem C71_bound {f : SingleFacade} {c : Cfg} {ov : Option ℚ} {s s' : St ℚ} (h : f.optimize c ov s = (.ok (), s')) :
    (evaluated s s').length ≤ c.numIndivid + (c.numGenerations - 1) * c.children ∧
    (c.earlyStop = none → (evaluated s s').length = c.numIndivid + (c.numGenerations - 1) * c.children) := by
  obtain ⟨_, h1, _, _⟩ := C71_budget h
  obtain ⟨h2, h3, h4, _⟩ := C46_facades h
  constructor
  · rw [h1]
    have : s'.ga.idxGeneration - 1 ≤ c.numGenerations - 1 := by omega
    exact Nat.add_le_add_left (Nat.mul_le_mul_right _ this) _
  · intro he
    rw [h1, h4 he]
    congr 2
    omega

set_option maxRecDepth 100000 in
example : (evaluated { tape := exTape } exRun.2).length = 8 ∧ exCfg.children = 2 ∧ exRun.2.ga.idxGeneration = 3 := by decide +kernel

/-! ## C72: unconstrained tasks -/

/-- The entries of an individual are what the objective says. -/
def Truthful (c : Cfg) (target : Option ℚ) (b : Bool) (x : Ind ℚ) : Prop :=
  ∃ g o, argument b x = some g ∧ c.objective g = .ok (.sc o) ∧ x.objScore = some (.sc o) ∧
    x.score = some (earned c.arith target o 0)

theorem truthful_verdict (c : Cfg) (target : Option ℚ) (b : Bool) : Verdict b (Truthful c target b) where
  stable := by
    rintro x y ⟨g, o, h1, h2, h3, h4⟩ e
    exact ⟨g, o, e.2.trans h1, h2, by rw [e.1]; exact h3, by rw [e.1]; exact h4⟩
  scored := by rintro x ⟨g, o, _, _, _, h⟩; rw [h]; rfl
  arg := by rintro x ⟨g, o, h, _⟩; rw [h]; rfl

theorem truthful_judges {c : Cfg} {ov : Option ℚ} {fit : Fit ℚ} {sa sb : St ℚ}
    (hf : newFitness (hyperbolaTask c.obj1 c.obj2 c.inputTruthy c.penalty ov c.arith) sa = (.ok fit, sb)) (hn : ¬ Constrained c sa.conds) (b : Bool) :
    Judges fit b (Truthful c ov b) := by
  obtain ⟨ht, hc⟩ := newFitness_ok hf
  have hc' : fit.isCond = false := by
    rcases hc with h | ⟨_, ⟨p, hp⟩, cs, h1, h2, _⟩
    · exact h.1
    · exfalso
      refine hn ⟨?_, by rw [h1]; exact h2⟩
      change c.penalty = some p at hp
      rw [hp]; rfl
  rintro s s' rfl h hnd r hr hs _
  obtain ⟨g, o, sc, h1, h2, h3, h4, h5⟩ := evaluated_score (ar := c.arith) (objValue := ov) h hnd (by rw [ht]; rfl) (by rw [ht]; rfl) hc' hr hs
  refine ⟨g, o, h1, ?_, h3, ?_⟩
  · rw [ht] at h2
    unfold Cfg.objective
    rw [ite_apply]; exact h2
  · rw [h4, hyperbolaR_earned h5]

/-- C72: in an unconstrained run every individual of every generation carries the objective value of its own point
and the score that belongs to it. -/
theorem C72_truthful {f : SingleFacade} {c : Cfg} {ov : Option ℚ} {s s' : St ℚ} (hn : ¬ Constrained c s.conds)
    (h : f.optimize c ov s = (.ok (), s')) : ∀ l ∈ generationsOf s', ∀ x ∈ l, Truthful c ov f.spec.hasPhenotype x := by
  obtain ⟨p, s0, sa, sb, k, hf, hcs, hst, hcalls, hk⟩ := f.run_full h
  exact (f.ledger hst (truthful_verdict _ _ _) (truthful_judges hf (by rw [hcs]; exact hn) _) hk).snaps

/-- The best solution is the content of an individual of some generation, and nobody scored higher. -/
theorem best_in_generations {f : SingleFacade} {c : Cfg} {s0 s' : St ℚ} {p : Fit ℚ × Transfer} {k : Nat} (h0 : Fresh s0)
    (hk : After (f.ops c p) s0 k s') :
    ∃ b gen v, s'.ga.best = some (.single b gen) ∧ (s'.heap b).score = some v ∧ (∃ l ∈ s'.snaps, s'.heap b ∈ l) ∧
      ∀ l ∈ s'.snaps, ∀ x ∈ l, ∃ w, x.score = some w ∧ w ≤ v := by
  have hops := singleOps_run p.1 (.tournament c.tournamentSize) f.cross f.mutOp p.2
  obtain ⟨b, gen, v, h1, h2, h3, ⟨l, h4, h5⟩, h6⟩ := C42_best_of_history h0 hk
  refine ⟨b, gen, v, h1, h2, ⟨l, List.mem_of_getElem? ((snap_generations hops h0 hk h3 l).mp h4), h5⟩, ?_⟩
  intro l' hl' x hx
  obtain ⟨i, hi⟩ := List.getElem?_of_mem hl'
  have hik : i < k := by
    have := (List.getElem?_eq_some_iff.mp hi).1
    rw [(hk.inv hops h0).hist.snaps] at this
    exact this
  obtain ⟨w, e1, e2, _⟩ := h6 i l' hik ((snap_generations hops h0 hk hik l').mpr hi) x hx
  exact ⟨w, e1, e2⟩

/-- In an unconstrained run `best_solution` is a point the objective was called with in this run, `obj_score` is the value the
objective has there, and no point evaluated in the run earned a higher score. -/
theorem best_earned {f : SingleFacade} {c : Cfg} {ov : Option ℚ} {s s' : St ℚ} (hn : ¬ Constrained c s.conds)
    (h : f.optimize c ov s = (.ok (), s')) :
    ∃ b gen g o, s'.ga.best = some (.single b gen) ∧ argument f.spec.hasPhenotype (s'.heap b) = some g ∧
      g ∈ evaluated s s' ∧ c.objective g = .ok (.sc o) ∧ (s'.heap b).objScore = some (.sc o) ∧
      ∀ g' ∈ evaluated s s', ∃ o', c.objective g' = .ok (.sc o') ∧ earned c.arith ov o' 0 ≤ earned c.arith ov o 0 := by
  obtain ⟨_, _, m1, m2⟩ := C71_budget h
  have htr := C72_truthful hn h
  obtain ⟨p, s0, sa, sb, k, hf, hcs, hst, hcalls, hk⟩ := f.run_full h
  obtain ⟨b, gen, v, h1, h2, ⟨l, h3, h4⟩, h5⟩ := best_in_generations hst.fresh hk
  obtain ⟨g, o, a1, a2, a3, a4⟩ := htr l h3 _ h4
  obtain ⟨g1, a5, a6⟩ := m2 l h3 _ h4
  rw [a1] at a6
  injection a6 with a6
  subst a6
  refine ⟨b, gen, g, o, h1, a1, a5, a2, a3, ?_⟩
  intro g' hg'
  obtain ⟨l', hl', x, hxl, e1⟩ := m1 g' hg'
  obtain ⟨g2, o', b1, b2, _, b4⟩ := htr l' hl' x hxl
  rw [e1] at b1
  injection b1 with b1
  subst b1
  refine ⟨o', b2, ?_⟩
  obtain ⟨w, e2, e3⟩ := h5 l' hl' x hxl
  rw [b4] at e2
  rw [h2] at a4
  injection e2 with e2
  injection a4 with a4
  rw [← e2, a4] at e3
  exact e3

/-- C72: in an unconstrained run `best_solution` is a point the objective was called with in this run, `obj_score` is
the value the objective has there, and no point evaluated in the run is better. -/
theorem C72_best_of_all {f : SingleFacade} {c : Cfg} {ov : Option ℚ} {s s' : St ℚ} (hx : c.arith = .exact) (hn : ¬ Constrained c s.conds)
    (h : f.optimize c ov s = (.ok (), s')) :
    ∃ b gen g o, s'.ga.best = some (.single b gen) ∧ argument f.spec.hasPhenotype (s'.heap b) = some g ∧
      g ∈ evaluated s s' ∧ c.objective g = .ok (.sc o) ∧ (s'.heap b).objScore = some (.sc o) ∧
      ∀ g' ∈ evaluated s s', ∃ o', c.objective g' = .ok (.sc o') ∧ cost ov o ≤ cost ov o' := by
  obtain ⟨b, gen, g, o, h1, h2, h3, h4, h5, h6⟩ := best_earned hn h
  refine ⟨b, gen, g, o, h1, h2, h3, h4, h5, fun g' hg' => ?_⟩
  obtain ⟨o', e1, e2⟩ := h6 g' hg'
  rw [hx] at e2
  have := (earned_le le_rfl le_rfl).mp e2
  exact ⟨o', e1, by linarith⟩

example : ¬ Constrained exCfg (none : Option (List Cond)) := by unfold Constrained; decide

example : ∃ b gen g o, exRun.2.ga.best = some (.single b gen) ∧ argument false (exRun.2.heap b) = some g ∧
    g ∈ evaluated { tape := exTape } exRun.2 ∧ exCfg.objective g = .ok (.sc o) ∧ (exRun.2.heap b).objScore = some (.sc o) ∧
    ∀ g' ∈ evaluated { tape := exTape } exRun.2, ∃ o', exCfg.objective g' = .ok (.sc o') ∧ cost none o ≤ cost none o' :=
  C72_best_of_all (f := exFacade) rfl (by unfold Constrained; decide) exRun_eq

/-! ## C73: a warm start pays -/

/-- C73: individuals supplied to the categorical and combinatory facades are evaluated, so the best solution is at
least as good as each of them. -/
theorem C73_warm_start {f : SingleFacade} {c : Cfg} {ov : Option ℚ} {s s' : St ℚ} {input : List (List Val)}
    (hf : ∀ gray gens, f ≠ .binary gray gens) (hi : c.input = some input) (h : f.optimize c ov s = (.ok (), s')) :
    ∀ x ∈ input, x ∈ evaluated s s' := by
  obtain ⟨_, _, _, m2⟩ := C71_budget h
  obtain ⟨p, s0, sa, sb, k, _, hcs, hst, hcalls, hk⟩ := f.run_full h
  have hl := (f.ledger hst (evaluated_verdict _) (evaluated_judges _ _) hk).init
  intro x hx
  obtain ⟨s1, hcr⟩ := hst.created
  rw [hi] at hcr
  obtain ⟨_, hc⟩ := C11_input_adopted (by cases f <;> simp_all [SingleFacade.spec]) hcr
  obtain ⟨i, hix⟩ := List.getElem?_of_mem hx
  obtain ⟨r, hr, hg⟩ := hc i x hix
  obtain ⟨l, hl, y, hy, e⟩ := hl r (List.mem_of_getElem? hr)
  obtain ⟨g, hg', ha⟩ := m2 l hl y hy
  have hb : f.spec.hasPhenotype = false := by cases f <;> simp_all [SingleFacade.spec, PopSpec.hasPhenotype]
  rw [hb] at ha
  unfold argument at ha
  rw [if_neg (by simp), e, hg] at ha
  injection ha with ha
  rw [ha]; exact hg'

theorem Prepared.same {a b : Attrs} {gray : Bool} {gens : List BinGene} (hab : b.arith = a.arith) (ha : Prepared a gray gens) (hb : Prepared b gray gens) :
    b.params = a.params ∧ b.idxBits = a.idxBits := by
  obtain ⟨o1, e1, e2⟩ := ha.ok
  obtain ⟨o2, e3, e4⟩ := hb.ok
  rw [hab, e1] at e3
  injection e3 with e3
  injection e3 with e3 e5
  exact ⟨e3.symm, by rw [e2, e4, e5]⟩

/-- C73 for `BinaryGA`: a supplied individual is evaluated after rounding to the grid, i.e. at a point at most half a
grid step away in each coordinate (and at the point itself if it lies on the grid). -/
theorem C73_warm_start_binary {c : Cfg} {gray : Bool} {gens : List BinGene} {ov : Option ℚ} {s s' : St ℚ} {input : List (List Val)}
    (hx' : c.arith = .exact) (hg : Proper gens) (hi : c.input = some input) (h : binaryGA c gray gens ov s = (.ok (), s')) :
    ∃ at_, Prepared at_ gray gens ∧ ∀ x ∈ input, List.Forall₂ InGene gens x → ∃ y ∈ evaluated s s',
      (∀ (k : Nat) (g : BinGene) (p : GeneParams) (q : ℚ), gens[k]? = some g → at_.params[k]? = some p →
        x[k]? = some (.num q) → ∃ q' : ℚ, y[k]? = some (.num q') ∧ |q' - q| ≤ (|g.hi - g.lo| / (2 ^ p.numBits - 1)) / 2) ∧
      ∀ geno, IsBits geno → geno.length = at_.idxBits.getLastD 0 → decodeIndivid at_ geno = .ok x → y = x := by
  have h' : (SingleFacade.binary gray gens).optimize c ov s = (.ok (), s') := h
  obtain ⟨_, _, _, m2⟩ := C71_budget h'
  obtain ⟨at_, hprep, har, hwf⟩ := C48_binary hg h
  obtain ⟨p, s0, sa, sb, k, _, hcs, hst, hcalls, hk⟩ := SingleFacade.run_full h'
  have hl := (SingleFacade.ledger hst (evaluated_verdict _) (evaluated_judges _ _) hk).init
  obtain ⟨s1, hcr⟩ := hst.created
  have hprep0 := (C10_fill_binary hcr).1
  rw [hi] at hcr
  obtain ⟨_, hc⟩ := C11_input_encoded hcr
  obtain ⟨hpar, _⟩ := Prepared.same ((hst.arith).trans har.symm) hprep hprep0
  refine ⟨at_, hprep, ?_⟩
  intro x hx hin
  obtain ⟨i, hix⟩ := List.getElem?_of_mem hx
  obtain ⟨r, bits, hr, hbits, henc⟩ := hc i x hix
  rw [hpar] at henc
  obtain ⟨geno, ys, n1, n2, n3, n4, n5⟩ := C07_encode_nearest hprep (har.trans hx') hg hin
  have hadopt : adopt at_ x = .ok bits := by
    unfold adopt
    rw [hprep.spec]
    simp only
    rw [har, ← hst.arith]
    exact henc
  rw [hadopt] at n1
  injection n1 with n1
  subst n1
  obtain ⟨l, hl, y, hy, e⟩ := hl r (List.mem_of_getElem? hr)
  obtain ⟨g, ph, w1, w2, _, _, w5, _⟩ := hwf l hl y hy
  rw [e, hbits] at w1
  injection w1 with w1
  subst w1
  rw [n4] at w5
  injection w5 with w5
  subst w5
  obtain ⟨g, hg', ha⟩ := m2 l hl y hy
  have ha' : y.phenotype = some g := ha
  rw [w2] at ha'
  injection ha' with ha'
  subst ha'
  refine ⟨ys, hg', n5, ?_⟩
  intro geno d1 d2 d3
  have := C06_decode_encode_identity hprep (har.trans hx') hg d1 d2 d3
  rw [hadopt] at this
  injection this with this
  subst this
  rw [n4] at d3
  injection d3

/-- C73: in an unconstrained run of the categorical or combinatory facade the best solution is at least as good as
every supplied individual. -/
theorem C73_no_worse_than_input {f : SingleFacade} {c : Cfg} {ov : Option ℚ} {s s' : St ℚ} {input : List (List Val)}
    (hx : c.arith = .exact) (hf : ∀ gray gens, f ≠ .binary gray gens) (hn : ¬ Constrained c s.conds) (hi : c.input = some input)
    (h : f.optimize c ov s = (.ok (), s')) :
    ∃ b gen o, s'.ga.best = some (.single b gen) ∧ (s'.heap b).objScore = some (.sc o) ∧
      ∀ x ∈ input, ∃ o', c.objective x = .ok (.sc o') ∧ cost ov o ≤ cost ov o' := by
  obtain ⟨b, gen, g, o, h1, _, _, _, h2, h3⟩ := C72_best_of_all hx hn h
  exact ⟨b, gen, o, h1, h2, fun x hx => h3 x (C73_warm_start hf hi h x hx)⟩

/-- A run of `exCfg` with two supplied individuals. -/
def exWarmCfg : Cfg := { exCfg with input := some [[.num 1, .num 0, .num 2], [.num 9, .num 9, .num 9]] }

set_option maxRecDepth 100000 in
example : succeeded (exFacade.optimize exWarmCfg none { tape := exTape }) = true ∧
    [Val.num 1, .num 0, .num 2] ∈ (exFacade.optimize exWarmCfg none { tape := exTape }).2.calls := by decide +kernel

/-- A binary run with one supplied individual between grid points (the grid is 0, 1, 2, 3). -/
def exWarmBinary : Except PyErr Unit × St ℚ :=
  (SingleFacade.binary true [⟨0, 3, 1⟩, ⟨0, 3, 1⟩]).optimize { exSumCfg with input := some [[.num (9 / 4), .num 0]] } none { tape := exTape }

set_option maxRecDepth 100000 in
example : exWarmBinary.1 = .ok () ∧ exWarmBinary.2.calls.head? = some [.num 2, .num 0] := by decide +kernel

/-! ## C74: constrained tasks -/

/-- The entries of an individual in a run with conditions `cs`: the objective value is the entry at the position of
`'optimize'`, the flag says whether the constraints hold, the score charges some penalty. -/
def Judged (c : Cfg) (cs : List Cond) (p : Penalty) (target : Option ℚ) (b : Bool) (x : Ind ℚ) : Prop :=
  ∃ g vs v pen, argument b x = some g ∧ c.objective g = .ok (.tup vs) ∧ vs[cs.idxOf .optimize]? = some v ∧
    x.objScore = some (.sc v) ∧ (x.feasible = true ↔ Satisfies cs vs) ∧ x.score = some (earned c.arith target v pen) ∧
    (Rounding c.arith.rnd → PositivePenalty p → KnownSigns (cs.filter fun k => k ≠ .optimize) → 0 ≤ pen ∧ (x.feasible = true → pen = 0))

theorem judged_verdict (c : Cfg) (cs : List Cond) (p : Penalty) (target : Option ℚ) (b : Bool) : Verdict b (Judged c cs p target b) where
  stable := by
    rintro x y ⟨g, vs, v, pen, h1, h2, h3, h4, h5, h6, h7⟩ e
    have hf : y.feasible = x.feasible := by rw [e.1]
    exact ⟨g, vs, v, pen, e.2.trans h1, h2, h3, by rw [e.1]; exact h4, by rw [hf]; exact h5, by rw [e.1]; exact h6,
      by rw [hf]; exact h7⟩
  scored := by rintro x ⟨g, vs, v, pen, _, _, _, _, _, h, _⟩; rw [h]; rfl
  arg := by rintro x ⟨g, vs, v, pen, h, _⟩; rw [h]; rfl

/-- Penalties charge nothing for satisfied constraints and never pay. -/
theorem positive_pen {ar : Arith} (R : Rounding ar.rnd) {p : Penalty} {ks : List Cond} {vs : List ℚ} {gen : Nat} {best : BestArg} {pen : ℚ}
    (hp : PositivePenalty p) (hk : KnownSigns ks) (h : p.value ar ks vs gen best = .ok pen) : 0 ≤ pen ∧ (AllHold ks vs → pen = 0) := by
  rcases hp with ⟨δ, c, α, β, h1, h2, h3, h4, rfl⟩ | ⟨δ, b1, b2, β, h1, h2, h3⟩
  · by_cases hl : ks.length = vs.length
    · obtain ⟨t, ht, h0, hz⟩ := sumCond_sign R h4 hk hl le_rfl
      rw [dynamic_value gen best hl ht] at h
      injection h with h
      have hw : 0 ≤ ar.rnd (δ * α.pow ar (ar.rnd (c * gen))) :=
        R.nonneg (mul_nonneg h1.le (growing_at h3.toGrowingPower R (R.nonneg (by positivity))))
      refine ⟨by rw [← h]; exact R.nonneg (mul_nonneg hw h0), ?_⟩
      intro ha
      rw [← h, hz.mpr ⟨rfl, ha⟩, mul_zero, R.zero]
    · rw [C37_dynamic_rejects _ _ (.inl hl)] at h; simp at h
  · obtain ⟨rfl, g1, g2⟩ := newAdaptive_ok h3
    unfold Penalty.value at h
    rw [if_neg (show ¬ "AdaptivePenalty" = "DynamicPenalty" by decide), if_pos rfl] at h
    unfold PenImpl.execute at h
    simp only at h
    split at h
    · simp at h
    split at h
    · simp at h
    rename_i hl
    rw [not_not] at hl
    obtain ⟨t, ht, h0, hz⟩ := sumCond_sign R h2 hk hl le_rfl
    rw [ht] at h
    simp only [bind, Except.bind, pure, Except.pure] at h
    have e1 : 0 < b1 := by linarith
    have e2 : 0 < b2 := by linarith
    have h10 : (0 : ℚ) ≤ 10 := by norm_num
    have key : ∀ w : ℚ, 0 ≤ w → 0 ≤ ar.rnd (ar.rnd (δ * w) * t) ∧ (AllHold ks vs → ar.rnd (ar.rnd (δ * w) * t) = 0) := by
      intro w hw
      refine ⟨R.nonneg (mul_nonneg (R.nonneg (mul_nonneg h1.le hw)) h0), fun ha => ?_⟩
      rw [hz.mpr ⟨rfl, ha⟩, mul_zero, R.zero]
    split at h
    · split at h
      · injection h with h
        rw [← h]
        exact key _ (R.nonneg (mul_nonneg (R.nonneg (div_pos one_pos e1).le) h10))
      · injection h with h
        rw [← h]
        exact key _ (R.nonneg (mul_nonneg e2.le h10))
      · simp at h
      · simp at h
    · injection h with h
      rw [← h]
      exact key 0 le_rfl

theorem judged_judges {c : Cfg} {ov : Option ℚ} {fit : Fit ℚ} {sa sb : St ℚ} {p : Penalty} {cs : List Cond}
    (hf : newFitness (hyperbolaTask c.obj1 c.obj2 c.inputTruthy c.penalty ov c.arith) sa = (.ok fit, sb)) (hp : c.penalty = some p)
    (hcs : sa.conds = some cs) (hlen : 2 ≤ cs.length) (hone : cs.count .optimize = 1) (b : Bool) :
    Judges fit b (Judged c cs p ov b) := by
  obtain ⟨ht, hc⟩ := newFitness_ok hf
  have hc' : fit.isCond = true ∧ fit.idxOpt = [cs.idxOf .optimize] := by
    rcases hc with ⟨_, _, _, h | h⟩ | ⟨h, _, cs', e, _, ⟨hm, _⟩ | ⟨_, _, _, hi, _⟩⟩
    · change c.penalty = none at h
      rw [hp] at h; simp at h
    · rw [hcs] at h; simp at h; omega
    · simp [hyperbolaTask] at hm
    · rw [hcs] at e
      injection e with e
      subst e
      exact ⟨h, hi⟩
  obtain ⟨hcond, hidx⟩ := conditional_split hf hc'.1 hcs (fun _ => hone)
  rintro s s' rfl h hnd r hr hs hfe
  obtain ⟨_, _, _, _, a6⟩ := baseFitness_ok h hnd
  obtain ⟨m, ba, hd, _, hev⟩ := a6 r (List.mem_filter.mpr ⟨hr, by simp [hs]⟩)
  obtain ⟨g, ret, vals, pen, sc, h1, h2, h3, h4, h5, h6⟩ := hev.hyperbola (ar := c.arith) (objValue := ov) (by rw [ht]; rfl) (by rw [ht]; rfl)
  rcases h6 with ⟨h6, _⟩ | ⟨_, vs, pr, p', rfl, y1, y2, y3, y4, y5, y6⟩
  · rw [hc'.1] at h6; simp at h6
  have hpp : p' = p := by
    rw [ht] at y5
    change c.penalty = some p' at y5
    rw [hp] at y5
    injection y5 with y5
    exact y5.symm
  subst hpp
  have hret : ret = .tup vs := by
    unfold checkInput at h3
    rw [hc'.1, if_pos rfl] at h3
    cases ret with
    | sc q => simp at h3
    | tup l =>
      have h3' : (if l.length = fit.conditions.length + 1 then Except.ok (some (Ret.tup l)) else Except.error PyErr.exception) =
          Except.ok (some (Ret.tup vs)) := by simpa using h3
      by_cases hl : l.length = fit.conditions.length + 1
      · rw [if_pos hl] at h3'
        injection h3' with h3'
        injection h3'
      · rw [if_neg hl] at h3'
        cases h3'
  subst hret
  have hval : vs[cs.idxOf .optimize]? = some (pr.1.headD 0) := by
    rw [hc'.2] at y1
    unfold popAll at y1
    split at y1
    · simp at y1
    · rename_i v hv
      simp only [popAll, bind, Except.bind, pure, Except.pure] at y1
      injection y1 with y1
      rw [hv, ← y1]; rfl
  have hmf : m.feasible = true := by rw [hd.keeps]; exact hfe
  have hfeas : (s'.heap r).feasible = true ↔ Satisfies cs vs := by
    rw [y4, hmf, Bool.true_and]
    rw [hidx] at y1
    rw [hcond, zip_opt (popAll_opt cs vs y1).2, all_zip_iff]
  refine ⟨g, vs, pr.1.headD 0, pen, h1, ?_, hval, y2, hfeas, ?_, ?_⟩
  · rw [ht] at h2
    unfold Cfg.objective
    rw [ite_apply]; exact h2
  · rw [h4]
    unfold BaumEva.hyperbola at h5
    rw [y2] at h5
    rw [hyperbolaR_earned h5]
  · intro R hpos hk
    rw [← hcond] at hk
    obtain ⟨q1, q2⟩ := positive_pen (ar := fit.task.arith) (by rw [ht]; exact R) hpos hk y6
    refine ⟨q1, fun hx => q2 ?_⟩
    rw [y4, Bool.and_eq_true, List.all_eq_true] at hx
    intro q hq
    exact (condHolds_iff _ _).mp (hx.2 q hq)

/-- C74: in a run with constraints every individual of every generation, and `best_solution`, carries the objective
value of its own point and a flag that says whether the values returned there satisfy the conditions. -/
theorem C74_truthful {f : SingleFacade} {c : Cfg} {ov : Option ℚ} {s s' : St ℚ} {p : Penalty} {cs : List Cond} (hp : c.penalty = some p)
    (hcs : s.conds = some cs) (hlen : 2 ≤ cs.length) (hone : cs.count .optimize = 1) (h : f.optimize c ov s = (.ok (), s')) :
    (∀ l ∈ generationsOf s', ∀ x ∈ l, Judged c cs p ov f.spec.hasPhenotype x) ∧
    ∃ b gen, s'.ga.best = some (.single b gen) ∧ Judged c cs p ov f.spec.hasPhenotype (s'.heap b) := by
  obtain ⟨q, s0, sa, sb, k, hf, hsa, hst, hcalls, hk⟩ := f.run_full h
  have hl := (f.ledger hst (judged_verdict _ _ _ _ _) (judged_judges hf hp (by rw [hsa]; exact hcs) hlen hone _) hk).snaps
  obtain ⟨b, gen, v, h1, h2, ⟨l, h3, h4⟩, h5⟩ := best_in_generations hst.fresh hk
  exact ⟨hl, b, gen, h1, hl l h3 _ h4⟩

/-- C74, the full claim: if a point satisfying all constraints was evaluated, the best solution satisfies them. -/
def BestFeasible : Prop :=
  ∀ (f : SingleFacade) (c : Cfg) (ov : Option ℚ) (s s' : St ℚ) (p : Penalty) (cs : List Cond), c.penalty = some p → PositivePenalty p →
    s.conds = some cs → 2 ≤ cs.length → cs.count .optimize = 1 → KnownSigns (cs.filter fun k => k ≠ .optimize) →
    f.optimize c ov s = (.ok (), s') → (∃ l ∈ generationsOf s', ∃ x ∈ l, x.feasible = true) →
    ∃ b gen, s'.ga.best = some (.single b gen) ∧ (s'.heap b).feasible = true

/-- The sum of three digits is to be minimised and to be at least eight. -/
def exTrapCfg : Cfg := { exCfg with obj1 := fun x => .ok (.tup [sumNums x, 8 - sumNums x]), penalty := some (newDynamic 1 1 1 2) }

def exTrap : Except PyErr Unit × St ℚ := exFacade.optimize exTrapCfg none { tape := exTape, conds := some [.optimize, .le] }

set_option maxRecDepth 100000 in
theorem exTrap_facts : exTrap.1 = .ok () ∧ (∃ l ∈ exTrap.2.snaps, ∃ x ∈ l, x.feasible = true) ∧
    (match exTrap.2.ga.best with | some (.single b _) => (exTrap.2.heap b).feasible | _ => true) = false := by decide +kernel

/-- C74 is false: in generation 0 no penalty is charged, so an infeasible individual can become the best solution and
stay it although feasible individuals are found. -/
theorem C74_best_feasible_refuted : ¬ BestFeasible := by
  intro h
  obtain ⟨h1, h2, h3⟩ := exTrap_facts
  have he : exFacade.optimize exTrapCfg none { tape := exTape, conds := some [.optimize, .le] } = (.ok (), exTrap.2) := by
    rw [← h1]; rfl
  obtain ⟨b, gen, e1, e2⟩ := h exFacade exTrapCfg none _ _ _ [.optimize, .le] rfl
    (.inl ⟨1, 1, 1, 2, by norm_num, by norm_num, positive_nat le_rfl, positive_nat (by norm_num), rfl⟩) rfl (by simp) (by decide)
    (by unfold KnownSigns; decide) he h2
  rw [e1] at h3
  simp only at h3
  rw [e2] at h3
  simp at h3

/-- C74, what is true: no feasible point evaluated in the run is better than `best_solution`; in particular, if
`best_solution` is feasible it is the best of all feasible points evaluated. -/
theorem C74_best_of_feasible_partial {f : SingleFacade} {c : Cfg} {ov : Option ℚ} {s s' : St ℚ} {p : Penalty} {cs : List Cond}
    (hx' : c.arith = .exact)
    (hp : c.penalty = some p) (hpos : PositivePenalty p) (hcs : s.conds = some cs) (hlen : 2 ≤ cs.length)
    (hone : cs.count .optimize = 1) (hk : KnownSigns (cs.filter fun k => k ≠ .optimize)) (h : f.optimize c ov s = (.ok (), s')) :
    ∃ b gen g vs v, s'.ga.best = some (.single b gen) ∧ argument f.spec.hasPhenotype (s'.heap b) = some g ∧
      g ∈ evaluated s s' ∧ c.objective g = .ok (.tup vs) ∧ vs[cs.idxOf .optimize]? = some v ∧ (s'.heap b).objScore = some (.sc v) ∧
      ((s'.heap b).feasible = true ↔ Satisfies cs vs) ∧
      ∀ g' ∈ evaluated s s', ∃ vs', c.objective g' = .ok (.tup vs') ∧
        (Satisfies cs vs' → ∃ v', vs'[cs.idxOf .optimize]? = some v' ∧ cost ov v ≤ cost ov v') := by
  obtain ⟨_, _, m1, m2⟩ := C71_budget h
  have htr := (C74_truthful hp hcs hlen hone h).1
  obtain ⟨q, s0, sa, sb, k, hf, hsa, hst, hcalls, hk'⟩ := f.run_full h
  obtain ⟨b, gen, w, h1, h2, ⟨l, h3, h4⟩, h5⟩ := best_in_generations hst.fresh hk'
  obtain ⟨g, vs, v, pen, a1, a2, a3, a4, a5, a6, a7⟩ := htr l h3 _ h4
  obtain ⟨g1, c5, c6⟩ := m2 l h3 _ h4
  rw [a1] at c6
  injection c6 with c6
  subst c6
  refine ⟨b, gen, g, vs, v, h1, a1, c5, a2, a3, a4, a5, ?_⟩
  intro g' hg'
  obtain ⟨l', hl', x, hx, e1⟩ := m1 g' hg'
  obtain ⟨g2, vs', v', pen', b1, b2, b3, b4, b5, b6, b7⟩ := htr l' hl' x hx
  rw [e1] at b1
  injection b1 with b1
  subst b1
  refine ⟨vs', b2, fun hsat => ⟨v', b3, ?_⟩⟩
  obtain ⟨w', e2, e3⟩ := h5 l' hl' x hx
  rw [b6] at e2
  rw [h2] at a6
  injection e2 with e2
  injection a6 with a6
  rw [← e2, a6, hx'] at e3
  have R : Rounding c.arith.rnd := by rw [hx']; exact id_rounding
  obtain ⟨q1, _⟩ := a7 R hpos hk
  obtain ⟨q3, q4⟩ := b7 R hpos hk
  have := (earned_le q1 q3).mp e3
  rw [q4 (b5.mpr hsat)] at this
  linarith

/-- `exTrap` meets the hypotheses. -/
example : ∃ b gen, exTrap.2.ga.best = some (.single b gen) ∧
    Judged exTrapCfg [.optimize, .le] (newDynamic 1 1 1 2) none false (exTrap.2.heap b) :=
  (C74_truthful (f := exFacade) (c := exTrapCfg) (ov := none) (s := { tape := exTape, conds := some [.optimize, .le] }) rfl rfl
    (by simp) (by decide) (by rw [← exTrap_facts.1]; rfl)).2

end BaumEva
