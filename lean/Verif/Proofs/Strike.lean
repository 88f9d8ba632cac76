import Verif.Proofs.Chance
import Verif.Props.Connected
import Verif.Proofs.AnySelection
/-!
# The chance that a mutation strikes a given genotype
-/
namespace BaumEva
open Spec
variable {σ α β : Type}

/-- All draws with the residues `R` give `a`. -/
def Strikes (m : M σ α) (R : List (Nat × Nat)) (a : α) : Prop := ∀ t, Fits R t → Gives m t a

theorem Strikes.pure (a : α) : Strikes (σ := σ) (Pure.pure a) [] a := by
  intro t ht
  cases ht
  exact Gives.pure a

theorem Strikes.bind {m : M σ α} {f : α → M σ β} {R S : List (Nat × Nat)} {a : α} {b : β} (h1 : Strikes m R a)
    (h2 : Strikes (f a) S b) : Strikes (m >>= f) (R ++ S) b := by
  intro t ht
  rw [← List.take_append_drop R.length t]
  have e1 := List.forall₂_take R.length ht
  have e2 := List.forall₂_drop R.length ht
  rw [List.take_left] at e1
  rw [List.drop_left] at e2
  exact Gives.bind (h1 _ e1) (h2 _ e2)

theorem Strikes.randint {a b v : Int} (h1 : a ≤ v) (h2 : v ≤ b) :
    Strikes (σ := σ) (BaumEva.randint a b) [((b - a + 1).toNat, (v - a).toNat)] v := by
  intro t ht
  cases ht with
  | cons hx hn =>
    cases hn
    rename_i x
    intro s u
    rw [List.singleton_append, randint_cons (by omega)]
    have : ((x : Int) % (b - a + 1)) = v - a := by
      have h3 : ((x % (b - a + 1).toNat : ℕ) : Int) = ((v - a).toNat : ℕ) := by exact_mod_cast hx
      rw [Int.natCast_emod, Int.toNat_of_nonneg (by omega), Int.toNat_of_nonneg (by omega)] at h3
      exact h3
    rw [this, add_sub_cancel]

theorem Strikes.choice {l : List α} {i : Nat} (hi : i < l.length) : Strikes (σ := σ) (BaumEva.choice l) [(l.length, i)] l[i] := by
  intro t ht
  cases ht with
  | cons hx hn =>
    cases hn
    intro s u
    simp only at hx
    rw [List.singleton_append, choice_cons (by rintro rfl; simp at hi)]
    simp only [hx]

theorem Strikes.triggered {q : ℚ} (h : 0 ≤ q) : Strikes (σ := σ) (determinesMutation (.float q)) [(1000, 0)] true := by
  have h1 : Strikes (σ := σ) (BaumEva.randint 0 ((rndSamples : Int) - 1)) [(1000, 0)] 0 :=
    Strikes.randint (a := 0) (b := (rndSamples : Int) - 1) (v := 0) (by decide) (by decide)
  have : ((0 : Int) : ℚ) ≤ q * rndSamples := by
    simp only [Int.cast_zero]
    exact mul_nonneg h (by norm_num)
  unfold determinesMutation
  refine Strikes.bind (S := []) h1 ?_
  simp only [this, decide_true]
  exact Strikes.pure _

theorem Strikes.spared {q : ℚ} (h : q < 999 / 1000) : Strikes (σ := σ) (determinesMutation (.float q)) [(1000, 999)] false := by
  have h1 : Strikes (σ := σ) (BaumEva.randint 0 ((rndSamples : Int) - 1)) [(1000, 999)] 999 :=
    Strikes.randint (a := 0) (b := (rndSamples : Int) - 1) (v := 999) (by decide) (by decide)
  have : ¬ ((999 : Int) : ℚ) ≤ q * rndSamples := by
    unfold rndSamples
    push_cast
    linarith
  unfold determinesMutation
  refine Strikes.bind (S := []) h1 ?_
  simp only [this, decide_false]
  exact Strikes.pure _

/-! ## bit strings -/

theorem mutateBits_strikes {q : ℚ} (h0 : 0 ≤ q) (h1 : q < 999 / 1000) {B : Nat} (hB : 1000 ∣ B) : ∀ {g g' : List Val}, IsBits g → IsBits g' →
    g.length = g'.length → ∃ R, Possible B R ∧ odds R = (1 / 1000) ^ g.length ∧ Strikes (σ := σ) (mutateBits (.float q) g) R g' := by
  intro g
  induction g with
  | nil =>
    intro g' _ _ hl
    obtain rfl := List.length_eq_zero_iff.mp hl.symm
    exact ⟨[], by simp [Possible], by simp [odds], Strikes.pure []⟩
  | cons x xs ih =>
    intro g' hb hb' hl
    cases g' with
    | nil => simp at hl
    | cons y ys =>
      obtain ⟨R, r1, r2, r3⟩ := ih (fun z hz => hb z (List.mem_cons_of_mem _ hz)) (fun z hz => hb' z (List.mem_cons_of_mem _ hz))
        (by simpa using hl)
      have hx := hb x (List.mem_cons_self ..)
      have hy := hb' y (List.mem_cons_self ..)
      have hodds : ∀ r, odds ([(1000, r)] ++ (R ++ [])) = (1 / 1000) ^ (x :: xs).length := by
        intro r
        rw [List.append_nil, odds_append, r2, List.length_cons, pow_succ, mul_comm]
        simp [odds]
      have hposs : ∀ r, r < 1000 → Possible B ([(1000, r)] ++ (R ++ [])) := by
        intro r hr mr hm
        simp only [List.append_nil, List.mem_append, List.mem_singleton] at hm
        rcases hm with rfl | hm
        · exact ⟨hr, hB⟩
        · exact r1 mr hm
      by_cases hxy : x = y
      · subst hxy
        exact ⟨_, hposs 999 (by norm_num), hodds 999, Strikes.bind (Strikes.spared h1) (Strikes.bind r3 (Strikes.pure _))⟩
      · refine ⟨_, hposs 0 (by norm_num), hodds 0, Strikes.bind (Strikes.triggered h0) (Strikes.bind r3 (S := []) ?_)⟩
        have : (if x = bit0 then bit1 else bit0) = y := by
          rcases hx with rfl | rfl <;> rcases hy with rfl | rfl
          · exact absurd rfl hxy
          · rfl
          · rfl
          · exact absurd rfl hxy
        simp only [if_true, this]
        exact Strikes.pure _

/-! ## categories -/

theorem rangeLen_le {lo hi step : Int} (h0 : step ≠ 0) :
    rangeLen lo (hi + 1) step ≤ ((hi - lo).natAbs / step.natAbs + 1 : ℕ) := by
  by_contra hlt
  push Not at hlt
  rw [rangeLen_pos_spec h0] at hlt
  have hd := Nat.div_add_mod (hi - lo).natAbs step.natAbs
  have hm := Nat.mod_lt (hi - lo).natAbs (y := step.natAbs) (by omega)
  set k := (hi - lo).natAbs / step.natAbs with hk
  have hgt : ((hi - lo).natAbs : Int) < (step.natAbs : Int) * ((k + 1 : ℕ) : Int) := by
    push_cast
    have : ((hi - lo).natAbs : Int) = step.natAbs * k + ((hi - lo).natAbs % step.natAbs : ℕ) := by
      exact_mod_cast hd.symm
    have h2 : (((hi - lo).natAbs % step.natAbs : ℕ) : Int) < step.natAbs := by exact_mod_cast hm
    nlinarith
  rcases hlt with ⟨a, b⟩ | ⟨a, b⟩
  · rw [Int.natCast_natAbs, Int.natCast_natAbs, abs_of_pos a] at hgt
    have := le_abs_self (hi - lo)
    omega
  · rw [Int.natCast_natAbs, Int.natCast_natAbs, abs_of_neg a] at hgt
    have := neg_abs_le (hi - lo)
    have e : -step * ((k + 1 : ℕ) : Int) = -(step * ((k + 1 : ℕ) : Int)) := by ring
    rw [e] at hgt
    omega

theorem choice_other_strikes {l : List Val} {x y : Val} {n B : Nat} (hy : y ∈ l) (hne : x ≠ y) (hn : l.length ≤ n)
    (hB : ∀ m, 0 < m → m ≤ n → m ∣ B) :
    ∃ R, Possible B R ∧ 1 / (n : ℚ) ≤ odds R ∧ Strikes (σ := σ) (BaumEva.choice (l.filter fun z => z ≠ x)) R y := by
  obtain ⟨i, hi, e⟩ := List.getElem_of_mem (List.mem_filter.mpr ⟨hy, by simpa using Ne.symm hne⟩ : y ∈ l.filter fun z => z ≠ x)
  have hle : (l.filter fun z => z ≠ x).length ≤ n := (List.length_filter_le _ _).trans hn
  refine ⟨_, ?_, ?_, e ▸ Strikes.choice hi⟩
  · simp only [Possible, List.mem_singleton, forall_eq]
    exact ⟨hi, hB _ (by omega) hle⟩
  · have h0 : (0 : ℚ) < (l.filter fun z => z ≠ x).length := by exact_mod_cast (Nat.zero_le i).trans_lt hi
    have : odds [((l.filter fun z => z ≠ x).length, i)] = 1 / ((l.filter fun z => z ≠ x).length : ℚ) := by simp [odds]
    rw [this]
    exact one_div_le_one_div_of_le h0 (by exact_mod_cast hle)

theorem mutateCatGene_strikes {p : CatGene} {x y : Val} {B : Nat} (hx : InPool p x) (hy : InPool p y) (hne : x ≠ y)
    (hB : ∀ m, 0 < m → m ≤ valuesBound p → m ∣ B) :
    ∃ R, Possible B R ∧ 1 / (valuesBound p : ℚ) ≤ odds R ∧ Strikes (σ := σ) (mutateCatGene p x) R y := by
  cases p with
  | other => exact hx.elim
  | values l =>
    obtain ⟨R, r1, r2, r3⟩ := choice_other_strikes (σ := σ) (l := l) hy hne le_rfl hB
    refine ⟨R, r1, r2, ?_⟩
    rw [mutateCatGene, if_pos (one_lt_of_two hx hy hne)]
    exact r3
  | range lo hi step =>
    obtain ⟨h0, hx'⟩ := mem_range_pool hx
    obtain ⟨_, hy'⟩ := mem_range_pool hy
    obtain ⟨R, r1, r2, r3⟩ := choice_other_strikes (σ := σ) hy' hne (n := valuesBound (.range lo hi step)) (by
      simp only [pyRange, List.length_map, List.length_range, valuesBound]
      have := rangeLen_le (lo := lo) (hi := hi) h0
      generalize (hi - lo).natAbs / step.natAbs = k at this ⊢
      omega) hB
    refine ⟨R, r1, r2, ?_⟩
    rw [mutateCatGene, if_neg h0]
    simp only
    rw [if_pos (one_lt_of_two hx' hy' hne)]
    exact r3

theorem mutateCat_strikes {q : ℚ} (h0 : 0 ≤ q) (h1 : q < 999 / 1000) {B : Nat} (hB : 1000 ∣ B) :
    ∀ {gens : List CatGene} {g g' : List Val}, (∀ p ∈ gens, ∀ m, 0 < m → m ≤ valuesBound p → m ∣ B) →
    IsTuple gens g → IsTuple gens g' → ∃ R, Possible B R ∧ (gens.map fun p => 1 / (1000 * (valuesBound p : ℚ))).prod ≤ odds R ∧
      Strikes (σ := σ) (mutateCat (.float q) gens g) R g' := by
  intro gens
  induction gens with
  | nil =>
    intro g g' _ hg hg'
    cases hg; cases hg'
    exact ⟨[], by simp [Possible], by simp [odds], Strikes.pure []⟩
  | cons p gens ih =>
    intro g g' hdiv hg hg'
    cases hg with
    | cons a1 a2 =>
      cases hg' with
      | cons b1 b2 =>
        rename_i x xs y ys
        obtain ⟨R, r1, r2, r3⟩ := ih (fun z hz => hdiv z (List.mem_cons_of_mem _ hz)) a2 b2
        have hgene : ∃ S, Possible B S ∧ 1 / (1000 * (valuesBound p : ℚ)) ≤ odds S ∧
            Strikes (σ := σ) (mutateCatAt (.float q) (p :: gens) x) S y := by
          by_cases hxy : x = y
          · subst hxy
            refine ⟨[(1000, 999)] ++ [], ?_, ?_, Strikes.bind (Strikes.spared h1) (Strikes.pure x)⟩
            · simp only [Possible, List.append_nil, List.mem_singleton, forall_eq]
              exact ⟨by norm_num, hB⟩
            · have : odds ([(1000, 999)] ++ []) = 1 / 1000 := by simp [odds]
              rw [this]
              rcases Nat.eq_zero_or_pos (valuesBound p) with e | e
              · rw [e]; norm_num
              · have e : (1 : ℚ) ≤ valuesBound p := by exact_mod_cast e
                exact one_div_le_one_div_of_le (by norm_num) (by linarith)
          · obtain ⟨S, s1, s2, s3⟩ := mutateCatGene_strikes (σ := σ) a1 b1 hxy (hdiv p List.mem_cons_self)
            refine ⟨[(1000, 0)] ++ S, ?_, ?_, Strikes.bind (Strikes.triggered h0) s3⟩
            · intro mr hm
              rw [List.mem_append, List.mem_singleton] at hm
              rcases hm with rfl | hm
              · exact ⟨by norm_num, hB⟩
              · exact s1 mr hm
            · rw [odds_append, show odds [(1000, 0)] = 1 / 1000 by simp [odds], one_div_mul_eq_div, one_div, mul_inv, ← one_div, ← one_div,
                one_div_mul_eq_div]
              exact div_le_div_of_nonneg_right s2 (by norm_num)
        obtain ⟨S, s1, s2, s3⟩ := hgene
        refine ⟨S ++ (R ++ []), ?_, ?_, Strikes.bind s3 (Strikes.bind r3 (Strikes.pure _))⟩
        · intro mr hm
          simp only [List.append_nil, List.mem_append] at hm
          exact hm.elim (s1 mr) (r1 mr)
        · rw [List.append_nil, odds_append, List.map_cons, List.prod_cons]
          have : ∀ l : List CatGene, 0 ≤ (l.map fun p => 1 / (1000 * (valuesBound p : ℚ))).prod := by
            intro l
            induction l with
            | nil => simp
            | cons a l ih =>
              rw [List.map_cons, List.prod_cons]
              exact mul_nonneg (by positivity) ih
          exact mul_le_mul s2 r2 (this _) (odds_nonneg _)

/-! ## a child -/

/-- Draws with the residues `R` turn the genotype `g` into `g'`. -/
def MutBy (σ : Type) (mop : MutOp) (spec : PopSpec) (lvl : MutLvl) (R : List (Nat × Nat)) (g g' : List Val) : Prop :=
  match mop with
  | .binString => Strikes (σ := σ) (mutateBits lvl g) R g'
  | .categorical => ∃ pools, spec = .cat pools ∧ Strikes (σ := σ) (mutateCat lvl pools g) R g'
  | _ => False

theorem mutateChild_by {mop : MutOp} {r : Nat} {g g' : List Val} {s : St σ} {R : List (Nat × Nat)} (hg : (s.heap r).genotype = some g)
    (h : MutBy σ mop s.ga.attrs.spec (s.mutLvl.effective s.ga.attrs.arith) R g g') {t : List Nat} (ht : Fits R t) (u : List Nat) :
    mutateChild mop r { s with tape := t ++ u } =
      (.ok (), { s with tape := u, heap := upd s.heap r { s.heap r with genotype := some g' } }) := by
  have hge : ∀ u, genoOf r { s with tape := u } = (.ok g, { s with tape := u }) := fun u =>
    genoOf_ok.mpr ⟨hg, rfl⟩
  cases mop with
  | binString =>
    unfold mutateChild
    rw [bind_of_ok (getS_run _)]
    show (genoOf r >>= _) _ = _
    rw [bind_of_ok (hge _)]
    show (mutateBits (s.mutLvl.effective s.ga.attrs.arith) g >>= _) _ = _
    rw [bind_of_ok (h t ht s u)]
    rfl
  | categorical =>
    obtain ⟨pools, hp, hs⟩ := h
    unfold mutateChild
    rw [bind_of_ok (getS_run _)]
    show (genoOf r >>= _) _ = _
    rw [bind_of_ok (hge _)]
    simp only [hp]
    rw [bind_of_ok (hs t ht s u)]
    rfl
  | inversion => exact h.elim
  | movement => exact h.elim
  | swap => exact h.elim
  | shift => exact h.elim

theorem mutLoop_by {mop : MutOp} {c : Nat} {cs : List Nat} {g g' : List Val} {s s' : St σ} {R : List (Nat × Nat)} {x : Unit}
    (hd : (c :: cs).Nodup) (hg : (s.heap c).genotype = some g)
    (h : MutBy σ mop s.ga.attrs.spec (s.mutLvl.effective s.ga.attrs.arith) R g g') {t u : List Nat} (ht : Fits R t)
    (hrun : forEach (c :: cs) (mutateChild mop) { s with tape := t ++ u } = (.ok x, s')) : (s'.heap c).genotype = some g' := by
  rw [forEach, bind_of_ok (mutateChild_by hg h ht u)] at hrun
  rw [List.nodup_cons] at hd
  obtain ⟨_, k, _⟩ := mutLoop_ok hd.2 hrun
  rw [k c hd.1]
  simp [upd]

theorem mutExec_by {mop : MutOp} {c : Nat} {cs : List Nat} {g g' : List Val} {s s' : St σ} {R : List (Nat × Nat)} {x : Unit}
    (hch : s.ga.children = c :: cs) (hd : (c :: cs).Nodup) (hg : (s.heap c).genotype = some g) {lvl : MutLvl}
    (hlvl : NextLvl mop s lvl)
    (h : MutBy σ mop s.ga.attrs.spec (lvl.effective s.ga.attrs.arith) R g g') {t u : List Nat} (ht : Fits R t)
    (hrun : mutExec mop { s with tape := t ++ u } = (.ok x, s')) : (s'.heap c).genotype = some g' := by
  unfold mutExec at hrun
  rw [bind_of_ok (getS_run _)] at hrun
  by_cases hop : mop = .binString
  · subst hop
    cases hs : s.ga.attrs.spec with
    | binary gray gens =>
      simp only [hs] at hrun
      rw [bind_of_ok (liftE_ok.mpr ⟨hlvl.2 rfl, rfl⟩), bind_of_ok (modifyS_run _ _), hch] at hrun
      exact mutLoop_by (s := { s with mutLvl := lvl }) hd hg h ht hrun
    | cat _ => simp only [hs, throwE_ok] at hrun
    | orderCat _ _ _ => simp only [hs, throwE_ok] at hrun
  · rw [hlvl.1 hop] at h
    have hrun : forEach (c :: cs) (mutateChild mop) { s with tape := t ++ u } = (.ok x, s') := by
      rw [← hch]
      cases mop with
      | binString => exact absurd rfl hop
      | categorical => exact hrun
      | inversion => exact hrun
      | movement => exact hrun
      | swap => exact hrun
      | shift => exact hrun
    exact mutLoop_by hd hg h ht hrun

/-! ## a generation -/

/-- What follows the crossover in a generation. -/
def mutOn (fit : Fit ℚ) (mop : MutOp) (tr : Transfer) : M ℚ Unit :=
  mutExec mop >>= fun _ => newGenExec tr >>= fun _ => baseFitnessExec fit >>= fun _ => gaUpdate

/-- Selection and crossover. -/
def mate (sel : SelOp) (op : CrossOp) : M ℚ Unit := selExec sel >>= fun _ => crossExec op

theorem mate_trim (sel : SelOp) (op : CrossOp) : Trim (mate sel op) :=
  Trim.bind (selExec_ext sel) (selExec_trim sel) fun _ => (Tame.crossExec op).trim

theorem mutOn_tame (fit : Fit ℚ) (mop : MutOp) (tr : Transfer) : Tame (mutOn fit mop tr) :=
  (Tame.mutExec mop).bind fun _ => (Tame.newGenExec tr).bind fun _ => (Tame.baseFitness fit).bind fun _ => Tame.gaUpdate

theorem mate_then (sel : SelOp) (op : CrossOp) (m : M ℚ Unit) :
    (mate sel op >>= fun _ => m) = selExec sel >>= fun _ => crossExec op >>= fun _ => m := by
  funext s
  unfold mate
  rw [bind_run, bind_run, bind_run]
  rcases selExec sel s with ⟨_ | a, s1⟩
  · rfl
  · rfl

theorem generation_mate (fit : Fit ℚ) (sel : SelOp) (op : CrossOp) (mop : MutOp) (tr : Transfer) (s : St ℚ) :
    BaumEva.generation (singleOps fit sel op mop tr) s = (mate sel op >>= fun _ => mutOn fit mop tr) s := by
  rw [mate_then]
  rfl

/-- Somebody has the genotype `g`. -/
def Holds (g : List Val) (s : St σ) : Prop := ∃ r ∈ s.ga.population, (s.heap r).genotype = some g

/-- After selection and crossover there are residues with which the first child becomes `g'`. -/
theorem SafeCore.mutOn_strikes {fit : Fit ℚ} {sel : SelOp} {op : CrossOp} {mop : MutOp} {tr : Transfer}
    {P : List Val → Prop} {s0 : St ℚ} (h0 : SafeCore fit op mop tr P s0) (hn : s0.seed = none)
    (hone : 1 ≤ numPairs s0.ga 1) {k : Nat} {s s2 : St ℚ} {x : Unit}
    (h : After (singleOps fit sel op mop tr) s0 k s) (hm : mate sel op s = (.ok x, s2))
    {lvl : MutLvl} (hlvl : NextLvl mop s lvl) {g' : List Val} {Q : List (Nat × Nat) → Prop}
    (hmut : ∀ g0 p1 p2 g1, P g0 → P p1 → P p2 → CrossResult ℚ op g0.length p1 p2 g1 →
      ∃ R, Q R ∧ MutBy ℚ mop s0.ga.attrs.spec (lvl.effective s0.ga.attrs.arith) R g1 g') :
    ∃ R, Q R ∧ ∀ t u s' y, Fits R t → mutOn fit mop tr { s2 with tape := t ++ u } = (.ok y, s') → Holds g' s' := by
  have hops := singleOps_run fit sel op mop tr
  obtain ⟨_, hseed⟩ := h.more_any hn []
  have hI := h0.inv h
  obtain ⟨pre, _, kpre⟩ := h.trim_any hn
  obtain ⟨pm, _, km⟩ := mate_trim sel op s s2 x hseed hm
  unfold mate at hm
  obtain ⟨_, s1, e1, e2⟩ := bind_ok.mp hm
  have hal := hI.run.settled.alive
  have hS : Selected s s1 := (hops.selection s s1 () hal e1).1
  have hlen := (hops.selection s s1 () hal e1).2
  obtain ⟨r0, g0, a1, a2, sx, gs1, hd, hga, hb, hlp, hch⟩ := crossExec_ok e2 (fun r hr => (hS.fresh r hr).2.1)
  have hPof : ∀ z q, z ∈ s.ga.population → (s.heap z).genotype = some q → P q := by
    intro z q hz hq
    obtain ⟨q', d1, d2, _⟩ := hI.good z hz
    rw [hq] at d1
    injection d1 with d1
    rw [d1]; exact d2
  have hpop1 : s1.ga.population = s.ga.population := by rw [hS.ga]
  have hxn : sx.next = s1.next := by obtain ⟨t, ht⟩ := hd; simp at ht; simp [ht]
  have hxml : sx.mutLvl = s1.mutLvl := by obtain ⟨t, ht⟩ := hd; simp at ht; simp [ht]
  have hchild : s2.ga.children = List.range' s1.next gs1.length := by rw [hb.ga, hga, hxn]; simp
  have hspec : s2.ga.attrs = s.ga.attrs := by rw [hb.ga, hga, hS.ga]
  have hml2 : s2.mutLvl = s.mutLvl := by rw [hb.mutLvl, hxml, hS.mutLvl]
  have hr0 : r0 ∈ s.ga.population := by rw [← hpop1]; exact List.mem_of_mem_head? a1
  have hP0 : P g0 := by
    refine hPof r0 g0 hr0 ?_
    rw [← a2, (hS.core r0 (hal r0 hr0)).genotype]
  have hpairs : numPairs s.ga 1 = numPairs s0.ga 1 := by
    unfold numPairs; rw [hI.percent, hI.attrs]
  obtain ⟨g1, gs2, hgs⟩ : ∃ g1 gs2, gs1 = g1 :: gs2 := by
    cases gs1 with
    | nil => simp only [List.length_nil] at hlp; omega
    | cons a b => exact ⟨a, b, rfl⟩
  subst hgs
  obtain ⟨a, b, p1, p2, pa, pb, ga1, gb1, hcr⟩ := hch 0 g1 rfl
  obtain ⟨_, _, a', ham, hac⟩ := hS.fresh a (List.mem_of_getElem? pa)
  obtain ⟨_, _, b', hbm, hbc⟩ := hS.fresh b (List.mem_of_getElem? pb)
  rw [hac.genotype] at ga1
  rw [hbc.genotype] at gb1
  obtain ⟨R, hQ, hby⟩ := hmut g0 p1 p2 g1 hP0 (hPof a' p1 ham ga1) (hPof b' p2 hbm gb1) hcr
  refine ⟨R, hQ, fun t u s' y ht hrun => ?_⟩
  have hg1 : (s2.heap s1.next).genotype = some g1 := by
    have := hb.new 0 g1 rfl
    rw [hxn, Nat.add_zero] at this
    rw [this]
  have hchc : s2.ga.children = s1.next :: List.range' (s1.next + 1) gs2.length := by
    rw [hchild, List.length_cons, List.range'_succ]
  have hrun' := hrun
  unfold mutOn at hrun
  obtain ⟨_, s3, m1, m2⟩ := bind_ok.mp hrun
  have hgeno := mutExec_by (s := s2) hchc (by rw [← hchc, hchild]; exact List.nodup_range') hg1 (lvl := lvl)
    (by unfold NextLvl at hlvl ⊢; rw [hml2, hspec]; exact hlvl)
    (by rw [hspec, hI.attrs]; exact hby) ht m1
  have hga3 : s3.ga = s2.ga := by
    obtain ⟨⟨t, hp, es⟩, _⟩ := mutExec_ok m1 (by simp only; rw [hchild]; exact List.nodup_range')
    have := congrArg St.ga es
    exact this
  have hw : BaumEva.generation (singleOps fit sel op mop tr) { s with tape := pm ++ (t ++ u) } = (.ok y, s') := by
    rw [generation_mate, bind_of_ok (km _)]
    exact hrun'
  have hset : Settled ({ s with tape := pm ++ (t ++ u) } : St ℚ) :=
    ⟨hI.run.settled.alive, hI.run.settled.asc, hI.run.settled.sorted, hI.run.settled.best⟩
  obtain ⟨b1, b2, b3, es, _, hbr, hB, _, hel, d2, _, _, _, _, hF, hup, _⟩ := generation_steps hops hset hw
  have hb1 : b1 = s3 := by
    have hbr : (selExec sel >>= fun _ => crossExec op >>= fun _ => mutExec mop) { s with tape := pm ++ (t ++ u) } =
        (.ok (), b1) := hbr
    have hbr2 : (mate sel op >>= fun _ => mutExec mop) { s with tape := pm ++ (t ++ u) } = (.ok (), b1) := by
      rw [mate_then]
      exact hbr
    rw [bind_of_ok (km _), m1] at hbr2
    exact (Prod.mk.inj hbr2).2.symm
  have hrc : s1.next ∈ b1.ga.children := by rw [hb1, hga3, hchc]; exact List.mem_cons_self
  have hrp : s1.next ∈ b2.ga.population := by rw [d2]; exact List.mem_append_left _ hrc
  have hrlt : s1.next < b3.next := by
    have h1 : s1.next < b1.next := by
      obtain ⟨n0, _, q1, q2⟩ := hB.range
      rw [q1, List.mem_range'_1] at hrc
      omega
    rw [hF.shape, d2]
    exact h1
  obtain ⟨z1, z2⟩ := gaUpdate_members hup (by rw [hF.ga]; exact hrp) hrlt
  refine ⟨s1.next, z1, ?_⟩
  rw [z2, hF.geno _ hrp, d2]
  show (b1.heap s1.next).genotype = _
  rw [hb1]
  exact hgeno

/-! ## many generations -/

/-- `n` more generations without anybody who has the genotype `g`. -/
def Avoids (ops : Ops σ) (g : List Val) : Nat → St σ → Prop
  | 0, _ => True
  | n + 1, s => ∃ s', BaumEva.generation ops s = (.ok (), s') ∧ ¬ Holds g s' ∧ Avoids ops g n s'

theorem After.avoids {ops : Ops σ} {g : List Val} {s0 s : St σ} {k : Nat} (h : After ops s0 k s)
    (hno : ∀ i si, After ops s0 i si → i ≤ k → ¬ Holds g si) : ∀ n, Avoids ops g n s → ∃ a, After ops s0 1 a ∧ Avoids ops g (n + (k - 1)) a := by
  induction h with
  | first h1 h2 => exact fun n hn => ⟨_, .first h1 h2, hn⟩
  | @next k s s' h1 h2 ih =>
    intro n hn
    have hk := h1.pos
    obtain ⟨a, a1, a2⟩ := ih (fun i si hi hle => hno i si hi (by omega)) (n + 1) ⟨s', h2, hno _ _ (.next h1 h2) (by omega), hn⟩
    refine ⟨a, a1, ?_⟩
    rwa [show n + (k + 1 - 1) = n + 1 + (k - 1) by omega]

/-- The same for the rest of a generation and `n` more. -/
def AvoidsOn (fit : Fit ℚ) (mop : MutOp) (tr : Transfer) (ops : Ops ℚ) (g : List Val) (n : Nat) (s : St ℚ) (w : List Nat) : Prop :=
  ∃ c v, (EndsIn (mutOn fit mop tr) s w c v ∧ ¬ Holds g c.2) ∧ Avoids ops g n { c.2 with tape := v }

/-- The chance to avoid a genotype for `n` generations, if it is struck with chance `δ` in each. -/
theorem SafeCore.chance_avoids {fit : Fit ℚ} {sel : SelOp} {op : CrossOp} {mop : MutOp} {tr : Transfer}
    {P : List Val → Prop} {s0 : St ℚ} (h0 : SafeCore fit op mop tr P s0) (hn : s0.seed = none)
    (hone : 1 ≤ numPairs s0.ga 1) {B : Nat} (hB : 0 < B) {δ : ℚ} (hδ : δ ≤ 1) {g' : List Val}
    (hlow : ∀ v k s, After (singleOps fit sel op mop tr) { s0 with tape := v } k s →
      ∃ lvl, NextLvl mop s lvl ∧ ∀ g0 p1 p2 g1, P g0 → P p1 → P p2 → CrossResult ℚ op g0.length p1 p2 g1 →
        ∃ R, (Possible B R ∧ δ ≤ odds R) ∧ MutBy ℚ mop s0.ga.attrs.spec (lvl.effective s0.ga.attrs.arith) R g1 g') :
    ∀ (n k : Nat) (pre : List Nat) (s : St ℚ),
      (∀ v, After (singleOps fit sel op mop tr) { s0 with tape := pre ++ v } k { s with tape := v }) →
      ∀ L, chance B L (fun t => Avoids (singleOps fit sel op mop tr) g' n { s with tape := t }) ≤ (1 - δ) ^ n := by
  intro n
  induction n with
  | zero =>
    intro k pre s _ L
    rw [pow_zero]
    exact chance_le_one hB
  | succ n ih =>
    intro k pre s hs L
    have hseed : s.seed = none := ((hs []).more_any (s0 := { s0 with tape := pre ++ [] }) hn []).2
    have hpow : 0 ≤ (1 - δ) ^ n := pow_nonneg (by linarith) n
    -- selection and crossover
    have hexp := outcome_experiment (mate_trim sel op) (s := s) hseed
    have hstep : ∀ t b v, EndsIn (mate sel op) s t b v →
        ∀ L, chance B L (AvoidsOn fit mop tr (singleOps fit sel op mop tr) g' n b.2) ≤ (1 - δ) ^ (n + 1) := by
      rintro t ⟨y, s2⟩ v ⟨hb1, hb2⟩ L
      simp only at hb1 hb2
      have hseed2 : s2.seed = none := by
        have := ((ExtOk.bind (selExec_ext sel) fun _ => (Tame.crossExec op).ext) { s with tape := t } _ _ [] hseed hb2).2
        exact this
      obtain ⟨pm, _, km⟩ := mate_trim sel op { s with tape := t } _ _ hseed hb2
      have hexp2 := (outcome_experiment (mutOn_tame fit mop tr).trim (s := s2) hseed2).only fun c => ¬ Holds g' c.2
      obtain ⟨lvl, hl1, hl2⟩ := hlow _ _ _ (hs t)
      obtain ⟨R, ⟨hR1, hR2⟩, hR3⟩ := (h0.withTape (pre ++ t)).mutOn_strikes hn hone (hs t) hb2 hl1 (g' := g')
        (Q := fun R => Possible B R ∧ δ ≤ odds R) hl2
      have hmiss := chance_miss hB (L := L) hexp2 hR1 (by
        rintro t u ⟨z, s'⟩ v ht ⟨⟨c1, c2⟩, c3⟩
        exact c3 (hR3 t u { s' with tape := v } z ht c2))
      have hbind := chance_bind hB (c := (1 - δ) ^ n) (L := L) (G := fun w c v' => EndsIn (mutOn fit mop tr) s2 w c v' ∧ ¬ Holds g' c.2)
        (ψ := fun c v' => Avoids (singleOps fit sel op mop tr) g' n { c.2 with tape := v' }) hexp2 (by
          rintro w ⟨z, s'⟩ v' ⟨⟨c1, c2⟩, c3⟩ L
          simp only at c1 c2
          obtain ⟨p3, _, k3⟩ := (mutOn_tame fit mop tr).trim { s2 with tape := w } _ _ hseed2 c2
          refine ih (k + 1) (pre ++ (pm ++ p3)) s' (fun v => ?_) L
          have h1 := hs (pm ++ (p3 ++ v))
          have h2 : BaumEva.generation (singleOps fit sel op mop tr) { s with tape := pm ++ (p3 ++ v) } =
              (.ok (), { s' with tape := v }) := by
            rw [generation_mate, bind_of_ok (km _)]
            exact k3 v
          have h3 := After.next h1 h2
          rw [show pre ++ (pm ++ p3) ++ v = pre ++ (pm ++ (p3 ++ v)) by simp]
          exact h3)
      refine hbind.trans ?_
      rw [pow_succ]
      exact mul_le_mul_of_nonneg_left (hmiss.trans (by linarith)) hpow
    have hall := chance_bind hB (L := L) (c := (1 - δ) ^ (n + 1)) (G := EndsIn (mate sel op) s)
      (ψ := fun b : Unit × St ℚ => AvoidsOn fit mop tr (singleOps fit sel op mop tr) g' n b.2) hexp hstep
    refine le_trans (chance_mono ?_) (hall.trans ?_)
    · rintro t ⟨s', e1, e2, e3⟩
      rw [generation_mate] at e1
      obtain ⟨y, s2, d1, d2⟩ := bind_ok.mp e1
      exact ⟨_, _, EndsIn.of_run d1, _, _, ⟨EndsIn.of_run (s := { s2 with tape := [] }) d2, e2⟩, e3⟩
    · have := pow_nonneg (show 0 ≤ 1 - δ by linarith) (n + 1)
      have h1 := chance_le_one (p := fun t => ∃ b v, EndsIn (mate sel op) s t b v) (L := L) hB
      nlinarith

end BaumEva
