import Verif.Props.AlmostSure
import Verif.Props.Resume
/-!
# C121: values that the first generation does not contain are lost
-/
namespace BaumEva
open BaumEva.Spec

/-! ## Nothing new -/

/-- The genes of a child of `OrderCrossover` are genes of its parents. -/
theorem orderChild_genes {len c d : Nat} {own other : List Val} {v : Val} (h : v ∈ orderChild len c d own other) :
    v ∈ own ∨ v ∈ other := by
  unfold orderChild slice at h
  simp only [List.mem_append] at h
  rcases h with (h | h) | h
  · exact .inr (List.mem_of_mem_filter (List.mem_of_mem_drop (List.mem_of_mem_take h)))
  · exact .inl (List.mem_of_mem_drop (List.mem_of_mem_take h))
  · exact .inr (List.mem_of_mem_filter (List.mem_of_mem_take h))

/-- Genotypes made of given values: ordered crossover and the rearranging mutations. -/
theorem values_closed {mop : MutOp} (hmop : Rearranging mop) (spec : PopSpec) (V : Val → Prop) :
    ClosedGeno .order mop spec (fun g => ∀ v ∈ g, V v) := by
  rintro lvl g0 p1 p2 g1 g _ h1 h2 ⟨s, s', cs, hc, hcs⟩ hg
  have hP1 : ∀ v ∈ g1, V v := by
    rw [crossGeno] at hc
    obtain ⟨cd, s1, e1, e2⟩ := bind_ok.mp hc
    obtain ⟨rfl, _⟩ := pure_ok.mp e2
    intro v hv
    rcases hcs with rfl | rfl
    · rcases orderChild_genes hv with h | h
      · exact h1 v h
      · exact h2 v h
    · rcases orderChild_genes hv with h | h
      · exact h2 v h
      · exact h1 v h
  rcases hg with rfl | ⟨s1, s2, hm⟩
  · exact hP1
  · have hp : g.Perm g1 := by
      rcases hmop with rfl | rfl | rfl | rfl <;> exact C21_permutes hm
    exact fun v hv => hP1 v (hp.subset hv)

/-- C121 for programs put together from ordered crossover, a rearranging mutation and any other components: in every
generation the genotypes consist of values of the initial population. -/
theorem C121_no_new_values {fit : Fit ℚ} {sel : SelOp} {mop : MutOp} {tr : Transfer} {s0 s : St ℚ} {k : Nat} (hmop : Rearranging mop)
    (h0 : Fresh s0) (hp : s0.ga.attrs.isPhenotype = false) (hg : ∀ r ∈ s0.ga.population, ∃ g, (s0.heap r).genotype = some g)
    (h : After (singleOps fit sel .order mop tr) s0 k s) {r : Nat} (hr : r ∈ s.ga.population) {g : List Val}
    (hgr : (s.heap r).genotype = some g) {v : Val} (hv : v ∈ g) :
    ∃ r0 ∈ s0.ga.population, ∃ g0, (s0.heap r0).genotype = some g0 ∧ v ∈ g0 := by
  obtain ⟨g', e1, e2, _⟩ := (genotypes_invariant h0
    (values_closed hmop s0.ga.attrs.spec fun v => ∃ r0 ∈ s0.ga.population, ∃ g0, (s0.heap r0).genotype = some g0 ∧ v ∈ g0)
    (fun r hr => by
      obtain ⟨g, hg⟩ := hg r hr
      exact ⟨g, hg, fun v hv => ⟨r, hr, g, hg, hv⟩, fun e => by rw [hp] at e; cases e⟩) h).2 r hr
  rw [hgr] at e1
  injection e1 with e1
  subst e1
  exact e2 v hv

/-- C121 for `CombinatoryGA`: every value of every individual of every generation, and of every list the objective is called with, is a value
of an individual of the first generation. -/
theorem C121_values {c : Cfg} {a b k : Int} {ov : Option ℚ} {s s' : St ℚ} (h : combinatoryGA c a b k ov s = (.ok (), s')) :
    ∃ first, (generationsOf s')[0]? = some first ∧
      ∀ g ∈ evaluated s s', ∀ v ∈ g, ∃ x ∈ first, ∃ g0, x.genotype = some g0 ∧ v ∈ g0 := by
  have h' : (SingleFacade.combinatory a b k).optimize c ov s = (.ok (), s') := h
  obtain ⟨_, _, m1, _⟩ := C71_budget h'
  obtain ⟨fit, tr, s0, n, hst, hev, hk, _⟩ := SingleFacade.run h'
  have hops := singleOps_run fit (.tournament c.tournamentSize) .order .movement tr
  have hpos := hk.pos
  obtain ⟨s1, hf, hs1⟩ := hk.earlier hops hst.fresh 0 hpos
  refine ⟨_, hs1, ?_⟩
  intro g hg v hv
  obtain ⟨l, hl, x, hx, hxg⟩ := m1 g hg
  obtain ⟨i, hi⟩ := List.getElem?_of_mem hl
  have hin : i < n := by
    have := (List.getElem?_eq_some_iff.mp hi).1
    unfold generationsOf at this
    rw [(hk.inv hops hst.fresh).hist.snaps] at this
    exact this
  obtain ⟨si, ha, rfl⟩ := (snap_generations hops hst.fresh hk hin l).mpr hi
  obtain ⟨r, hr, rfl⟩ := List.mem_map.mp hx
  obtain ⟨q, hc⟩ := hst.created
  obtain ⟨_, hd, c3, _, _, gs, gl, _, _, hgs⟩ := createPopulation_ok hc
  have hnp : s0.ga.attrs.isPhenotype = false := by
    cases hp : s0.ga.attrs.isPhenotype with
    | false => rfl
    | true =>
      obtain ⟨_, _, e⟩ := hd.phen.mp hp
      simp [SingleFacade.spec] at e
  have hge : ∀ r ∈ s0.ga.population, ∃ g, (s0.heap r).genotype = some g := by
    intro r hr
    rw [c3, List.mem_range'] at hr
    obtain ⟨j, hj, rfl⟩ := hr
    obtain ⟨p, hp, _⟩ := hgs j gs[j] (List.getElem?_eq_getElem (by omega))
    exact ⟨_, by rw [Nat.one_mul, hp]⟩
  have hxg' : (si.heap r).genotype = some g := hxg
  obtain ⟨r0, hr0, g0, e1, e2⟩ := C121_no_new_values (.inr (.inl rfl)) hst.fresh hnp hge ha hr hxg' hv
  -- the first generation
  cases hf with
  | next e _ => exact absurd e.pos (by omega)
  | @first t1 _ f1 f2 =>
    obtain ⟨_, hperm, hheap, _, _, hS, _⟩ := first_inv hops.fitness hst.fresh f1 f2
    refine ⟨_, List.mem_map_of_mem (hperm.symm.subset hr0), g0, ?_, e2⟩
    rw [hheap r0 (hst.fresh.alive r0 hr0), hS.geno r0 hr0, e1]

/-! ## The chance that a value is missing -/

theorem chance_mono_len {B L : Nat} {p q : List Nat → Prop} (h : ∀ t, t.length = L → p t → q t) : chance B L p ≤ chance B L q := by
  unfold chance
  refine div_le_div_of_nonneg_right ?_ (by positivity)
  norm_cast
  exact List.countP_mono_left fun t ht hp => by simpa using h t (mem_tapes.mp ht).1 (by simpa using hp)

theorem countP_mod_ne {B m r : Nat} (hm : m ∣ B) (hr : r < m) : ((List.range B).countP (fun x => x % m ≠ r) : ℚ) = B * (1 - 1 / m) := by
  obtain ⟨k, rfl⟩ := hm
  have h1 := countP_mod hr k
  have h2 := List.length_eq_countP_add_countP (fun x => decide (x % m = r)) (l := List.range (m * k))
  rw [List.length_range, h1] at h2
  have h3 : (List.range (m * k)).countP (fun x => decide (x % m ≠ r)) = (List.range (m * k)).countP (fun a => decide (¬ (decide (a % m = r) = true))) := by
    congr 1
    funext a
    simp
  rw [h3]
  have h4 : (m * k : ℚ) = k + ((List.range (m * k)).countP (fun a => decide (¬ (decide (a % m = r) = true))) : ℕ) := by exact_mod_cast h2
  have hm0 : (m : ℚ) ≠ 0 := by
    have : 0 < m := by omega
    positivity
  push_cast
  field_simp
  linarith

/-- One draw that avoids a residue, and what comes next. -/
theorem chance_avoid {B m r L : Nat} (hB : 0 < B) (hm : m ∣ B) (hr : r < m) {p : List Nat → Prop} {c : ℚ}
    (h : ∀ x, x % m ≠ r → c ≤ chance B L fun t => p (x :: t)) : (1 - 1 / m) * c ≤ chance B (L + 1) p := by
  rw [chance_succ, le_div_iff₀ (by exact_mod_cast hB)]
  have h1 := sum_map_le (l := List.range B) (f := fun x => if x % m ≠ r then c else 0) (g := fun x => chance B L fun t => p (x :: t))
    (fun x _ => by
      show (if x % m ≠ r then c else 0) ≤ _
      split
      · rename_i hx; exact h x hx
      · exact chance_nonneg)
  rw [sum_ite, zero_mul, zero_add, sub_zero, countP_mod_ne hm hr] at h1
  refine le_trans (le_of_eq ?_) h1
  ring

/-- A selection of `k` from `m` values avoids a given one with chance `(m - k) / m`. -/
theorem pick_avoids {α : Type} [Inhabited α] {B L : Nat} (hB : 0 < B) {v : α} {p : List Nat → Prop} {c : ℚ} (hc : 0 ≤ c)
    (h : c ≤ chance B L p) : ∀ {k : Nat} {l : List α}, l.Nodup → v ∈ l → k ≤ l.length → (∀ m, 0 < m → m ≤ l.length → m ∣ B) →
    ((l.length - k : ℕ) : ℚ) / l.length * c ≤ chance B (L + k) fun t => v ∉ pick l (t.take k) ∧ p (t.drop k) := by
  intro k
  induction k with
  | zero =>
    intro l _ hv _ _
    have hl : (l.length : ℚ) ≠ 0 := by
      have := List.length_pos_of_mem hv
      positivity
    rw [Nat.sub_zero, div_self hl, one_mul]
    refine h.trans (chance_mono fun t ht => ⟨by simp [pick], by simpa using ht⟩)
  | succ k ih =>
    intro l hnd hv hk hdv
    obtain ⟨r, hr, rfl⟩ := List.getElem_of_mem hv
    have key : ∀ x, x % l.length ≠ r → ((l.length - 1 - k : ℕ) : ℚ) / (l.length - 1 : ℕ) * c ≤ chance B (L + k) fun t =>
        l[r] ∉ pick l ((x :: t).take (k + 1)) ∧ p ((x :: t).drop (k + 1)) := by
      intro x hx
      have hlt : x % l.length < l.length := Nat.mod_lt _ (by omega)
      have hle : (l.eraseIdx (x % l.length)).length = l.length - 1 := List.length_eraseIdx_of_lt hlt
      have := ih (l := l.eraseIdx (x % l.length)) (hnd.eraseIdx _)
        (List.mem_eraseIdx_iff_getElem.mpr ⟨r, hr, fun e => hx e.symm, rfl⟩) (by omega) (fun m h1 h2 => hdv m h1 (by omega))
      rw [hle] at this
      refine this.trans (chance_mono ?_)
      rintro t ⟨h1, h2⟩
      refine ⟨?_, by simpa using h2⟩
      simp only [List.take_succ_cons, pick, List.mem_cons, not_or]
      refine ⟨?_, h1⟩
      rw [List.getElem?_eq_getElem hlt]
      intro e
      exact hx ((hnd.getElem_inj_iff).mp e.symm)
    refine le_trans ?_ (chance_avoid hB (hdv l.length (by omega) le_rfl) hr key)
    rcases Nat.eq_or_lt_of_le (show 1 ≤ l.length by omega) with e | e
    · have : l.length - (k + 1) = 0 := by omega
      rw [this]
      have h1 : (0 : ℚ) ≤ 1 - 1 / (l.length : ℚ) := by rw [← e]; norm_num
      simp only [Nat.cast_zero, zero_div, zero_mul]
      positivity
    · have h1 : ((l.length - 1 : ℕ) : ℚ) = l.length - 1 := by
        rw [Nat.cast_sub (by omega)]; simp
      have h2 : l.length - (k + 1) = l.length - 1 - k := by omega
      rw [h2, h1]
      have h3 : (l.length : ℚ) ≠ 0 := by positivity
      have h4 : (l.length : ℚ) - 1 ≠ 0 := by
        have : (1 : ℚ) < l.length := by exact_mod_cast e
        linarith
      refine le_of_eq ?_
      field_simp

/-- None of `G` selections of `k` values contains `v`. -/
def AllAvoid (l : List Int) (v : Int) (k : Nat) : Nat → List Nat → Prop
  | 0, _ => True
  | G + 1, t => v ∉ pick l (t.take k) ∧ AllAvoid l v k G (t.drop k)

theorem allAvoid_chance {B L k : Nat} (hB : 0 < B) {l : List Int} {v : Int} (hn : l.Nodup) (hv : v ∈ l) (hk : k ≤ l.length)
    (hd : ∀ m, 0 < m → m ≤ l.length → m ∣ B) : ∀ G, (((l.length - k : ℕ) : ℚ) / l.length) ^ G ≤ chance B (L + G * k) (AllAvoid l v k G) := by
  intro G
  induction G with
  | zero => 
    rw [pow_zero]
    exact le_of_eq (chance_one hB (p := AllAvoid l v k 0) fun _ => trivial).symm
  | succ G ih =>
    have := pick_avoids hB (v := v) (by positivity) ih hn hv hk hd
    rw [pow_succ, mul_comm]
    rw [Nat.succ_mul, ← Nat.add_assoc]
    exact this

section
variable {σ : Type}

theorem sampleAux_inv {α : Type} [Inhabited α] : ∀ {k : Nat} {l r : List α} {s s' : St σ}, k ≤ l.length →
    sampleAux k l s = (.ok r, s') → k ≤ s.tape.length ∧ r = pick l (s.tape.take k) ∧ s' = { s with tape := s.tape.drop k } := by
  intro k
  induction k with
  | zero =>
    intro l r s s' _ h
    obtain ⟨rfl, rfl⟩ := pure_ok.mp h
    exact ⟨Nat.zero_le _, by simp [pick], by simp⟩
  | succ k ih =>
    intro l r s s' hl h
    rw [sampleAux] at h
    obtain ⟨x, s1, h1, h2⟩ := bind_ok.mp h
    unfold draw at h1
    split at h1
    · cases h1
    rename_i y t ht
    simp only [Prod.mk.injEq, Except.ok.injEq] at h1
    obtain ⟨rfl, rfl⟩ := h1
    have hlt : y % l.length < l.length := Nat.mod_lt _ (by omega)
    rw [List.getElem?_eq_getElem hlt] at h2
    simp only at h2
    obtain ⟨rest, s2, h3, h4⟩ := bind_ok.mp h2
    obtain ⟨rfl, rfl⟩ := pure_ok.mp h4
    obtain ⟨e1, e2, e3⟩ := ih (by rw [List.length_eraseIdx_of_lt hlt]; omega) h3
    simp only at e1 e2 e3
    rw [ht]
    refine ⟨by simp; exact e1, ?_, ?_⟩
    · simp only [List.take_succ_cons, pick]
      rw [List.getElem?_eq_getElem hlt, e2]
      rfl
    · rw [e3]; simp

/-- The population does not contain the value. -/
def Lacks (v : Int) (s : St σ) : Prop :=
  ∀ r ∈ s.ga.population, r < s.next ∧ ∀ g, (s.heap r).genotype = some g → Val.num (v : ℚ) ∉ g

theorem addDict_lacks {v : Int} {g : List Val} {s s' : St σ} {u : Unit} (hs : Lacks v s) (hg : Val.num (v : ℚ) ∉ g)
    (h : addDict g s = (.ok u, s')) : Lacks v s' ∧ s'.tape = s.tape ∧ s'.ga.attrs = s.ga.attrs := by
  unfold addDict at h
  obtain ⟨r, s1, h1, h2⟩ := bind_ok.mp h
  obtain ⟨rfl, rfl⟩ := alloc_ok.mp h1
  rw [modGa_ok] at h2
  subst h2
  refine ⟨?_, rfl, rfl⟩
  intro r hr
  simp only [List.mem_append, List.mem_singleton] at hr
  rcases hr with hr | rfl
  · obtain ⟨k1, k2⟩ := hs r hr
    refine ⟨by simp only; omega, ?_⟩
    simp only [upd]
    rw [if_neg (by omega)]
    exact k2
  · refine ⟨by simp only; omega, ?_⟩
    simp only [upd, if_true, Option.some.injEq]
    rintro _ rfl
    exact hg

theorem inputs_lack {v : Int} {at_ : Attrs} (hsp : ∀ gray gens, at_.spec ≠ .binary gray gens) : ∀ (l : List (List Val)) (s s' : St σ) (u : Unit),
    Lacks v s → (∀ x ∈ l, Val.num (v : ℚ) ∉ x) →
    forEach l (fun x => do let g ← liftE (adopt at_ x); addDict g) s = (.ok u, s') → Lacks v s' ∧ s'.tape = s.tape ∧ s'.ga.attrs = s.ga.attrs := by
  intro l
  induction l with
  | nil =>
    intro s s' u hs _ h
    rw [forEach_nil] at h
    cases h
    exact ⟨hs, rfl, rfl⟩
  | cons x l ih =>
    intro s s' u hs hx h
    obtain ⟨s1, h1, h2⟩ := forEach_cons_ok.mp h
    obtain ⟨g, s2, h3, h4⟩ := bind_ok.mp h1
    obtain ⟨e, rfl⟩ := liftE_ok.mp h3
    have : g = x := by
      unfold adopt at e
      split at e
      · rename_i hh; exact absurd hh (hsp _ _)
      · injection e with e; exact e.symm
    subst this
    obtain ⟨a1, a2, a3⟩ := addDict_lacks hs (hx g List.mem_cons_self) h4
    obtain ⟨b1, b2, b3⟩ := ih s1 s' u a1 (fun y hy => hx y (List.mem_cons_of_mem _ hy)) h2
    exact ⟨b1, b2.trans a2, b3.trans a3⟩

theorem generated_lack {v a b k : Int} (hk0 : 0 ≤ k) (hk : k ≤ b - a + 1) {at_ : Attrs} (hsp : at_.spec = .orderCat a b k) :
    ∀ (l : List Nat) (s s' : St σ) (u : Unit), forEach l (fun _ => do let g ← generate at_; addDict g) s = (.ok u, s') →
    l.length * k.toNat ≤ s.tape.length ∧ (Lacks v s → AllAvoid (pyRange a (b + 1) 1) v k.toNat l.length s.tape → Lacks v s') := by
  have hlen : (pyRange a (b + 1) 1).length = (b - a + 1).toNat := by rw [length_pyRange_one]; omega
  intro l
  induction l with
  | nil =>
    intro s s' u h
    rw [forEach_nil] at h
    cases h
    exact ⟨by simp, fun hs _ => hs⟩
  | cons x l ih =>
    intro s s' u h
    obtain ⟨s1, h1, h2⟩ := forEach_cons_ok.mp h
    obtain ⟨g, s2, h3, h4⟩ := bind_ok.mp h1
    unfold generate at h3
    rw [hsp] at h3
    simp only at h3
    obtain ⟨is, s3, h5, h6⟩ := bind_ok.mp h3
    obtain ⟨rfl, rfl⟩ := pure_ok.mp h6
    unfold sample at h5
    rw [if_neg (by rw [hlen]; omega)] at h5
    obtain ⟨e1, e2, e3⟩ := sampleAux_inv (by rw [hlen]; omega) h5
    have htape : s1.tape = s.tape.drop k.toNat := by
      unfold addDict at h4
      obtain ⟨r, s1, q1, q2⟩ := bind_ok.mp h4
      obtain ⟨rfl, rfl⟩ := alloc_ok.mp q1
      rw [modGa_ok] at q2
      rw [q2, e3]
    obtain ⟨b1, b2⟩ := ih s1 s' u h2
    rw [htape] at b1 b2
    refine ⟨?_, ?_⟩
    · rw [List.length_cons, Nat.succ_mul]
      rw [List.length_drop] at b1
      omega
    · rintro hs ⟨hv, hrest⟩
      refine b2 ?_ hrest
      refine (addDict_lacks (s := s2) ?_ ?_ h4).1
      · rw [e3]; exact hs
      · intro hm
        rw [List.mem_map] at hm
        obtain ⟨i, hi, hiv⟩ := hm
        injection hiv with hiv
        have : i = v := by exact_mod_cast hiv
        subst this
        rw [e2] at hi
        exact hv hi

theorem fill_lacks {v a b k : Int} (hk0 : 0 ≤ k) (hk : k ≤ b - a + 1) {input : Option (List (List Val))} {s s' : St σ} {u : Unit}
    (hsp : s.ga.attrs.spec = .orderCat a b k) (hph : s.ga.attrs.isPhenotype = false) (hpop : s.ga.population = [])
    (hin : ∀ x ∈ input.getD [], Val.num (v : ℚ) ∉ x) (h : fill input s = (.ok u, s')) :
    (s.ga.attrs.numIndivid - (input.getD []).length) * k.toNat ≤ s.tape.length ∧
    (AllAvoid (pyRange a (b + 1) 1) v k.toNat (s.ga.attrs.numIndivid - (input.getD []).length) s.tape → Lacks v s') := by
  unfold fill prepare at h
  obtain ⟨_, s1, h1, h2⟩ := bind_ok.mp h
  rw [bind_of_ok (getGa_run _), hsp] at h1
  obtain ⟨_, rfl⟩ := pure_ok.mp h1
  rw [bind_of_ok (getGa_run _)] at h2
  obtain ⟨_, s2, h3, h4⟩ := bind_ok.mp h2
  obtain ⟨_, s3, h5, h6⟩ := bind_ok.mp h4
  rw [hph] at h6
  have h7 : resetIdx s3 = (.ok u, s') := h6
  obtain ⟨i1, i2, i3⟩ := inputs_lack (v := v) (at_ := s1.ga.attrs) (by rw [hsp]; simp) _ s1 s2 _ (by
    intro r hr; rw [hpop] at hr; cases hr) hin h3
  obtain ⟨g1, g2⟩ := generated_lack (v := v) hk0 hk (at_ := s1.ga.attrs) hsp _ s2 s3 _ h5
  rw [i2, List.length_range] at g1 g2
  refine ⟨g1, fun hav => ?_⟩
  have hs3 := g2 i1 hav
  obtain ⟨s4, r1, r2, _, r4, _⟩ := resetIdx_run s3
  rw [r1] at h7
  cases h7
  obtain ⟨_, rfl⟩ := r2
  intro r hr
  obtain ⟨q1, q2⟩ := hs3 r hr
  refine ⟨q1, fun g hg => q2 g ?_⟩
  obtain ⟨i, hi⟩ := r4 r
  rw [hi] at hg
  exact hg
end

/-- The state in which a facade fills its population, for a program without seed. -/
theorem startUp_fill {σ : Type} {c : Cfg} {spec : PopSpec} {task : Task σ} {mutOp : MutOp} {s s0 : St σ} {p : Fit σ × Transfer}
    (hseed : s.seed = none) (h : startUp c spec task mutOp s = (.ok p, s0)) :
    ∃ s6, fill c.input s6 = (.ok (), s0) ∧ s6.tape = s.tape ∧ s6.ga.population = [] ∧ s6.ga.attrs.numIndivid = c.numIndivid ∧
      s6.ga.attrs.spec = spec ∧ s6.ga.attrs.isPhenotype = spec.hasPhenotype := by
  unfold startUp at h
  unfold newGaData at h
  rw [bind_of_ok (modifyS_run _ _)] at h
  obtain ⟨_, s2, h2, h3⟩ := bind_ok.mp h
  have e2 : s2 = { s with
      ga := { numGenerations := c.numGenerations, childrenPercent := c.childrenPercent, earlyStop := some c.stop, attrs := { arith := c.arith } }
      snaps := [] } := by
    unfold newPopulation reseed at h2
    simp only [hseed] at h2
    simp only [Prod.mk.injEq, true_and] at h2
    rw [← h2, hseed]
  obtain ⟨_, s3, h4, h5⟩ := bind_ok.mp h3
  unfold setParams at h4
  rw [ite_run] at h4
  split at h4
  · rw [throwE_ok] at h4; exact h4.elim
  rw [modGa_ok] at h4
  obtain ⟨fit, s4, h6, h7⟩ := bind_ok.mp h5
  have e4 : s4 = { s3 with conds := s4.conds } := by
    rcases (newFitness_ok h6).2 with ⟨_, _, e, _⟩ | ⟨_, _, cs, _, _, ⟨_, _, _, e⟩ | ⟨_, _, _, _, e⟩⟩
    · rw [e]
    · rw [e]
    · rw [e]
  obtain ⟨_, s5, h8, h9⟩ := bind_ok.mp h7
  unfold newMutation at h8
  obtain ⟨l, s5', g1, g2⟩ := bind_ok.mp h8
  obtain ⟨g3, rfl⟩ := liftE_ok.mp g1
  rw [bind_of_ok (getGa_run _), modifyS_ok] at g2
  obtain ⟨tr, s6, h10, h11⟩ := bind_ok.mp h9
  obtain ⟨htr, rfl⟩ := liftE_ok.mp h10
  obtain ⟨_, s0, h12, h13⟩ := bind_ok.mp h11
  obtain ⟨rfl, rfl⟩ := pure_ok.mp h13
  refine ⟨_, h12, ?_, ?_, ?_, ?_, ?_⟩ <;> rw [g2, e4, h4, e2]

/-- C121: let the random numbers be independent and uniform.  `CombinatoryGA` with `gens = (a, b, k)`: the chance that a run, however many
generations it has, returns and has called the objective with a list that contains the value `v` is at most
`1 - ((m - k) / m) ^ n`, where `m = b - a + 1` is the number of values and `n` the number of individuals that are generated at random. -/
theorem C121_chance {c : Cfg} {a b k v : Int} {ov : Option ℚ} {s : St ℚ} (hseed : s.seed = none) (hk0 : 0 ≤ k) (hk : k ≤ b - a + 1)
    (hv : a ≤ v ∧ v ≤ b) (hin : ∀ x ∈ c.input.getD [], Val.num (v : ℚ) ∉ x) {B : Nat} (hB : 0 < B)
    (hd : ∀ m : Nat, 0 < m → (m : Int) ≤ b - a + 1 → m ∣ B) (L : Nat) :
    chance B L (fun t => ∃ s', combinatoryGA c a b k ov { s with tape := t } = (.ok (), s') ∧ ∃ g ∈ evaluated s s', Val.num (v : ℚ) ∈ g) ≤
      1 - (((b - a + 1 - k : Int) : ℚ) / ((b - a + 1 : Int) : ℚ)) ^ (c.numIndivid - (c.input.getD []).length) := by
  set n := c.numIndivid - (c.input.getD []).length with hn
  have hlen : (pyRange a (b + 1) 1).length = (b - a + 1).toNat := by rw [length_pyRange_one]; omega
  have hq : ((b - a + 1 - k : Int) : ℚ) / ((b - a + 1 : Int) : ℚ) =
      (((pyRange a (b + 1) 1).length - k.toNat : ℕ) : ℚ) / ((pyRange a (b + 1) 1).length : ℕ) := by
    rw [hlen]
    have e1 : ((b - a + 1).toNat : Int) = b - a + 1 := by omega
    have e2 : (((b - a + 1).toNat - k.toNat : ℕ) : Int) = b - a + 1 - k := by omega
    rw [← e2, ← e1]
    push_cast
    rfl
  rw [hq]
  -- what happens if the first population lacks the value
  have key : ∀ t s', combinatoryGA c a b k ov { s with tape := t } = (.ok (), s') →
      n * k.toNat ≤ t.length ∧ (AllAvoid (pyRange a (b + 1) 1) v k.toNat n t → ∀ g ∈ evaluated s s', Val.num (v : ℚ) ∉ g) := by
    intro t s' h
    have h' : (SingleFacade.combinatory a b k).optimize c ov { s with tape := t } = (.ok (), s') := h
    obtain ⟨_, _, m1, _⟩ := C71_budget h'
    rw [SingleFacade.optimize_eq] at h'
    obtain ⟨p, s0, h1, h2⟩ := bind_ok.mp h'
    obtain ⟨_, sv, h3, h4⟩ := bind_ok.mp h2
    obtain ⟨s6, f1, f2, f3, f4, f5, f6⟩ := startUp_fill (s := { s with tape := t }) hseed h1
    obtain ⟨_, _, _, _, _, _, _, _, hst⟩ := startUp_ok h1
    have l := fill_lacks (v := v) hk0 hk f5 f6 f3 hin f1
    rw [f2, f4] at l
    refine ⟨l.1, fun hav g hg hmem => ?_⟩
    have hlack := l.2 hav
    obtain ⟨first, e1, e2⟩ := C121_values h
    obtain ⟨x, hx, g0, q1, q2⟩ := e2 g hg _ hmem
    -- the first generation is the population that was created
    have hsv : sv.snaps = s'.snaps := by
      rw [ite_run] at h4
      split at h4
      · rw [printBest_state h4]
      · obtain ⟨_, rfl⟩ := pure_ok.mp h4; rfl
    obtain ⟨s1, kk, b1, b2, b3, b4, _⟩ := evolve_after h3
    have hops := singleOps_run p.1 (.tournament c.tournamentSize) .order .movement p.2
    obtain ⟨si, ha, hsi⟩ := b4.earlier hops hst.fresh 0 b4.pos
    unfold generationsOf at e1
    rw [← hsv, hsi] at e1
    injection e1 with e1
    subst e1
    obtain ⟨r, hr, rfl⟩ := List.mem_map.mp hx
    cases ha with
    | next e _ => exact absurd e.pos (by omega)
    | first j1 j2 =>
      obtain ⟨_, hperm, hheap, _, _, hS, _⟩ := first_inv hops.fitness hst.fresh j1 j2
      have hr0 := hperm.subset hr
      rw [hheap r (hst.fresh.alive r hr0), hS.geno r hr0] at q1
      exact (hlack r hr0).2 g0 q1 q2
  by_cases hL : n * k.toNat ≤ L
  · obtain ⟨L', rfl⟩ := Nat.exists_eq_add_of_le' hL
    have h1 := allAvoid_chance (L := L') hB (l := pyRange a (b + 1) 1) (v := v) nodup_pyRange_one (mem_pyRange_one.mpr hv)
      (by rw [hlen]; omega : k.toNat ≤ _) (fun m h1 h2 => hd m h1 (by rw [hlen] at h2; omega)) n
    have h2 := chance_compl (L := L' + n * k.toNat) (p := AllAvoid (pyRange a (b + 1) 1) v k.toNat n) hB
    have h3 : chance B (L' + n * k.toNat) (fun t => ∃ s', combinatoryGA c a b k ov { s with tape := t } = (.ok (), s') ∧
        ∃ g ∈ evaluated s s', Val.num (v : ℚ) ∈ g) ≤ chance B (L' + n * k.toNat) fun t => ¬ AllAvoid (pyRange a (b + 1) 1) v k.toNat n t :=
      chance_mono (by
        rintro t ⟨s', h, g, hg, hm⟩ hav
        exact (key t s' h).2 hav g hg hm)
    linarith
  · have h0 : chance B L (fun t => ∃ s', combinatoryGA c a b k ov { s with tape := t } = (.ok (), s') ∧
        ∃ g ∈ evaluated s s', Val.num (v : ℚ) ∈ g) ≤ chance B L fun _ => False :=
      chance_mono_len (by
        rintro t ht ⟨s', h, _⟩
        have := (key t s' h).1
        omega)
    rw [chance_none (p := fun _ => False) (fun _ h => h)] at h0
    refine h0.trans (sub_nonneg.mpr (pow_le_one₀ (by positivity) ?_))
    refine div_le_one_of_le₀ ?_ (by positivity)
    exact_mod_cast Nat.sub_le _ _

/-- C121: if everything as good as `o` contains a value, the chance to return something as good as `o` has the same bound. -/
theorem C121_optimum {c : Cfg} {a b k v : Int} {ov : Option ℚ} {s : St ℚ} (hx : c.arith = .exact) (hu : ¬ Constrained c s.conds)
    (hseed : s.seed = none) (hk0 : 0 ≤ k) (hk : k ≤ b - a + 1) (hv : a ≤ v ∧ v ≤ b) (hin : ∀ x ∈ c.input.getD [], Val.num (v : ℚ) ∉ x)
    {o : ℚ} (ho : ∀ x o', c.objective x = .ok (.sc o') → cost ov o' ≤ cost ov o → Val.num (v : ℚ) ∈ x) {B : Nat} (hB : 0 < B)
    (hd : ∀ m : Nat, 0 < m → (m : Int) ≤ b - a + 1 → m ∣ B) (L : Nat) :
    chance B L (fun t => ∃ s', combinatoryGA c a b k ov { s with tape := t } = (.ok (), s') ∧
        ∃ r gen o', s'.ga.best = some (.single r gen) ∧ (s'.heap r).objScore = some (.sc o') ∧ cost ov o' ≤ cost ov o) ≤
      1 - (((b - a + 1 - k : Int) : ℚ) / ((b - a + 1 : Int) : ℚ)) ^ (c.numIndivid - (c.input.getD []).length) := by
  refine le_trans (chance_mono ?_) (C121_chance (c := c) (ov := ov) hseed hk0 hk hv hin hB hd L)
  rintro t ⟨s', h, r, gen, o', e1, e2, e3⟩
  have h' : (SingleFacade.combinatory a b k).optimize c ov { s with tape := t } = (.ok (), s') := h
  obtain ⟨r', gen', g, o'', b1, _, b3, b4, b5, _⟩ := C72_best_of_all (s := { s with tape := t }) hx hu h'
  rw [e1] at b1
  injection b1 with b1
  injection b1 with b1
  subst b1
  rw [e2] at b5
  injection b5 with b5
  injection b5 with b5
  subst b5
  exact ⟨s', h, g, b3, ho g o' b4 e3⟩

/-- What one would expect after C108: enough generations find any tour with a probability as close to one as one likes. -/
def TourFound : Prop :=
  ∀ (a b k : Int) (B : Nat), 0 < B → (∀ m : Nat, 0 < m → (m : Int) ≤ b - a + 1 → m ∣ B) → ∀ ε : ℚ, 0 < ε →
    ∃ n, ∀ (c : Cfg) (ov : Option ℚ) (s : St ℚ) (x : List Val), Admissible (.combinatory a b k) c s.conds → c.arith = .exact → s.seed = none →
      c.tournamentSize ≤ (c.children : Int) → IsTrack a b k x → c.earlyStop = none → max c.numIndivid c.children < B → n ≤ c.numGenerations →
      ∃ N, ∀ L, N ≤ L → 1 - ε ≤
        chance B L (fun t => ∃ s', combinatoryGA c a b k ov { s with tape := t } = (.ok (), s') ∧ x ∈ evaluated s s')

/-- Three of the values 0, 1, 2, 3; four individuals, of which two are replaced. -/
def exLostCfg (n : Nat) : Cfg :=
  { exCfg with numGenerations := n, earlyStop := none, obj1 := fun g => .ok (.sc (if Val.num 3 ∈ g then 0 else 1)) }

theorem exLost_admissible (n : Nat) : Admissible (.combinatory 0 3 3) (exLostCfg n) none where
  genes := ⟨by norm_num, by norm_num⟩
  input := by intro x hx; cases hx
  room := show 0 ≤ 4 by decide
  size := show (2 : Int) ≤ 2 by decide
  size_lt := show (2 : Int) < 4 by decide
  level := .inl ⟨1 / 100, rfl, by norm_num, by norm_num⟩
  transfer := .inl rfl
  objective := .inl ⟨.inl rfl, fun x _ => ⟨_, rfl⟩⟩
  arith := .inl rfl

/-- Whether the value 3 is met is settled by the first generation: two runs that return. -/
example : (combinatoryGA (exLostCfg 2) 0 3 3 none { tape := List.replicate 12 0 ++ exTape }).1 = .ok () ∧
    (evaluated { tape := [] } (combinatoryGA (exLostCfg 2) 0 3 3 none { tape := List.replicate 12 0 ++ exTape }).2).all (fun g => Val.num 3 ∉ g) = true ∧
    (combinatoryGA (exLostCfg 3) 0 3 3 none { tape := exTape }).1 = .ok () ∧
    (evaluated { tape := [] } (combinatoryGA (exLostCfg 3) 0 3 3 none { tape := exTape }).2).any (fun g => Val.num 3 ∈ g) = true := by
  decide +kernel

/-- The hypothesis of `C121_optimum` about the objective: every list with the value 0 contains 3. -/
example (n : Nat) : ∀ x o', (exLostCfg n).objective x = .ok (.sc o') → cost (some 0) o' ≤ cost (some 0) 0 → Val.num ((3 : Int) : ℚ) ∈ x := by
  intro x o' h ho
  have e : (exLostCfg n).objective x = .ok (.sc (if Val.num 3 ∈ x then 0 else 1)) := rfl
  rw [e] at h
  by_cases hx : Val.num 3 ∈ x
  · simpa using hx
  · rw [if_neg hx] at h
    have h1 : (1 : ℚ) = o' := by injection h with h; injection h
    subst h1
    norm_num [cost] at ho

/-- C121: enough generations do not. -/
theorem C121_refuted : ¬ TourFound := by
  intro h
  have hch : ∀ n, (exLostCfg n).children = 2 := fun n => show exCfg.children = 2 by decide +kernel
  obtain ⟨n, hn⟩ := h 0 3 3 12 (by norm_num) (by
    intro m h1 h2
    have : m ≤ 4 := by omega
    interval_cases m <;> decide) (1 / 512) (by norm_num)
  obtain ⟨N, hN⟩ := hn (exLostCfg n) none { tape := [] } [.num 1, .num 2, .num 3] (exLost_admissible n) rfl rfl (by rw [hch]; exact le_refl (2 : Int))
    ⟨rfl, by decide, by
      intro x hx
      simp only [List.mem_cons, List.not_mem_nil, or_false] at hx
      rcases hx with rfl | rfl | rfl
      · exact ⟨1, by norm_num, by norm_num, by norm_num⟩
      · exact ⟨2, by norm_num, by norm_num, by norm_num⟩
      · exact ⟨3, by norm_num, by norm_num, by norm_num⟩⟩ rfl (by rw [hch]; show max 4 2 < 12; decide) le_rfl
  have h1 := hN N le_rfl
  have h2 := C121_chance (c := exLostCfg n) (a := 0) (b := 3) (k := 3) (v := 3) (ov := none) (s := { tape := [] }) rfl (by norm_num) (by norm_num)
    (by norm_num) (by intro x hx; cases hx) (B := 12) (by norm_num) (by
      intro m h1 h2
      have : m ≤ 4 := by omega
      interval_cases m <;> decide) N
  have h3 := chance_mono (B := 12) (L := N) (p := fun t => ∃ s', combinatoryGA (exLostCfg n) 0 3 3 none { tape := t } = (.ok (), s') ∧
      [Val.num 1, .num 2, .num 3] ∈ evaluated { tape := [] } s') (q := fun t => ∃ s', combinatoryGA (exLostCfg n) 0 3 3 none { tape := t } = (.ok (), s') ∧
      ∃ g ∈ evaluated { tape := [] } s', Val.num ((3 : Int) : ℚ) ∈ g) (by
    rintro t ⟨s', e1, e2⟩
    exact ⟨s', e1, _, e2, by simp⟩)
  have h4 := (h1.trans h3).trans h2
  have e : (exLostCfg n).numIndivid - ((exLostCfg n).input.getD []).length = 4 := rfl
  rw [e] at h4
  norm_num at h4
end BaumEva
