import Verif.Props.Convergence
import Verif.Props.Restart
import Verif.Props.HandConvergence
import Verif.Props.ParetoConvergence
import Verif.Spec.Mean
/-!
# C119: the expected number of generations until a point is found
-/
namespace BaumEva
open Spec

theorem before_le {σ : Type} {p : List (Ind σ) → Prop} : ∀ {ls : List (List (Ind σ))}, before p ls ≤ ls.length
  | [] => le_rfl
  | l :: ls => by
    unfold before
    split
    · simp
    · have := before_le (p := p) (ls := ls)
      simp only [List.length_cons]; omega

theorem before_take {σ : Type} {p : List (Ind σ) → Prop} : ∀ {ls : List (List (Ind σ))} {n : Nat}, n ≤ before p ls →
    ∀ l ∈ ls.take n, ¬ p l
  | [], n, _ => by simp
  | l :: ls, 0, _ => by simp
  | l :: ls, n + 1, h => by
    unfold before at h
    split at h
    · omega
    · rename_i hl
      intro x hx
      rw [List.take_succ_cons, List.mem_cons] at hx
      rcases hx with rfl | hx
      · exact hl
      · exact before_take (by omega) x hx

theorem before_at {σ : Type} {p : List (Ind σ) → Prop} : ∀ {ls : List (List (Ind σ))}, before p ls < ls.length →
    ∃ l, ls[before p ls]? = some l ∧ p l
  | [], h => by simp [before] at h
  | l :: ls, h => by
    unfold before at h ⊢
    split at h
    · rename_i hl
      exact ⟨l, by simp [hl], hl⟩
    · rename_i hl
      simp only [List.length_cons, Nat.add_lt_add_iff_right] at h
      obtain ⟨x, a, b⟩ := before_at (p := p) (ls := ls) h
      exact ⟨x, by simp [hl, a], b⟩

theorem before_mono {σ : Type} {p q : List (Ind σ) → Prop} (hpq : ∀ l, p l → q l) : ∀ {ls : List (List (Ind σ))}, before q ls ≤ before p ls
  | [] => le_rfl
  | l :: ls => by
    unfold before
    by_cases h : p l
    · simp [h, hpq l h]
    · rw [if_neg h]
      split
      · omega
      · have := before_mono hpq (ls := ls)
        omega

/-! ## Means -/

theorem sum_indicators (m n : Nat) (h : n ≤ m) : ((List.range m).map fun i => if i + 1 ≤ n then 1 else 0).sum = n := by
  induction m generalizing n with
  | zero => simp; omega
  | succ m ih =>
    rw [List.range_succ, List.map_append, List.sum_append]
    rcases Nat.lt_or_ge m n with hlt | hge
    · obtain rfl : n = m + 1 := by omega
      have : (List.range m).map (fun i => if i + 1 ≤ m + 1 then 1 else 0) = (List.range m).map fun i => if i + 1 ≤ m then 1 else 0 := by
        refine List.map_congr_left fun i hi => ?_
        have := List.mem_range.mp hi
        rw [if_pos (by omega), if_pos (by omega)]
      rw [this, ih m le_rfl]
      simp
    · rw [ih n hge]
      simp; omega

open Classical in
theorem sum_tails {β : Type} (f : β → Nat) (m : Nat) : ∀ ts : List β, (∀ t ∈ ts, f t ≤ m) →
    (ts.map f).sum = ((List.range m).map fun i => ts.countP fun t => decide (i + 1 ≤ f t)).sum
  | [], _ => by simp
  | t :: ts, h => by
    rw [List.map_cons, List.sum_cons, sum_tails f m ts fun t ht => h t (List.mem_cons_of_mem _ ht),
      ← sum_indicators m (f t) (h t List.mem_cons_self), ← List.sum_map_add]
    congr 1
    refine List.map_congr_left fun i _ => ?_
    rw [List.countP_cons, Nat.add_comm]
    simp

/-- The mean of a number is the sum of the chances that it is at least 1, 2, …. -/
theorem mean_tails (B L : Nat) (f : List Nat → Nat) : ∃ m, mean B L f = ((List.range m).map fun i => chance B L fun t => i + 1 ≤ f t).sum := by
  classical
  obtain ⟨m, hm⟩ : ∃ m, ∀ t ∈ tapes B L, f t ≤ m :=
    ⟨((tapes B L).map f).sum, fun t ht => List.single_le_sum (by simp) _ (List.mem_map_of_mem ht)⟩
  refine ⟨m, ?_⟩
  unfold mean
  rw [sum_tails f m (tapes B L) hm]
  clear hm
  induction m with
  | zero => simp
  | succ m ih =>
    rw [List.range_succ, List.map_append, List.map_append, List.sum_append, List.sum_append, Nat.cast_add, add_div, ih]
    simp [chance]

theorem geometric_le {δ : ℚ} (h0 : 0 < δ) (h1 : δ ≤ 1) (m : Nat) : ((List.range m).map fun i => (1 - δ) ^ i).sum ≤ 1 / δ := by
  have key : δ * ((List.range m).map fun i => (1 - δ) ^ i).sum = 1 - (1 - δ) ^ m := by
    induction m with
    | zero => simp
    | succ m ih =>
      rw [List.range_succ, List.map_append, List.sum_append, mul_add, ih]
      simp only [List.map_cons, List.map_nil, List.sum_cons, List.sum_nil, pow_succ]
      ring
  rw [le_div_iff₀ h0, mul_comm, key]
  have : 0 ≤ (1 - δ) ^ m := pow_nonneg (by linarith) _
  linarith

theorem mean_geometric {B L : Nat} {f : List Nat → Nat} {δ : ℚ} (h0 : 0 < δ) (h1 : δ ≤ 1)
    {K : Nat} (h : ∀ n, chance B L (fun t => n + 1 ≤ f t) ≤ K * (1 - δ) ^ n) : mean B L f ≤ K / δ := by
  obtain ⟨m, hm⟩ := mean_tails B L f
  rw [hm]
  refine le_trans (List.sum_le_sum fun i _ => h i) ?_
  rw [List.sum_map_mul_left, div_eq_mul_one_div]
  exact mul_le_mul_of_nonneg_left (geometric_le h0 h1 m) (by positivity)

theorem mean_mono {B L : Nat} {f g : List Nat → Nat} (h : ∀ t, f t ≤ g t) : mean B L f ≤ mean B L g := by
  unfold mean
  refine div_le_div_of_nonneg_right ?_ (by positivity)
  exact_mod_cast List.sum_le_sum fun t _ => h t

/-! ## Runs -/

open Classical in
/-- How many generations the program `prog` makes on the tape `t` before the first with the property `p`: all if there is none; 0 if
it does not return on this tape. -/
noncomputable def waits {σ : Type} (prog : M σ Unit) (s : St σ) (p : List (Ind σ) → Prop) (t : List Nat) : Nat :=
  if (prog { s with tape := t }).1 = .ok () then before p (generationsOf (prog { s with tape := t }).2) else 0

theorem waits_run {σ : Type} {prog : M σ Unit} {s : St σ} {p : List (Ind σ) → Prop} {t : List Nat} {n : Nat}
    (hlen : ∀ s', prog { s with tape := t } = (.ok (), s') → (generationsOf s').length = s'.ga.idxGeneration)
    (h : n + 1 ≤ waits prog s p t) : ∃ s', prog { s with tape := t } = (.ok (), s') ∧ n + 1 ≤ s'.ga.idxGeneration ∧
      ∀ l ∈ (generationsOf s').take (n + 1), ¬ p l := by
  unfold waits at h
  split at h
  · rename_i hok
    have hrun : prog { s with tape := t } = (.ok (), (prog { s with tape := t }).2) := by rw [← hok]
    refine ⟨_, hrun, ?_, before_take h⟩
    rw [← hlen _ hrun]
    exact h.trans before_le
  · omega

theorem mean_waits {σ : Type} {prog : M σ Unit} {s : St σ} {p : List (Ind σ) → Prop} {B L : Nat} {δ : ℚ} (h0 : 0 < δ) (h1 : δ ≤ 1)
    (hlen : ∀ t s', prog { s with tape := t } = (.ok (), s') → (generationsOf s').length = s'.ga.idxGeneration)
    (h : ∀ n, chance B L (fun t => ∃ s', prog { s with tape := t } = (.ok (), s') ∧ n ≤ s'.ga.idxGeneration ∧
      ∀ l ∈ (generationsOf s').take n, ¬ p l) ≤ (1 - δ) ^ (n - 1)) : mean B L (waits prog s p) ≤ 1 / δ := by
  have := mean_geometric (B := B) (L := L) (f := waits prog s p) (K := 1) h0 h1 fun n => by
    rw [Nat.cast_one, one_mul]
    exact le_trans (chance_mono fun t ht => waits_run (hlen t) ht) (h (n + 1))
  rwa [Nat.cast_one] at this

theorem waits_mono {σ : Type} {prog : M σ Unit} {s : St σ} {p q : List (Ind σ) → Prop} (h : ∀ l, p l → q l) (t : List Nat) :
    waits prog s q t ≤ waits prog s p t := by
  unfold waits
  split
  · exact before_mono h
  · exact le_rfl

theorem SingleFacade.snaps_length {f : SingleFacade} {c : Cfg} {ov : Option ℚ} {s s' : St ℚ} (h : f.optimize c ov s = (.ok (), s')) :
    (generationsOf s').length = s'.ga.idxGeneration := by
  obtain ⟨p, s0, sa, sb, k, _, _, hst, _, hk⟩ := f.run_full h
  have := (hk.inv (singleOps_run p.1 (.tournament c.tournamentSize) f.cross f.mutOp p.2) hst.fresh).hist
  rw [this.idx]; exact this.snaps

/-- C119: the expected number of generations before the first that contains a given point is at most `1 / δ`, however many
generations, individuals and children the run has. -/
theorem C119_point {f : SingleFacade} {c : Cfg} {ov : Option ℚ} {s : St ℚ} (ha : Admissible f c s.conds)
    (hxa : c.arith = .exact) (hseed : s.seed = none) (hch : 1 ≤ c.children) (hun : f.Uncertain c.mutationLvl)
    {B : Nat} (hB : 0 < B) {δ : ℚ} (hδ : f.Odds B δ) {x : List Val} (hx : f.Point x) (L : Nat) :
    mean B L (waits (f.optimize c ov) s fun l => ∃ y ∈ l, argument f.spec.hasPhenotype y = some x) ≤ 1 / δ := by
  refine mean_waits (hδ.pos ha.genes) hδ.le_one (fun t s' h => f.snaps_length h) fun n => ?_
  refine le_trans (chance_mono ?_) (C107_late (ov := ov) ha hxa hseed hch hun hB hδ hx n L)
  rintro t ⟨s', h, hn, hno⟩
  exact ⟨s', h, hn, fun l hl y hy e => hno l hl ⟨y, hy, e⟩⟩

/-- C119: the expected number of generations before the first that contains an individual at least as good as a given point. -/
theorem C119_as_good {f : SingleFacade} {c : Cfg} {ov : Option ℚ} {s : St ℚ} (ha : Admissible f c s.conds)
    (hxa : c.arith = .exact) (hseed : s.seed = none) (hch : 1 ≤ c.children) (hun : f.Uncertain c.mutationLvl)
    {B : Nat} (hB : 0 < B) {δ : ℚ} (hδ : f.Odds B δ) {x : List Val} (hx : f.Point x) {o : ℚ}
    (ho : c.objective x = .ok (.sc o)) (L : Nat) :
    mean B L (waits (f.optimize c ov) s fun l => ∃ y ∈ l, ∃ z oz, argument f.spec.hasPhenotype y = some z ∧ c.objective z = .ok (.sc oz) ∧
      cost ov oz ≤ cost ov o) ≤ 1 / δ := by
  refine le_trans (mean_mono (waits_mono ?_)) (C119_point (ov := ov) ha hxa hseed hch hun hB hδ hx L)
  rintro l ⟨y, hy, e⟩
  exact ⟨y, hy, x, o, e, ho, le_rfl⟩

open Classical in
/-- The generation `best_solution` was found in, 0 if the run does not return. -/
noncomputable def SingleFacade.found (f : SingleFacade) (c : Cfg) (ov : Option ℚ) (s : St ℚ) (t : List Nat) : Nat :=
  if (f.optimize c ov { s with tape := t }).1 = .ok () then
    match (f.optimize c ov { s with tape := t }).2.ga.best with
    | some (.single _ g) => g
    | _ => 0
  else 0

/-- In an unconstrained task `best_solution` is found no later than an optimum. -/
theorem SingleFacade.found_le {f : SingleFacade} {c : Cfg} {ov : Option ℚ} {s : St ℚ} (ha : Admissible f c s.conds)
    (hxa : c.arith = .exact) (hu : ¬ Constrained c s.conds) {x : List Val} {o : ℚ} (ho : c.objective x = .ok (.sc o))
    (hopt : ∀ z oz, f.Points c.arith z → c.objective z = .ok (.sc oz) → cost ov o ≤ cost ov oz) (t : List Nat) :
    f.found c ov s t ≤ waits (f.optimize c ov) s (fun l => ∃ y ∈ l, argument f.spec.hasPhenotype y = some x) t := by
  unfold SingleFacade.found waits
  split
  · rename_i hok
    have hrun := of_ok hok
    generalize (f.optimize c ov { s with tape := t }).2 = s' at hrun
    obtain ⟨p, s0, sa, sb, k, _, _, hst, _, hk⟩ := f.run_full hrun
    have hops := singleOps_run p.1 (.tournament c.tournamentSize) f.cross f.mutOp p.2
    obtain ⟨b, g, v, h1, h2, h3, ⟨l, h4, h5⟩, h6⟩ := C42_best_of_history hst.fresh hk
    rw [h1]
    simp only
    by_contra hlt
    have hlen : (generationsOf s').length = k := (hk.inv hops hst.fresh).hist.snaps
    obtain ⟨l', e1, y, hy, hyx⟩ := before_at (p := fun l => ∃ y ∈ l, argument f.spec.hasPhenotype y = some x) (ls := generationsOf s') (by omega)
    generalize before (fun l => ∃ y ∈ l, argument f.spec.hasPhenotype y = some x) (generationsOf s') = w at *
    obtain ⟨sc, w1, _, w3⟩ := h6 w l' (by omega) ((snap_generations hops hst.fresh hk (by omega) l').mpr e1) y hy
    have w3 := w3 (by omega)
    have htr := C72_truthful (s := { s with tape := t }) hu hrun
    obtain ⟨z, oz, t1, t2, _, t4⟩ := htr l' (List.mem_of_getElem? e1) y hy
    obtain ⟨z', oz', u1, u2, _, u4⟩ := htr l (List.mem_of_getElem? ((snap_generations hops hst.fresh hk h3 l).mp h4)) _ h5
    obtain ⟨_, _, _, m2⟩ := C71_budget hrun
    obtain ⟨z'', m3, m4⟩ := m2 l (List.mem_of_getElem? ((snap_generations hops hst.fresh hk h3 l).mp h4)) _ h5
    rw [hyx] at t1
    injection t1 with t1
    subst t1
    rw [ho] at t2
    injection t2 with t2
    injection t2 with t2
    subst t2
    rw [u1] at m4
    injection m4 with m4
    subst m4
    rw [w1] at t4
    injection t4 with t4
    rw [h2] at u4
    injection u4 with u4
    rw [t4, u4, hxa] at w3
    have hle := hopt z' oz' (evaluated_points (s := { s with tape := t }) ha hrun z' m3) u2
    have := (earned_le (target := ov) le_rfl le_rfl).mpr (by linarith : cost ov o + 0 ≤ cost ov oz' + 0)
    linarith
  · exact Nat.zero_le _

/-- C119: in an unconstrained task that has an optimum, the expected value of `best_solution['idx_generation']` is at most
`1 / δ`. -/
theorem C119_found {f : SingleFacade} {c : Cfg} {ov : Option ℚ} {s : St ℚ} (ha : Admissible f c s.conds)
    (hxa : c.arith = .exact) (hu : ¬ Constrained c s.conds) (hseed : s.seed = none) (hch : 1 ≤ c.children) (hun : f.Uncertain c.mutationLvl)
    {B : Nat} (hB : 0 < B) {δ : ℚ} (hδ : f.Odds B δ) {x : List Val} (hx : f.Point x) {o : ℚ}
    (ho : c.objective x = .ok (.sc o))
    (hopt : ∀ z oz, f.Points c.arith z → c.objective z = .ok (.sc oz) → cost ov o ≤ cost ov oz) (L : Nat) :
    mean B L (f.found c ov s) ≤ 1 / δ := by
  exact le_trans (mean_mono fun t => f.found_le ha hxa hu ho hopt t) (C119_point (ov := ov) ha hxa hseed hch hun hB hδ hx L)

/-! ## Programs assembled by hand -/

section
variable {f : SingleFacade} {c : Cfg} {sel : SelOp} {op : CrossOp} {ov goal : Option ℚ} {s : St ℚ}

theorem byHand_waits {prog : M ℚ Unit} (hprog : ByHand c f.spec sel op f.mutOp ov (some c.stop) prog) (ha : Composed f c op f.mutOp s)
    (hxa : c.arith = .exact) (hseed : s.seed = none) (hch : 1 ≤ c.children) (hun : f.Uncertain c.mutationLvl)
    {B : Nat} (hB : 0 < B) {δ : ℚ} (hδ : f.Odds B δ) {x : List Val} (hx : f.Point x) (L : Nat) :
    mean B L (waits prog s fun l => ∃ y ∈ l, argument f.spec.hasPhenotype y = some x) ≤ 1 / δ := by
  refine mean_waits (hδ.pos ha.genes) hδ.le_one (fun t s' h => ?_) fun n => ?_
  · obtain ⟨p, s0, k, _, hr⟩ := hprog.run h
    have := (hr.after.inv (singleOps_run p.1 sel op f.mutOp p.2) hr.started.fresh).hist
    rw [this.idx]; exact this.snaps
  · refine le_trans (chance_mono ?_) (byHand_late hprog ha hxa hseed hch hun hB hδ hx n L)
    rintro t ⟨s', h, hn, hno⟩
    exact ⟨s', h, hn, fun l hl y hy e => hno l hl ⟨y, hy, e⟩⟩

/-- C119: the same for programs in collector mode, whatever the selection and the crossover. -/
theorem C119_collector (ha : Composed f c op f.mutOp s) (hxa : c.arith = .exact) (hseed : s.seed = none) (hch : 1 ≤ c.children)
    (hun : f.Uncertain c.mutationLvl) {B : Nat} (hB : 0 < B) {δ : ℚ} (hδ : f.Odds B δ) {x : List Val} (hx : f.Point x) (L : Nat) :
    mean B L (waits (collectorGA c f.spec sel op f.mutOp ov) s fun l => ∃ y ∈ l, argument f.spec.hasPhenotype y = some x) ≤ 1 / δ :=
  byHand_waits collectorGA_byHand ha hxa hseed hch hun hB hδ hx L

/-- C119: and for the loop the README recommends for advanced mode. -/
theorem C119_advanced {e : Int} (he : c.earlyStop = some e) (ha : Composed f c op f.mutOp s) (hxa : c.arith = .exact)
    (hseed : s.seed = none) (hch : 1 ≤ c.children) (hun : f.Uncertain c.mutationLvl) {B : Nat} (hB : 0 < B) {δ : ℚ} (hδ : f.Odds B δ)
    {x : List Val} (hx : f.Point x) (L : Nat) :
    mean B L (waits (advancedGA c f.spec sel op f.mutOp ov goal) s fun l => ∃ y ∈ l, argument f.spec.hasPhenotype y = some x) ≤ 1 / δ :=
  byHand_waits (advancedGA_byHand he) ha hxa hseed hch hun hB hδ hx L

end

/-! ## Several objectives -/

theorem ffga_length {c : Cfg} {gray : Bool} {gens : List BinGene} {s s' : St ℚ} (hv : UniformVecs c.obj1)
    (h : ffga c gray gens s = (.ok (), s')) : (generationsOf s').length = s'.ga.idxGeneration := by
  obtain ⟨fit, tr, s0, k, hfo, _, _, _, _, _, h0, hk, hops, _⟩ := ffga_ledger hv h
  rw [(hk.multi hops h0).idx]
  exact (hk.multi hops h0).snaps

theorem vega_length {c : Cfg} {gray : Bool} {gens : List BinGene} {ov : Option (List ℚ)} {s s' : St (List ℚ)} (hv : UniformVecs c.obj1)
    (h : vega c gray gens ov s = (.ok (), s')) : (generationsOf s').length = s'.ga.idxGeneration := by
  obtain ⟨m, fit, tr, s0, k, _, _, _, _, _, _, _, h0, hk, hops, _⟩ := vega_ledger hv h
  rw [(hk.multi hops h0).idx]
  exact (hk.multi hops h0).snaps

/-- C119 for `FFGA`. -/
theorem C119_ffga {c : Cfg} {gray : Bool} {gens : List BinGene} {s : St ℚ} (ha : FfgaAdmissible gray gens c s.conds)
    (hseed : s.seed = none) (hch : 1 ≤ c.children) (hun : (SingleFacade.binary gray gens).Uncertain c.mutationLvl) {B : Nat} (hB : 0 < B)
    {δ : ℚ} (hδ : (SingleFacade.binary gray gens).Odds B δ) {x : List Val} (hx : List.Forall₂ OnGrid gens x) (L : Nat) :
    mean B L (waits (ffga c gray gens) s fun l => ∃ y ∈ l, y.phenotype = some x) ≤ 1 / δ := by
  obtain ⟨_, ht⟩ := ha.task
  refine mean_waits (hδ.pos ht.genes) hδ.le_one (fun t s' h => ffga_length ht.uniform h) fun n => ?_
  refine le_trans (chance_mono ?_) (ffga_late ha hseed hch hun hB hδ hx n L)
  rintro t ⟨s', h, hn, hno⟩
  exact ⟨s', h, hn, fun l hl y hy e => hno l hl ⟨y, hy, e⟩⟩

/-- C119 for `VEGA`. -/
theorem C119_vega {c : Cfg} {gray : Bool} {gens : List BinGene} {ov : Option (List ℚ)} {s : St (List ℚ)} {m k : Nat}
    (ha : VegaAdmissible gray gens c ov s.conds m k) (hxa : c.arith = .exact)
    (hseed : s.seed = none) (hch : 1 ≤ c.vegaChildren m) (hun : (SingleFacade.binary gray gens).Uncertain c.mutationLvl) {B : Nat} (hB : 0 < B)
    {δ : ℚ} (hδ : (SingleFacade.binary gray gens).Odds B δ) {x : List Val} (hx : List.Forall₂ OnGrid gens x) (L : Nat) :
    mean B L (waits (vega c gray gens ov) s fun l => ∃ y ∈ l, y.phenotype = some x) ≤ 1 / δ := by
  refine mean_waits (hδ.pos ha.task.genes) hδ.le_one (fun t s' h => vega_length ha.task.uniform h) fun n => ?_
  refine le_trans (chance_mono ?_) (vega_late ha hxa hseed hch hun hB hδ hx n L)
  rintro t ⟨s', h, hn, hno⟩
  exact ⟨s', h, hn, fun l hl y hy e => hno l hl ⟨y, hy, e⟩⟩

/-- Once a run has met every point of a list that matches all of the grid, the individuals of rank 1 are a Pareto front of the whole
search space. -/
theorem ffga_front_at {c : Cfg} {gray : Bool} {gens : List BinGene} {s s' : St ℚ} (hx : c.arith = .exact) (hv : UniformVecs c.obj1)
    (hn : ¬ Constrained c s.conds) (hi : c.inputTruthy = false) (htr : c.transfer = "best") (h : ffga c gray gens s = (.ok (), s'))
    {xs : List (List Val)} (hcov : ∀ y oy, List.Forall₂ OnGrid gens y → c.obj1 y = .ok (.tup oy) →
      ∃ x ∈ xs, ∃ o, c.obj1 x = .ok (.tup o) ∧ AsGood o oy) {n : Nat}
    (hmet : ∀ x ∈ xs, ∃ l ∈ (generationsOf s').take (n + 1), ∃ a ∈ l, a.phenotype = some x) {l : List (Ind ℚ)}
    (hl : (generationsOf s')[n]? = some l) : IsFront gens c.obj1 (l.filter fun a => a.rank = some (.sc 1)) := by
  obtain ⟨ht, _⟩ := C85_ffga_truthful hv hn h
  have hbill := C83_ffga hv h
  have hgrid := ffga_onGrid hx hv h
  have hobj : c.objective = c.obj1 := by unfold Cfg.objective; rw [hi]; rfl
  have hvec : ∀ x : Ind ℚ, VecTruthful c x → ∃ p o, x.phenotype = some p ∧ c.obj1 p = .ok (.tup o) ∧ x.objScore = some (.tup o) ∧
      vecOf c.obj1 x = o := by
    rintro x ⟨p, o, h1, h2, h3, _⟩
    rw [hobj] at h2
    exact ⟨p, o, h1, h2, h3, IsVec.vecOf ⟨p, h1, h2⟩⟩
  obtain ⟨fit, tr, s0, k, hfit, htr', hst, _, hk⟩ := ffga_run h
  have hfo : fit.task.obj1 = c.obj1 := by rw [hfit]; rfl
  have hv' : UniformVecs fit.task.obj1 := by rw [hfo]; exact hv
  obtain rfl : tr = .best := by
    rw [htr] at htr'
    simp [checkTransfer] at htr'
    exact htr'.symm
  have hops := ffgaOps_run hv' .balanced .onePoint .binString .best
  have hlen := (hk.multi hops hst.fresh).snaps
  have hnk : n < k := by
    rw [← hlen]
    exact (List.getElem?_eq_some_iff.mp hl).1
  obtain ⟨sn, hsn, en⟩ := hk.multi_recorded hops hst.fresh n hnk
  obtain rfl : sn.ga.population.map sn.heap = l := Option.some.inj (en.symm.trans hl)
  have hinv := hsn.multi hops hst.fresh
  have hset : (sn.ga.population.map sn.heap).filter (fun a => a.rank = some (.sc 1)) = paretoSet sn := by
    rw [hinv.paretoSet, List.filter_map]
    rfl
  rw [hset]
  have hmem : ∀ a ∈ paretoSet sn, a ∈ sn.ga.population.map sn.heap := by
    intro a ha
    rw [← hset] at ha
    exact (List.mem_filter.mp ha).1
  have hgen : sn.ga.population.map sn.heap ∈ generationsOf s' := List.mem_of_getElem? hl
  -- every point of the grid is matched
  have hall : ∀ y oy, List.Forall₂ OnGrid gens y → c.obj1 y = .ok (.tup oy) → ∃ a ∈ paretoSet sn, ∃ o, a.objScore = some (.tup o) ∧
      vecOf c.obj1 a = o ∧ AsGood o oy := by
    intro y oy hy hoy
    obtain ⟨x, hx, o, ho, hoo⟩ := hcov y oy hy hoy
    obtain ⟨l, hl, a, ha, hax⟩ := hmet x hx
    obtain ⟨i, e⟩ := List.mem_iff_getElem?.mp hl
    have hin : i < n + 1 := by
      have := (List.getElem?_eq_some_iff.mp e).1
      rw [List.length_take] at this
      omega
    rw [List.getElem?_take_of_lt hin] at e
    obtain ⟨si, hsi, ei⟩ := hk.multi_recorded hops hst.fresh i (by omega)
    obtain rfl : si.ga.population.map si.heap = l := Option.some.inj (ei.symm.trans e)
    obtain ⟨r, hr, rfl⟩ := List.mem_map.mp ha
    obtain ⟨b, hb, hbr⟩ := C55_never_lost hv' (by simp) hst.fresh hsi hsn (by omega) r hr
    obtain ⟨p', o', p1, p2, _, p4⟩ := hvec _ (ht _ (List.mem_of_getElem? e) _ ha)
    rw [hax] at p1
    injection p1 with p1
    subst p1
    rw [ho] at p2
    injection p2 with p2
    injection p2 with p2
    subst p2
    obtain ⟨pb, ob, _, _, b3, b4⟩ := hvec b (ht _ hgen b (hmem b hb))
    rw [hfo, b4, p4] at hbr
    exact ⟨b, hb, ob, b3, b4, hbr.trans hoo⟩
  constructor
  · intro a ha
    obtain ⟨p, o, p1, p2, p3, p4⟩ := hvec a (ht _ hgen a (hmem a ha))
    refine ⟨p, o, p1, hgrid p ((hbill.points p).mpr ⟨_, hgen, a, hmem a ha, p1⟩), p2, p3, ?_⟩
    intro y oy hy hoy hdom
    obtain ⟨b, hb, ob, _, b4, b5⟩ := hall y oy hy hoy
    have hd : Dominates ob o := Dominates.trans_asGood b5 hdom
    rw [hinv.paretoSet] at ha hb
    obtain ⟨ra, hra, rfl⟩ := List.mem_map.mp ha
    obtain ⟨rb, hrb, rfl⟩ := List.mem_map.mp hb
    rw [List.mem_filter] at hra hrb
    have hnd := (hinv.rank_one hra.1).mp (by simpa using hra.2)
    rw [hfo] at hnd
    refine hnd _ (List.mem_map.mpr ⟨rb, hrb.1, rfl⟩) ?_
    rw [b4, p4]
    exact hd
  · intro y oy hy hoy
    obtain ⟨b, hb, ob, b3, _, b5⟩ := hall y oy hy hoy
    exact ⟨b, hb, ob, b3, b5⟩

/-- C119, the front: if `m` points of the grid match all of the grid, then the expected number of generations of an unconstrained run of
`FFGA` with `transfer_parents="best"` before the first whose individuals of rank 1 are a Pareto front of the whole search space is at most
`m / δ`. -/
theorem C119_ffga_front {c : Cfg} {gray : Bool} {gens : List BinGene} {s : St ℚ} (ha : FfgaAdmissible gray gens c s.conds)
    (hnc : ¬ Constrained c s.conds) (hseed : s.seed = none) (htr : c.transfer = "best") (hch : 1 ≤ c.children)
    (hun : (SingleFacade.binary gray gens).Uncertain c.mutationLvl) {B : Nat} (hB : 0 < B) {δ : ℚ}
    (hδ : (SingleFacade.binary gray gens).Odds B δ) {xs : List (List Val)} (hxs : ∀ x ∈ xs, List.Forall₂ OnGrid gens x)
    (hcov : ∀ y oy, List.Forall₂ OnGrid gens y → c.obj1 y = .ok (.tup oy) → ∃ x ∈ xs, ∃ o, c.obj1 x = .ok (.tup o) ∧ AsGood o oy) (L : Nat) :
    mean B L (waits (ffga c gray gens) s fun l => IsFront gens c.obj1 (l.filter fun a => a.rank = some (.sc 1))) ≤ xs.length / δ := by
  obtain ⟨_, ht⟩ := ha.task
  refine mean_geometric (hδ.pos ht.genes) hδ.le_one fun n => ?_
  refine le_trans (chance_mono ?_) (chance_any xs fun x hx => ffga_late ha hseed hch hun hB hδ (hxs x hx) (n + 1) L)
  intro t hw
  obtain ⟨s', h, hn, hno⟩ := waits_run (fun s' h => ffga_length ht.uniform h) hw
  by_contra hmet
  have hlen := ffga_length ht.uniform h
  have hget := List.getElem?_eq_getElem (l := generationsOf s') (i := n) (by omega)
  refine hno _ (List.mem_iff_getElem?.mpr ⟨n, by rw [List.getElem?_take_of_lt (by omega)]; exact hget⟩)
    (ffga_front_at (s := { s with tape := t }) ha.exact ht.uniform hnc ht.plain htr h hcov (n := n) (fun x hx => ?_) hget)
  by_contra hnot
  exact hmet ⟨x, hx, s', h, hn, fun l hl a ha' e => hnot ⟨l, hl, a, ha', e⟩⟩

/-- C119, the front: a bound that depends on the search space only, whatever the objectives, the numbers of generations, individuals and
children, and the level of mutation. -/
theorem C119_ffga_front_bound {gray : Bool} {gens : List BinGene} {B : Nat} (hB : 0 < B) {δ : ℚ}
    (hδ : (SingleFacade.binary gray gens).Odds B δ) :
    ∃ K : ℚ, ∀ {c : Cfg} {s : St ℚ}, FfgaAdmissible gray gens c s.conds → ¬ Constrained c s.conds → s.seed = none →
      c.transfer = "best" → 1 ≤ c.children → (SingleFacade.binary gray gens).Uncertain c.mutationLvl → ∀ L,
      mean B L (waits (ffga c gray gens) s fun l => IsFront gens c.obj1 (l.filter fun a => a.rank = some (.sc 1))) ≤ K := by
  classical
  obtain ⟨xs, hxs⟩ := grid_finite gens
  refine ⟨(xs.filter fun x => List.Forall₂ OnGrid gens x).length / δ, fun ha hnc hseed htr hch hun L => ?_⟩
  refine C119_ffga_front ha hnc hseed htr hch hun hB hδ (fun x hx => by simpa using (List.mem_filter.mp hx).2) ?_ L
  intro y oy hy hoy
  exact ⟨y, List.mem_filter.mpr ⟨hxs y hy, by simpa using hy⟩, oy, hoy, AsGood.refl oy⟩

/-! ## A concrete case -/

/-- The sum of two numbers from `{0, 1, 2, 3}` and `{-1, -5/7, …, 1}` is to be minimised: the expected number of generations until
`0, -1` is found is at most `1000 ^ 5`, for every number of generations. -/
example (m L : Nat) : mean 1000 L (waits ((SingleFacade.binary true [⟨0, 3, 1⟩, ⟨-1, 1, 1 / 2⟩]).optimize
      { exSumCfg with numGenerations := m + 1, earlyStop := none } none) {} fun l => ∃ y ∈ l, argument true y = some [.num 0, .num (-1)]) ≤
    1 / (1 / 1000) ^ 5 :=
  C119_point (s := {}) (ov := none) (exSum_longer (m + 1)) rfl rfl (show 1 ≤ exSumCfg.children by decide +kernel) exSum_uncertain
    (by norm_num) exSum_odds exSum_point L

/-- The same for `best_solution['idx_generation']`. -/
example (m L : Nat) : mean 1000 L ((SingleFacade.binary true [⟨0, 3, 1⟩, ⟨-1, 1, 1 / 2⟩]).found
      { exSumCfg with numGenerations := m + 1, earlyStop := none } none {}) ≤ 1 / (1 / 1000) ^ 5 := by
  refine C119_found (s := {}) (ov := none) (exSum_longer (m + 1)) rfl (by rintro ⟨h, _⟩; cases h) rfl
    (show 1 ≤ exSumCfg.children by decide +kernel) exSum_uncertain (by norm_num) exSum_odds exSum_point (o := -1)
    (by simp [Cfg.objective, exSumCfg, sumNums]) ?_ L
  intro z oz hz ho
  cases hz with
  | cons a b =>
    cases b with
    | cons b c =>
      cases c
      obtain ⟨p, rfl, p1, _⟩ := a
      obtain ⟨q, rfl, q1, _⟩ := b
      simp [Cfg.objective, exSumCfg, sumNums] at ho
      simp only [cost]
      simp at p1 q1
      linarith

/-- The collector and the loop of the README, with other operators. -/
example (m L : Nat) : mean 1000 L (waits (collectorGA { exSumCfg with numGenerations := m + 1, earlyStop := none }
      (.binary true [⟨0, 3, 1⟩, ⟨-1, 1, 1 / 2⟩]) .ranked .uniform .binString none) {} fun l =>
        ∃ y ∈ l, argument true y = some [.num 0, .num (-1)]) ≤ 1 / (1 / 1000) ^ 5 :=
  C119_collector (f := .binary true [⟨0, 3, 1⟩, ⟨-1, 1, 1 / 2⟩]) (s := {}) (sel := .ranked) (ov := none)
    (exSum_composed (m + 1) none) rfl rfl
    (show 1 ≤ exSumCfg.children by decide +kernel) exSum_uncertain (by norm_num) exSum_odds exSum_point L

example (m L : Nat) : mean 1000 L (waits (advancedGA { exSumCfg with numGenerations := m, earlyStop := some 4 }
      (.binary true [⟨0, 3, 1⟩, ⟨-1, 1, 1 / 2⟩]) .balanced .uniform .binString (some 5) none) {} fun l =>
        ∃ y ∈ l, argument true y = some [.num 0, .num (-1)]) ≤ 1 / (1 / 1000) ^ 5 :=
  C119_advanced (f := .binary true [⟨0, 3, 1⟩, ⟨-1, 1, 1 / 2⟩]) (s := {}) (e := 4) rfl
    (exSum_composed m (some 4)) rfl rfl (show 1 ≤ exSumCfg.children by decide +kernel) exSum_uncertain (by norm_num) exSum_odds exSum_point L

/-- `FFGA` and `VEGA`. -/
example : ∃ K : ℚ, ∀ m L, mean 1000 L (waits (ffga (exFrontCfg m) true [⟨0, 3, 1⟩, ⟨-1, 1, 1 / 2⟩]) {} fun l =>
    IsFront [⟨0, 3, 1⟩, ⟨-1, 1, 1 / 2⟩] exPairCfg.obj1 (l.filter fun a => a.rank = some (.sc 1))) ≤ K := by
  obtain ⟨K, hK⟩ := C119_ffga_front_bound (gray := true) (by norm_num) exSum_odds
  exact ⟨K, fun m => hK (c := exFrontCfg m) (s := {}) (exFront_ffga m) (by simp [Constrained, exFrontCfg, exPairCfg]) rfl rfl
    (show 1 ≤ exPairCfg.children by decide +kernel) (exFront_uncertain m)⟩

example (L : Nat) : mean 1000 L (waits (vega (exFrontCfg 4) true [⟨0, 3, 1⟩, ⟨-1, 1, 1 / 2⟩] (some [0, 0])) {} fun l =>
    ∃ y ∈ l, y.phenotype = some [.num 0, .num (-1)]) ≤ 1 / (1 / 1000) ^ 5 :=
  C119_vega (s := {}) exFront_vega rfl rfl (by decide +kernel) exSum_uncertain (by norm_num) exSum_odds exSum_point L

end BaumEva
