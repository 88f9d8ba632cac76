import Verif.Props.Anytime
/-!
# C79, C80: the average score, and continuing a run
-/
namespace BaumEva
open Spec

/-! ## C79: `get_avg_score` -/

theorem mapEach_scoreOf {σ : Type} : ∀ (l : List Nat) (s : St σ) (vs : List σ), l.map (fun r => (s.heap r).score) = vs.map some →
    mapEach l scoreOf s = (.ok vs, s)
  | [], s, [], _ => rfl
  | [], _, _ :: _, h => by simp at h
  | _ :: _, _, [], h => by simp at h
  | r :: l, s, v :: vs, h => by
    simp only [List.map_cons, List.cons.injEq] at h
    have h1 : scoreOf r s = (.ok v, s) := by unfold scoreOf; rw [h.1]
    rw [mapEach, bind_of_ok h1, bind_of_ok (mapEach_scoreOf l s vs h.2)]
    rfl

theorem mapEach_scoreOf_error {σ : Type} : ∀ (l : List Nat) (s : St σ), (∃ r ∈ l, (s.heap r).score = none) →
    mapEach l scoreOf s = (.error .typeError, s)
  | [], _, h => by simp at h
  | r :: l, s, h => by
    rw [mapEach]
    cases hr : (s.heap r).score with
    | none =>
      have h1 : scoreOf r s = (.error .typeError, s) := by unfold scoreOf; rw [hr]
      rw [bind_of_err h1]
    | some v =>
      have h1 : scoreOf r s = (.ok v, s) := by unfold scoreOf; rw [hr]
      have h2 : ∃ r ∈ l, (s.heap r).score = none := by
        obtain ⟨x, hx, e⟩ := h
        rcases List.mem_cons.mp hx with rfl | hx
        · rw [hr] at e; simp at e
        · exact ⟨x, hx, e⟩
      rw [bind_of_ok h1, bind_of_err (mapEach_scoreOf_error l s h2)]

theorem scores_of_all {σ : Type} (l : List Nat) (s : St σ) (h : ∀ r ∈ l, (s.heap r).score.isSome) :
    ∃ vs : List σ, l.map (fun r => (s.heap r).score) = vs.map some := by
  induction l with
  | nil => exact ⟨[], rfl⟩
  | cons r l ih =>
    obtain ⟨vs, e⟩ := ih fun x hx => h x (List.mem_cons_of_mem _ hx)
    obtain ⟨v, hv⟩ := Option.isSome_iff_exists.mp (h r (by simp))
    exact ⟨v :: vs, by simp only [List.map_cons, e, hv]⟩

/-- C79: `get_avg_score` changes nothing.  It raises `ZeroDivisionError` for an empty population, `TypeError` if
somebody has no score yet, and otherwise returns the number whose product with the size of the population is the sum of the
scores of its members, each as often as it occurs. -/
theorem C79_mean (s : St ℚ) :
    (s.ga.population = [] → getAvgScore s = (.error .zeroDivision, s)) ∧
    ((∃ r ∈ s.ga.population, (s.heap r).score = none) → getAvgScore s = (.error .typeError, s)) ∧
    ∀ vs : List ℚ, vs ≠ [] → s.ga.population.map (fun r => (s.heap r).score) = vs.map some →
      ∃ a, getAvgScore s = (.ok a, s) ∧ a * s.ga.population.length = vs.sum := by
  refine ⟨?_, ?_, ?_⟩
  · intro h
    unfold getAvgScore
    rw [bind_of_ok (getGa_run s), h, bind_of_ok (show mapEach [] scoreOf s = (.ok [], s) from rfl)]
    rfl
  · intro h
    unfold getAvgScore
    rw [bind_of_ok (getGa_run s), bind_of_err (mapEach_scoreOf_error _ s h)]
  · intro vs hne h
    have hl : s.ga.population.length = vs.length := by simpa using congrArg List.length h
    have h0 : vs.length ≠ 0 := by simpa using hne
    refine ⟨vs.sum / vs.length, ?_, ?_⟩
    · unfold getAvgScore
      rw [bind_of_ok (getGa_run s), bind_of_ok (mapEach_scoreOf _ s vs h)]
      unfold avgScore
      rw [if_neg h0]
      rfl
    · rw [hl]
      exact div_mul_cancel₀ _ (by exact_mod_cast h0)

theorem sum_between {lo hi : ℚ} : ∀ vs : List ℚ, (∀ v ∈ vs, lo ≤ v ∧ v ≤ hi) → lo * vs.length ≤ vs.sum ∧ vs.sum ≤ hi * vs.length
  | [], _ => by simp
  | v :: vs, h => by
    obtain ⟨a, b⟩ := sum_between vs fun x hx => h x (List.mem_cons_of_mem _ hx)
    obtain ⟨c, d⟩ := h v (by simp)
    simp only [List.length_cons, List.sum_cons, Nat.cast_add, Nat.cast_one]
    constructor <;> linarith

/-- An average exists and lies between bounds of the scores. -/
theorem avg_between {s : St ℚ} {lo hi : ℚ} (hne : s.ga.population ≠ [])
    (h : ∀ r ∈ s.ga.population, ∃ v, (s.heap r).score = some v ∧ lo ≤ v ∧ v ≤ hi) :
    ∃ a, getAvgScore s = (.ok a, s) ∧ lo ≤ a ∧ a ≤ hi := by
  obtain ⟨vs, hvs⟩ := scores_of_all s.ga.population s fun r hr => by
    obtain ⟨v, hv, _⟩ := h r hr
    rw [hv]; rfl
  have hl : s.ga.population.length = vs.length := by simpa using congrArg List.length hvs
  have hpos : 0 < vs.length := by
    rw [← hl]; exact List.length_pos_iff.mpr hne
  obtain ⟨a, ha, hs⟩ := (C79_mean s).2.2 vs (List.length_pos_iff.mp hpos) hvs
  have hb : ∀ v ∈ vs, lo ≤ v ∧ v ≤ hi := by
    intro v hv
    have : some v ∈ s.ga.population.map fun r => (s.heap r).score := by
      rw [hvs]; exact List.mem_map.mpr ⟨v, hv, rfl⟩
    obtain ⟨r, hr, e⟩ := List.mem_map.mp this
    obtain ⟨w, hw, hw'⟩ := h r hr
    rw [hw] at e
    injection e with e
    rw [← e]; exact hw'
  obtain ⟨b1, b2⟩ := sum_between vs hb
  rw [← hs, hl] at b1 b2
  have hp : (0 : ℚ) < vs.length := by exact_mod_cast hpos
  exact ⟨a, ha, le_of_mul_le_mul_right b1 hp, le_of_mul_le_mul_right b2 hp⟩

/-- C79 in runs: after every generation `get_avg_score` returns, and the average lies between the last entries of
`historical_worst` and `historical_best`. -/
theorem C79_between {fit : Fit ℚ} {sel : SelOp} {op : CrossOp} {mop : MutOp} {tr : Transfer} {s0 s : St ℚ} {k : Nat} (h0 : Fresh s0)
    (h : After (singleOps fit sel op mop tr) s0 k s) :
    ∃ a w b, getAvgScore s = (.ok a, s) ∧ s.ga.histWorst.getLast? = some w ∧ s.ga.histBest.getLast? = some b ∧ w ≤ a ∧ a ≤ b := by
  have hinv := h.inv (singleOps_run fit sel op mop tr) h0
  obtain ⟨_, l1, _, l3, _, _, hall⟩ := C44_histories h0 h
  have hk := h.pos
  obtain ⟨l, b, m, w, ⟨si, a1, rfl⟩, c1, _, c3, _, _, c6, ⟨x, hx, _⟩, _⟩ := hall (k - 1) (by omega)
  rw [show k - 1 + 1 = k by omega] at a1
  obtain rfl := h.unique a1
  obtain ⟨a, e1, e2, e3⟩ := avg_between (s := si) (lo := w) (hi := b)
    (by intro he; rw [he] at hx; simp at hx)
    (by intro r hr; exact c6 _ (List.mem_map.mpr ⟨r, hr, rfl⟩))
  exact ⟨a, w, b, e1, by rw [List.getLast?_eq_getElem?, l3]; exact c3, by rw [List.getLast?_eq_getElem?, l1]; exact c1, e2, e3⟩

/-- C79 for VEGA: scores are lists, so `get_avg_score` raises for every non-empty population. -/
theorem C79_vega (s : St (List ℚ)) (h : s.ga.population ≠ []) : getAvgVector s = (.error .typeError, s) := by
  unfold getAvgVector
  rw [bind_of_ok (getGa_run s)]
  cases hp : s.ga.population with
  | nil => exact absurd hp h
  | cons r l => rfl

set_option maxRecDepth 100000 in
/-- The average of the run of `exRun`. -/
example : (getAvgScore exRun.2).1.toOption = some (-41 / 5) ∧ exRun.2.ga.histWorst = [-9, -9, -9] := by decide +kernel

/-! ## C80: `optimize()` of a `CollectorGA` again -/

section
variable {σ : Type} [LinearOrder σ] {ops : Ops σ} {m : Nat} {op : CrossOp} {mop : MutOp} {tr : Transfer}

theorem RunInv.scored {s : St σ} {k : Nat} (hs : RunInv s k) : unscored s.heap s.ga.population = [] := by
  unfold unscored
  rw [List.filter_eq_nil_iff]
  intro r hr
  have := hs.settled.asc.1 r hr
  cases hx : (s.heap r).score with
  | none => rw [hx] at this; simp at this
  | some v => simp

/-- The first evaluation and `update` of a further call. -/
theorem again_first (hops : SingleRun ops m op mop tr) {s s1 s' : St σ} {k : Nat} (hs : RunInv s k)
    (h1 : ops.fitness s = (.ok (), s1)) (h2 : ops.update s1 = (.ok (), s')) :
    RunInv s' (k + 1) ∧ Scored s s1 ∧ s'.heap = s1.heap ∧ s'.ga.best = s.ga.best ∧
      s'.ga.noImprove = s.ga.noImprove + 1 ∧ s'.ga.attrs = s.ga.attrs ∧ s'.snaps = s.snaps ++ [s.ga.population.map s1.heap] := by
  have hF := hops.fitness s s1 _ (by rw [hs.scored]; exact List.nodup_nil) h1
  rw [hops.update] at h2
  obtain ⟨b, g, v, r, t1, t2, t3, t4, t5⟩ := hs.top
  have hb := hs.settled.best b g t1
  have hbh : s1.heap b = s.heap b := hF.old b hb.2
  have hrm : r ∈ s.ga.population := List.mem_of_getLast? t3
  have hr1 : (s1.heap r).score = some v := hF.score t4
  have hasc : Ascending s1.heap s.ga.population := by
    refine ⟨fun x hx => hF.done x hx, hs.settled.asc.2.imp_of_mem ?_⟩
    intro x y hx hy hxy a c ha hc
    obtain ⟨a', ha'⟩ := Option.isSome_iff_exists.mp (hs.settled.asc.1 x hx)
    obtain ⟨c', hc'⟩ := Option.isSome_iff_exists.mp (hs.settled.asc.1 y hy)
    rw [hF.score ha'] at ha
    rw [hF.score hc'] at hc
    injection ha with ha
    injection hc with hc
    rw [← ha, ← hc]
    exact hxy _ _ ha' hc'
  have hH1 : Hist s1 k := hs.hist.frame (by rw [hF.ga]) hF.snaps (by rw [hF.ga]) (by rw [hF.ga]) (by rw [hF.ga]) (by rw [hF.ga])
    (by rw [hF.ga]) (by rw [hF.next]) (by intro b' g' e; rw [t1] at e; simp at e; rw [← e.1]; exact hbh)
  obtain ⟨a1, a2, a3, a4, a5, a6, a7, _⟩ := gaUpdate_step hH1 (by rw [hF.ga, hF.next]; exact hs.settled.alive)
    (by intro _; rw [hF.ga]; exact hasc)
    (by
      intro b' g' e
      rw [hF.ga, t1] at e
      simp at e
      rw [← e.1, hF.ga]
      refine ⟨hb.2, fun v' hv' => ⟨r, hrm, ?_⟩⟩
      rw [hbh, t2] at hv'
      rw [hr1]; exact hv') h2
  refine ⟨⟨Nat.succ_pos _, a1, a2, a3⟩, hF, ?_⟩
  have hso : s1.ga.attrs.isSorted = true := by rw [hF.ga]; exact hs.settled.sorted
  obtain ⟨pop, rb, rm, rw', bb, mm, ww, _, hs1, _, l1, _, _, b1, _, _, s2, hdec, rfl⟩ := gaUpdate_ok h2
  have hpop : pop = s.ga.population := by rw [hs1 hso, hF.ga]
  have hrb : rb = r := by
    rw [hpop, t3] at l1
    injection l1 with l1
    exact l1.symm
  have hbb : bb = v := by
    rw [hrb, hr1] at b1
    injection b1 with b1
    exact b1.symm
  have hat : ({ s1.ga.attrs with isSorted := true } : Attrs) = s.ga.attrs := by
    rw [hF.ga]
    have := hs.settled.sorted
    cases ha : s.ga.attrs with
    | mk x1 x2 x3 x4 x5 x6 => rw [ha] at this; simp at this; rw [this]
  cases hdec with
  | first hn =>
    simp only [hF.ga, t1] at hn
    simp at hn
  | @better c g' bs sc e1 e2 e3 hlt =>
    exfalso
    simp only [hF.ga, t1] at e1
    simp at e1
    simp only [← e1.1, hbh, t2] at e2
    simp only [hrb, hr1] at e3
    injection e2 with e2
    injection e3 with e3
    rw [← e2, ← e3] at hlt
    exact lt_irrefl _ hlt
  | @same c g' bs sc e1 e2 e3 hlt =>
    refine ⟨rfl, by simp only; rw [hF.ga], by simp only; rw [hF.ga], hat, ?_⟩
    simp only
    rw [hF.snaps, hpop]

/-- The invariant of a run goes on to hold when a finished run is continued. -/
theorem After.inv_from (hops : SingleRun ops m op mop tr) {s s' : St σ} {k j : Nat} (hs : RunInv s k) (h : After ops s j s') :
    RunInv s' (k + j) := by
  induction h with
  | first h1 h2 => exact (again_first hops hs h1 h2).1
  | next _ h2 ih => exact (generation_inv hops ih h2).1

theorem After.attrs_from (hops : SingleRun ops m op mop tr) {s s' : St σ} {k j : Nat} (hs : RunInv s k) (h : After ops s j s') :
    s'.ga.attrs = s.ga.attrs := by
  induction h with
  | first h1 h2 => exact (again_first hops hs h1 h2).2.2.2.2.2.1
  | next a h2 ih =>
    obtain ⟨_, _, _, _, _, _, _, _, _, _, _, _, _, _, _, _, _, _, hat, _⟩ := generation_inv hops (a.inv_from hops hs) h2
    exact hat.trans ih

end

/-- What may change between two calls of `optimize()`: the state and the seed of `random`, the level of the mutation
object, the `conditions` list, and the limits of the storage object. -/
def Interlude (s s1 : St ℚ) : Prop :=
  ∃ t sd lv cs N cp e, s1 = { s with
    tape := t, seed := sd, mutLvl := lv, conds := cs
    ga := { s.ga with numGenerations := N, childrenPercent := cp, earlyStop := e } }

/-- The state after `n` calls of `optimize()` of `CollectorGA`s that share a storage object; the components may be
others in every call. -/
inductive Optimized (s0 : St ℚ) : Nat → St ℚ → Prop
  | none : Optimized s0 0 s0
  | more {n : Nat} {s s1 s' : St ℚ} (fit : Fit ℚ) (sel : SelOp) (op : CrossOp) (mop : MutOp) (tr : Transfer) : Optimized s0 n s →
      Interlude s s1 → collectorOptimize (singleOps fit sel op mop tr) s1 = (.ok (), s') → Optimized s0 (n + 1) s'

theorem RunInv.interlude {s s1 : St ℚ} {k : Nat} (hs : RunInv s k) (h : Interlude s s1) : RunInv s1 k := by
  obtain ⟨t, sd, lv, cs, N, cp, e, rfl⟩ := h
  exact ⟨hs.pos, hs.hist.frame rfl rfl rfl rfl rfl rfl rfl le_rfl (fun _ _ _ => rfl),
    ⟨hs.settled.alive, hs.settled.asc, hs.settled.sorted, hs.settled.best⟩, hs.last⟩

theorem Fresh.interlude {s s1 : St ℚ} (hs : Fresh s) (h : Interlude s s1) : Fresh s1 := by
  obtain ⟨t, sd, lv, cs, N, cp, e, rfl⟩ := h
  exact ⟨hs.alive, hs.distinct, hs.unscored, hs.unsorted, hs.best, hs.noImprove, hs.idx, hs.histBest, hs.histMed, hs.histWorst,
    hs.histFronts, hs.snaps⟩

theorem collector_ok {σ : Type} {ops : Ops σ} {s s' : St σ} (h : collectorOptimize ops s = (.ok (), s')) :
    evolve ops s = (.ok (), s') := by
  unfold collectorOptimize at h
  obtain ⟨_, s1, h1, h2⟩ := bind_ok.mp h
  rw [printBest_state h2]
  exact h1

theorem Optimized.inv {s0 s : St ℚ} {n : Nat} (h0 : Fresh s0) (h : Optimized s0 n s) :
    (n = 0 ∧ s = s0) ∨ ∃ k, n ≤ k ∧ RunInv s k := by
  induction h with
  | none => exact .inl ⟨rfl, rfl⟩
  | @more n s s1 s' fit sel op mop tr _ hi hc ih =>
    right
    have hops := singleOps_run fit sel op mop tr
    obtain ⟨_, j, _, hj, _, ha, _⟩ := evolve_after (collector_ok hc)
    rcases ih with ⟨rfl, rfl⟩ | ⟨k, hk, hinv⟩
    · exact ⟨j, by omega, ha.inv hops (h0.interlude hi)⟩
    · exact ⟨k + j, by omega, ha.inv_from hops (hinv.interlude hi)⟩

/-- C80: after any number of calls the record covers all of them: one entry per generation in each history,
`historical_best` never decreases, `best_solution` is an individual of a recorded generation, nobody recorded has a larger
score, and the counter is the number of most recent generations without improvement, also across calls. -/
theorem C80_records {s0 s : St ℚ} {n : Nat} (h0 : Fresh s0) (h : Optimized s0 n s) (hn : 1 ≤ n) :
    n ≤ s.ga.idxGeneration ∧ s.snaps.length = s.ga.idxGeneration ∧ s.ga.histBest.length = s.ga.idxGeneration ∧
    s.ga.histMed.length = s.ga.idxGeneration ∧ s.ga.histWorst.length = s.ga.idxGeneration ∧ s.ga.histBest.Pairwise (· ≤ ·) ∧
    s.ga.noImprove = stale s.ga.histBest ∧
    ∃ b g v l, s.ga.best = some (.single b g) ∧ (s.heap b).score = some v ∧ s.ga.histBest.getLast? = some v ∧
      s.snaps[g]? = some l ∧ s.heap b ∈ l ∧ ∀ l ∈ s.snaps, ∀ x ∈ l, ∃ w, x.score = some w ∧ w ≤ v := by
  obtain ⟨k, hk, hinv⟩ : ∃ k, n ≤ k ∧ RunInv s k := (h.inv h0).resolve_left (by omega)
  have hh := hinv.hist
  have hpos := hinv.pos
  rcases hh.best with ⟨e, _⟩ | ⟨b, g, v, l, b1, b2, b3, b4, b5, b6, b7, b8⟩
  · omega
  refine ⟨by rw [hh.idx]; exact hk, by rw [hh.idx, hh.snaps], by rw [hh.idx, hh.lenB], by rw [hh.idx, hh.lenM],
    by rw [hh.idx, hh.lenW], hh.mono, (stale_of_plateau (by rw [hh.lenB]; exact b4.symm) b7 b8).symm, b, g, v, l, b1, b3, ?_, b5, b6, ?_⟩
  · obtain ⟨b', g', v', _, t1, t2, _, _, t5⟩ := hinv.top
    rw [b1] at t1
    simp at t1
    rw [← t1.1, b3] at t2
    injection t2 with t2
    rw [t5, t2]
  · intro l' hl' x hx
    obtain ⟨i, hi, rfl⟩ := List.mem_iff_getElem.mp hl'
    obtain ⟨bb, mm, ww, c1, _, _, hok⟩ := hh.entry i _ (List.getElem?_eq_getElem hi)
    obtain ⟨w, hw⟩ := Option.isSome_iff_exists.mp (hok.scored x hx)
    refine ⟨w, hw, ?_⟩
    have hle : w ≤ bb := by
      obtain ⟨y, hy, hb⟩ := Option.bind_eq_some_iff.mp hok.best
      obtain ⟨pre, hpre⟩ := List.getLast?_eq_some_iff.mp hy
      have hso := hok.sorted
      rw [hpre] at hx hso
      rcases List.mem_append.mp hx with hx | hx
      · exact (List.pairwise_append.mp hso).2.2 x hx y (by simp) w bb hw hb
      · simp at hx
        subst hx
        rw [hw] at hb
        injection hb with hb
        exact hb.le
    by_cases hig : i < g
    · exact hle.trans (b7 i bb hig c1).le
    · exact hle.trans (b8 i bb (by omega) c1).le

section
variable {fit : Fit ℚ} {sel : SelOp} {op : CrossOp} {mop : MutOp} {tr : Transfer}

theorem again_budget {s s' : St ℚ} {k j : Nat} (hs : RunInv s k) (h : After (singleOps fit sel op mop tr) s j s') :
    s'.calls.length = s.calls.length + (j - 1) * numPairs s.ga 1 := by
  have hops := singleOps_run fit sel op mop tr
  induction h with
  | @first s1 s' h1 h2 =>
    have e : s'.calls = s1.calls := (gaUpdate_frame sameCalls_quiet).ok h2
    obtain ⟨_, ⟨gs, d4, d5⟩, _⟩ := baseFitness_ok h1 (by rw [hs.scored]; exact List.nodup_nil)
    have := d5.length_eq
    rw [hs.scored] at this
    rw [e, d4]
    simp at this ⊢
    exact List.length_eq_zero_iff.mp this.symm
  | @next j s1 s' a c ih =>
    have hinv := a.inv_from hops hs
    obtain ⟨_, a1, a2, a3, es, t, hB, hlen, hel, e2, e3, e4, hun, hfit, hF, hup, _⟩ := generation_inv hops hinv c
    obtain ⟨_, hcp, _⟩ := (a.keeps sameSetup_frame (singleOps_keep fit sel op mop tr)).1
    obtain ⟨n0, hn0, hrange, hn1⟩ := hB.range
    obtain ⟨_, ⟨gs, d4, d5⟩, _⟩ := baseFitness_ok hfit (by rw [hun, hrange]; exact List.nodup_range')
    have e1 : s'.calls = a3.calls := (gaUpdate_frame sameCalls_quiet).ok hup
    have e5 : a2.calls = s1.calls := by rw [e2]; exact hB.calls
    have hpairs : numPairs s1.ga 1 = numPairs s.ga 1 := by
      unfold numPairs
      rw [hcp, a.attrs_from hops hs]
    have hgs := d5.length_eq
    rw [hun, hlen, hpairs] at hgs
    rw [e1, d4, e5, List.length_append, ih, ← hgs]
    obtain ⟨i, rfl⟩ : ∃ i, j = i + 1 := ⟨j - 1, by have := a.pos; omega⟩
    simp only [Nat.add_sub_cancel]
    ring

theorem after_one {s s' : St ℚ} {ops : Ops ℚ} {j : Nat} (h : After ops s j s') :
    ∃ s1 s2, ops.fitness s = (.ok (), s1) ∧ ops.update s1 = (.ok (), s2) ∧ After ops s 1 s2 := by
  induction h with
  | @first s1 s' h1 h2 => exact ⟨s1, s', h1, h2, .first h1 h2⟩
  | next _ _ ih => exact ih

theorem after_two {s s' : St ℚ} {ops : Ops ℚ} {j : Nat} (h : After ops s j s') (hj : 2 ≤ j) :
    ∃ s1 s2, After ops s 1 s1 ∧ generation ops s1 = (.ok (), s2) ∧ After ops s 2 s2 := by
  induction h with
  | first h1 h2 => omega
  | @next k a b h1 h2 ih =>
    by_cases hk : 2 ≤ k
    · exact ih hk
    · obtain rfl : k = 1 := by have := h1.pos; omega
      exact ⟨a, b, h1, h2, .next h1 h2⟩

theorem after_grows {s s' : St ℚ} {j : Nat} (h : After (singleOps fit sel op mop tr) s j s') : Grows s s' := by
  have ho := single_grows fit sel op mop tr
  induction h with
  | first h1 h2 => exact (ho.fitness.ok h1).trans (ho.update.ok h2)
  | next _ h2 ih => exact ih.trans ((generation_keeps grows_steady.step ho).ok h2)

theorem gaUpdate_counter {s s' : St ℚ} (hb : s.ga.best ≠ none) (h : gaUpdate s = (.ok (), s')) :
    s'.ga.noImprove = 0 ∨ s'.ga.noImprove = s.ga.noImprove + 1 := by
  obtain ⟨pop, rb, rm, rw', b, m, w, _, _, _, _, _, _, _, _, _, s1, hdec, rfl⟩ := gaUpdate_ok h
  cases hdec with
  | first hn => exact absurd hn hb
  | better => exact .inl rfl
  | same => exact .inr rfl

/-- C80: a further call of `optimize()` continues the run.  Everything recorded stays; it adds `j` entries, the first of
which repeats the population it starts with without calling the objective; the other `j - 1` are new generations with one
call per child; the best score does not get worse.  The counter is not reset: if it already exceeds `early_stop`, the
call stops after one new generation unless that generation improves the best score. -/
theorem C80_continue {s0 s s1 s' : St ℚ} {n : Nat} (h0 : Fresh s0) (h : Optimized s0 n s) (hn : 1 ≤ n) (hi : Interlude s s1)
    {N : Nat} {e : Int} (hN : s1.ga.numGenerations = N) (he : s1.ga.earlyStop = some e)
    (hc : collectorOptimize (singleOps fit sel op mop tr) s1 = (.ok (), s')) :
    ∃ j v v', 1 ≤ j ∧ j ≤ max 1 N ∧ s'.ga.idxGeneration = s.ga.idxGeneration + j ∧ Grows s s' ∧
      s.ga.histBest.getLast? = some v ∧ s'.ga.histBest.getLast? = some v' ∧ v ≤ v' ∧
      s'.calls.length = s.calls.length + (j - 1) * s1.ga.attrs.arith.share s1.ga.childrenPercent s1.ga.attrs.numIndivid 1 ∧
      (∃ l, s'.snaps[s.ga.idxGeneration]? = some l ∧ List.Forall₂ (fun x y => y.genotype = x.genotype ∧ y.score = x.score ∧
        y.objScore = x.objScore ∧ y.feasible = x.feasible) (s.ga.population.map s.heap) l) ∧
      (e < s.ga.noImprove → 2 < j → v < v') := by
  have hops := singleOps_run fit sel op mop tr
  obtain ⟨k, hk, hinv⟩ : ∃ k, n ≤ k ∧ RunInv s k := (h.inv h0).resolve_left (by omega)
  have hinv1 := hinv.interlude hi
  have hgrow1 : Grows s s1 := by
    obtain ⟨t, sd, lv, cs, N, cp, e, rfl⟩ := hi
    exact ⟨List.prefix_rfl, List.prefix_rfl, List.prefix_rfl, List.prefix_rfl, List.prefix_rfl, List.prefix_rfl, le_rfl⟩
  obtain ⟨j, ha, j1, j2, _, j4⟩ := C46_stopping_rule (singleOps_keep fit sel op mop tr) hN he (collector_ok hc)
  have hinv' := ha.inv_from hops hinv1
  obtain ⟨_, _, v, _, _, _, _, _, t5⟩ := hinv.top
  obtain ⟨_, _, v', _, _, _, _, _, t5'⟩ := hinv'.top
  have hgrow := hgrow1.trans (after_grows ha)
  have hv : s.ga.histBest[k - 1]? = some v := by
    rw [List.getLast?_eq_getElem?, hinv.hist.lenB] at t5; exact t5
  have hkp := hinv.pos
  have hle : ∀ {a : St ℚ} {w : ℚ} {q : Nat}, RunInv a q → Grows a s' → a.ga.histBest.getLast? = some w → w ≤ v' := by
    intro a w q hq hg hw
    have hm := hinv'.hist.mono
    obtain ⟨pre, hpre⟩ := List.getLast?_eq_some_iff.mp t5'
    have hmem : w ∈ s'.ga.histBest := hg.histBest.subset (List.mem_of_getLast? hw)
    rw [hpre] at hmem hm
    rcases List.mem_append.mp hmem with hx | hx
    · exact (List.pairwise_append.mp hm).2.2 w hx v' (by simp)
    · simp at hx; exact hx.le
  have hsame : s1.ga.population = s.ga.population ∧ s1.heap = s.heap ∧ s1.snaps = s.snaps ∧ s1.ga.noImprove = s.ga.noImprove ∧
      s1.ga.histBest = s.ga.histBest ∧ s1.calls = s.calls := by
    obtain ⟨t, sd, lv, cs, N, cp, e, rfl⟩ := hi
    exact ⟨rfl, rfl, rfl, rfl, rfl, rfl⟩
  refine ⟨j, v, v', j1, j2, by rw [hinv'.hist.idx, hinv.hist.idx], hgrow, t5, t5', hle hinv hgrow t5, ?_, ?_, ?_⟩
  · rw [again_budget hinv1 ha, hsame.2.2.2.2.2, numPairs_share]
  · obtain ⟨a1, a2, f1, f2, f3⟩ := after_one ha
    obtain ⟨b1, b2, b3, b4, b5, b6, b7⟩ := again_first hops hinv1 f1 f2
    have hg2 : Grows a2 s' := by
      have hj : ∀ {i : Nat} {x : St ℚ}, After (singleOps fit sel op mop tr) s1 i x → Grows a2 x := by
        intro i x hx
        induction hx with
        | first g1 g2 => rw [f3.unique (.first g1 g2)]; exact Grows.refl _
        | next _ g2 ih => exact ih.trans ((generation_keeps grows_steady.step (single_grows fit sel op mop tr)).ok g2)
      exact hj ha
    have hsn : a2.snaps[k]? = some (s.ga.population.map a1.heap) := by
      rw [b7, hsame.2.2.1, hsame.1, List.getElem?_append_right (by rw [hinv.hist.snaps])]
      simp [hinv.hist.snaps]
    refine ⟨s.ga.population.map a1.heap, ?_, ?_⟩
    · rw [hinv.hist.idx]
      obtain ⟨suf, hsuf⟩ := hg2.snaps
      rw [← hsuf, List.getElem?_append_left]
      · exact hsn
      · exact (List.getElem?_eq_some_iff.mp hsn).1
    · rw [List.forall₂_map_left_iff, List.forall₂_map_right_iff, List.forall₂_same]
      intro r hr
      have hk := b2.kept r (by rw [hsame.1]; exact hr) (by rw [hsame.2.1]; exact hinv.settled.asc.1 r hr)
      rw [hsame.2.1] at hk
      rw [hk]
      exact ⟨rfl, rfl, rfl, rfl⟩
  · intro hno hj
    obtain ⟨a1, a2, g1, g2, g3⟩ := after_two ha (by omega)
    have hi1 := g1.inv_from hops hinv1
    have hi2 := g3.inv_from hops hinv1
    have hstay := j4 2 a2 le_rfl hj g3
    obtain ⟨_, c1, c2, c3, es, t, hB, _, _, e2, _, _, _, _, hF, hup, _⟩ := generation_inv hops hi1 g2
    have hga3 : c3.ga.best = a1.ga.best ∧ c3.ga.noImprove = a1.ga.noImprove := by
      rw [hF.ga, e2]
      simp only
      rw [hB.ga]
      exact ⟨rfl, rfl⟩
    obtain ⟨_, _, _, _, top1, _⟩ := hi1.top
    have h1no : a1.ga.noImprove = s.ga.noImprove + 1 := by
      obtain ⟨d1, d2, f1, f2, f3⟩ := after_one g1
      obtain ⟨_, _, _, _, b5, _⟩ := again_first hops hinv1 f1 f2
      rw [f3.unique g1, b5, hsame.2.2.2.1]
    have hz : a2.ga.noImprove = 0 := by
      rcases gaUpdate_counter (by rw [hga3.1, top1]; simp) hup with h | h
      · exact h
      · rw [hga3.2, h1no] at h
        exact absurd (by rw [h]; push_cast; omega) hstay
    have hpos2 := hi2.pos
    rcases hi2.hist.best with ⟨e, _⟩ | ⟨b, g, w, l, b1, b2, b3, b4, b5, b6, b7, b8⟩
    · omega
    have hg2 : Grows a2 s' := by
      have hj : ∀ {i : Nat} {x : St ℚ}, After (singleOps fit sel op mop tr) s1 i x → 2 ≤ i → Grows a2 x := by
        intro i x hx
        induction hx with
        | first _ _ => intro h; omega
        | @next i y x hy g2 ih =>
          intro h
          by_cases hi : 2 ≤ i
          · exact (ih hi).trans ((generation_keeps grows_steady.step (single_grows fit sel op mop tr)).ok g2)
          · obtain rfl : i = 1 := by have := hy.pos; omega
            rw [g3.unique (.next hy g2)]
            exact Grows.refl _
      exact hj ha (by omega)
    have hw : a2.ga.histBest.getLast? = some w := by
      obtain ⟨b', _, w', _, u1, u2, _, _, u5⟩ := hi2.top
      rw [b1] at u1
      simp at u1
      rw [← u1.1, b3] at u2
      injection u2 with u2
      rw [u5, u2]
    have hv2 : a2.ga.histBest[k - 1]? = some v := by
      obtain ⟨suf, hsuf⟩ := (hgrow1.trans (after_grows g3)).histBest
      rw [← hsuf, List.getElem?_append_left]
      · exact hv
      · exact (List.getElem?_eq_some_iff.mp hv).1
    exact (b7 (k - 1) v (by omega) hv2).trans_le (hle hi2 hg2 hw)

end
/-! A `CollectorGA` called twice. -/

def exFit : Fit ℚ := ⟨hyperbolaTask exObj exObj false none none, false, [.optimize], []⟩
def exOps : Ops ℚ := singleOps exFit (.tournament 2) .uniform .categorical .best
def exSet : Except PyErr Unit × St ℚ :=
  collectorSetPopulation (.cat [.range 0 9 1, .range 0 9 1, .range 0 9 1]) 4 3 none (1 / 2) (some 10) .exact
    { tape := exTape, mutLvl := .float (1 / 100) }
def exFirst : Except PyErr Unit × St ℚ := collectorOptimize exOps exSet.2
def exSecond : Except PyErr Unit × St ℚ := collectorOptimize exOps exFirst.2

set_option maxRecDepth 100000 in
theorem exSet_ok : exSet.1 = .ok () := by decide +kernel
set_option maxRecDepth 100000 in
theorem exFirst_ok : exFirst.1 = .ok () := by decide +kernel
set_option maxRecDepth 100000 in
theorem exSecond_ok : exSecond.1 = .ok () := by decide +kernel

theorem of_ok {x : Except PyErr Unit × St ℚ} (h : x.1 = .ok ()) : x = (.ok (), x.2) := by rw [← h]

theorem interlude_refl (s : St ℚ) : Interlude s s := ⟨s.tape, s.seed, s.mutLvl, s.conds, _, _, _, rfl⟩

theorem exSet_fresh : Fresh exSet.2 :=
  (collectorSetPopulation_ok (show collectorSetPopulation _ _ _ _ _ _ _ _ = _ from of_ok exSet_ok)).fresh

/-- The hypotheses of C80 are met. -/
example : ∃ s0 s s1 s', Fresh s0 ∧ Optimized s0 1 s ∧ Interlude s s1 ∧ collectorOptimize exOps s1 = (.ok (), s') :=
  ⟨exSet.2, exFirst.2, exFirst.2, exSecond.2, exSet_fresh,
    .more exFit (.tournament 2) .uniform .categorical .best .none (interlude_refl _)
      (show collectorOptimize exOps exSet.2 = _ from of_ok exFirst_ok), interlude_refl _,
    show collectorOptimize exOps exFirst.2 = _ from of_ok exSecond_ok⟩

set_option maxRecDepth 100000 in
example : exFirst.2.ga.histBest = [-7, -7, -7] ∧ exSecond.2.ga.histBest = [-7, -7, -7, -7, -7, -7] ∧ exFirst.2.calls.length = 8 ∧
    exSecond.2.calls.length = 12 ∧ exSecond.2.ga.noImprove = 5 := by decide +kernel

end BaumEva
