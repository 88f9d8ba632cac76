import Verif.Proofs.History
import Verif.Props.Population
/-!
# C42 - C47, C49: single-objective runs

`After ops s0 k s`: `s` is the state after `k` generations of the run that starts in `s0`.
-/
namespace BaumEva
open Spec

variable {fit : Fit ℚ} {sel : SelOp} {op : CrossOp} {mop : MutOp} {tr : Transfer} {s0 : St ℚ}

/-- Generation `i + 1` of a run and its individuals (contents). -/
def Generations (ops : Ops ℚ) (s0 : St ℚ) (i : Nat) (l : List (Ind ℚ)) : Prop :=
  ∃ si, After ops s0 (i + 1) si ∧ l = si.ga.population.map si.heap

theorem snap_generations {ops : Ops ℚ} {m : Nat} (hops : SingleRun ops m op mop tr) (h0 : Fresh s0) {k i : Nat} {s : St ℚ}
    (h : After ops s0 k s) (hi : i < k) (l : List (Ind ℚ)) : Generations ops s0 i l ↔ s.snaps[i]? = some l := by
  obtain ⟨si, a, b⟩ := h.earlier hops h0 i hi
  constructor
  · rintro ⟨sj, a', rfl⟩
    rw [a.unique a', b]
  · intro hl
    rw [b] at hl
    injection hl with hl
    exact ⟨si, a, hl.symm⟩

/-! ## C42 -/

/-- C42: after `k` generations `best_solution` is an individual of generation `g < k`, its score is the maximum
over all individuals of all generations, and no individual of an earlier generation reached it. -/
theorem C42_best_of_history (h0 : Fresh s0) {k : Nat} {s : St ℚ} (h : After (singleOps fit sel op mop tr) s0 k s) :
    ∃ b g v, s.ga.best = some (.single b g) ∧ (s.heap b).score = some v ∧ g < k ∧
      (∃ l, Generations (singleOps fit sel op mop tr) s0 g l ∧ s.heap b ∈ l) ∧
      (∀ i l, i < k → Generations (singleOps fit sel op mop tr) s0 i l → ∀ x ∈ l, ∃ w, x.score = some w ∧ w ≤ v ∧
        (i < g → w < v)) := by
  have hops := singleOps_run fit sel op mop tr
  have hinv := h.inv hops h0
  have hpos := hinv.pos
  rcases hinv.hist.best with ⟨e, _⟩ | ⟨b, g, v, l, b1, b2, b3, b4, b5, b6, b7, b8⟩
  · omega
  refine ⟨b, g, v, b1, b3, by omega, ⟨l, (snap_generations hops h0 h (by omega) l).mpr b5, b6⟩, ?_⟩
  intro i l' hi hl' x hx
  rw [snap_generations hops h0 h hi l'] at hl'
  obtain ⟨bb, mm, ww, c1, _, _, hok⟩ := hinv.hist.entry i l' hl'
  have hsc := hok.scored x hx
  obtain ⟨w, hw⟩ := Option.isSome_iff_exists.mp hsc
  have hle : w ≤ bb := by
    have hb := hok.best
    cases hr : l'.getLast? with
    | none => rw [hr] at hb; simp at hb
    | some y =>
      rw [hr] at hb
      obtain ⟨pre, rfl⟩ : ∃ pre, l' = pre ++ [y] := by
        rw [List.getLast?_eq_some_iff] at hr; exact hr
      rcases List.mem_append.mp hx with hx | hx
      · exact (List.pairwise_append.mp hok.sorted).2.2 x hx y (by simp) w bb hw hb
      · simp at hx
        subst hx
        simp only [Option.bind_some] at hb
        rw [hw] at hb
        injection hb with hb
        exact le_of_eq hb
  refine ⟨w, hw, ?_, ?_⟩
  · by_cases hig : i < g
    · exact hle.trans (b7 i bb hig c1).le
    · exact hle.trans (b8 i bb (by omega) c1).le
  · intro hig
    exact hle.trans_lt (b7 i bb hig c1)

/-! ## C43 -/

/-- C43: `new_generation.execute` puts a best individual of the old population, the same object with the same
content, at the end of the new population. -/
theorem C43_elitism {σ : Type} [LinearOrder σ] {s s' : St σ} (hsorted : s.ga.attrs.isSorted = true → Ascending s.heap s.ga.population)
    (hnon : s.ga.population ≠ []) (h : newGenExec tr s = (.ok (), s')) :
    ∃ r v, s'.ga.population.getLast? = some r ∧ r ∈ s.ga.population ∧ s'.heap = s.heap ∧ (s.heap r).score = some v ∧
      ∀ x ∈ s.ga.population, ∃ w, (s.heap x).score = some w ∧ w ≤ v := by
  obtain ⟨pop, es, t, hperm, hs1, hs2, hel, e2, e3, e4⟩ := newGenExec_ok h
  have hasc : Ascending s.heap pop := by
    cases hx : s.ga.attrs.isSorted with
    | true => rw [hs1 hx]; exact hsorted hx
    | false => exact (hs2 hx).ascending
  have hpne : pop ≠ [] := by
    intro he
    rw [he] at hperm
    exact hnon hperm.nil_eq.symm
  have hne : es ≠ [] := by
    intro he
    have hl := hel.last
    rw [he, List.getLast?_nil, eq_comm, List.getLast?_eq_none_iff] at hl
    exact hpne hl
  have hlast : es.getLast? = some (es.getLast hne) := List.getLast?_eq_some_getLast hne
  have hpl := hel.last.symm.trans hlast
  have hr : es.getLast hne ∈ pop := List.mem_of_getLast? hpl
  have hsc := hasc.1 _ hr
  obtain ⟨v, hv⟩ := Option.isSome_iff_exists.mp hsc
  refine ⟨es.getLast hne, v, ?_, hperm.subset hr, by rw [e2], hv, ?_⟩
  · rw [e2]
    simp only
    rw [List.getLast?_append, hlast]
    rfl
  · intro x hx
    have hx := hperm.symm.subset hx
    obtain ⟨w, hw⟩ := Option.isSome_iff_exists.mp (hasc.1 x hx)
    exact ⟨w, hw, hasc.last hpl hx hw hv⟩

/-- C43 in a run: a best individual of every generation is, as the same object with the same genotype and score,
a member of the next generation. -/
theorem C43_survives (h0 : Fresh s0) {k : Nat} {s s' : St ℚ} (h : After (singleOps fit sel op mop tr) s0 k s)
    (h' : After (singleOps fit sel op mop tr) s0 (k + 1) s') :
    ∃ r v, r ∈ s.ga.population ∧ r ∈ s'.ga.population ∧ (s.heap r).score = some v ∧ (s'.heap r).score = some v ∧
      (s'.heap r).genotype = (s.heap r).genotype ∧ (s'.heap r).objScore = (s.heap r).objScore ∧
      ∀ x ∈ s.ga.population, ∃ w, (s.heap x).score = some w ∧ w ≤ v := by
  have hops := singleOps_run fit sel op mop tr
  have hinv := h.inv hops h0
  obtain ⟨hg⟩ : Nonempty (generation (singleOps fit sel op mop tr) s = (.ok (), s')) := by
    cases h' with
    | first _ _ => exact absurd h.pos (by omega)
    | next a b => rw [← a.unique h] at b; exact ⟨b⟩
  obtain ⟨b, g, v, r, t1, t2, t3, t4, t5⟩ := hinv.top
  obtain ⟨_, s1, s2, s3, es, t, hB, _, hel, e2, _, _, _, _, hF, _, hperm, hheap, _⟩ := generation_inv hops hinv hg
  obtain ⟨n0, hn0, _, hn1⟩ := hB.range
  have hrm : r ∈ s.ga.population := List.mem_of_getLast? t3
  have hrlt := hinv.settled.alive r hrm
  have hre : r ∈ es := by
    have := hel.last
    rw [t3] at this
    exact List.mem_of_getLast? this
  have hr2 : r ∈ s2.ga.population := by rw [e2]; exact List.mem_append_right _ hre
  have hcore := hB.core r hrlt
  have hh2 : s2.heap = s1.heap := by rw [e2]
  have hk := hF.kept r hr2 (by rw [hh2, hcore.score, t4]; rfl)
  have h3 := hheap r (by omega)
  refine ⟨r, v, hrm, hperm.symm.subset (List.mem_append_right _ hre), t4, ?_, ?_, ?_, ?_⟩
  · rw [h3, hk]; simp only; rw [hh2, hcore.score]; exact t4
  · rw [h3, hk]; simp only; rw [hh2, hcore.genotype]
  · rw [h3, hk]; simp only; rw [hh2, hcore.objScore]
  · intro x hx
    obtain ⟨w, hw⟩ := Option.isSome_iff_exists.mp (hinv.settled.asc.1 x hx)
    exact ⟨w, hw, hinv.settled.asc.last t3 hx hw t4⟩

/-! ## C44 -/

/-- C44: the three histories have one entry per generation; `historical_best` is non-decreasing and ends in the
score of `best_solution`; the entries of generation `i` are its largest score, the score at position
`len // 2` of the ascending order and its smallest score. -/
theorem C44_histories (h0 : Fresh s0) {k : Nat} {s : St ℚ} (h : After (singleOps fit sel op mop tr) s0 k s) :
    s.ga.idxGeneration = k ∧ s.ga.histBest.length = k ∧ s.ga.histMed.length = k ∧ s.ga.histWorst.length = k ∧
    s.ga.histBest.Pairwise (· ≤ ·) ∧
    (∃ b g v, s.ga.best = some (.single b g) ∧ (s.heap b).score = some v ∧ s.ga.histBest.getLast? = some v) ∧
    ∀ i, i < k → ∃ l b m w, Generations (singleOps fit sel op mop tr) s0 i l ∧ s.ga.histBest[i]? = some b ∧
      s.ga.histMed[i]? = some m ∧ s.ga.histWorst[i]? = some w ∧ w ≤ m ∧ m ≤ b ∧
      (∀ x ∈ l, ∃ v, x.score = some v ∧ w ≤ v ∧ v ≤ b) ∧ (∃ x ∈ l, x.score = some b) ∧ (∃ x ∈ l, x.score = some w) ∧
      (∃ x, l[l.length / 2]? = some x ∧ x.score = some m) ∧
      l.Pairwise (fun x y => ∀ a b, x.score = some a → y.score = some b → a ≤ b) := by
  have hops := singleOps_run fit sel op mop tr
  have hinv := h.inv hops h0
  have hh := hinv.hist
  obtain ⟨b, g, v, r, t1, t2, t3, t4, t5⟩ := hinv.top
  refine ⟨hh.idx, hh.lenB, hh.lenM, hh.lenW, hh.mono, ⟨b, g, v, t1, t2, t5⟩, ?_⟩
  intro i hi
  obtain ⟨si, a, hl⟩ := h.earlier hops h0 i hi
  obtain ⟨b, m, w, c1, c2, c3, hok⟩ := hh.entry i _ hl
  generalize hgl : si.ga.population.map si.heap = l at hl hok
  obtain ⟨xb, hxb, hb⟩ := Option.bind_eq_some_iff.mp hok.best
  obtain ⟨xm, hxm, hm⟩ := Option.bind_eq_some_iff.mp hok.med
  obtain ⟨xw, hxw, hw⟩ := Option.bind_eq_some_iff.mp hok.worst
  have top : ∀ x ∈ l, ∀ u, x.score = some u → u ≤ b := by
    intro x hx u hu
    obtain ⟨ys, rfl⟩ := List.getLast?_eq_some_iff.mp hxb
    rcases List.mem_append.mp hx with hx | hx
    · exact (List.pairwise_append.mp hok.sorted).2.2 x hx xb (by simp) u b hu hb
    · simp at hx; subst hx; rw [hu] at hb; injection hb with hb; exact hb.le
  have bot : ∀ x ∈ l, ∀ u, x.score = some u → w ≤ u := by
    intro x hx u hu
    obtain ⟨ys, rfl⟩ := List.head?_eq_some_iff.mp hxw
    rcases List.mem_cons.mp hx with hx | hx
    · subst hx; rw [hu] at hw; injection hw with hw; exact hw.ge
    · exact (List.pairwise_cons.mp hok.sorted).1 x hx w u hw hu
  have hxm' := List.mem_of_getElem? hxm
  refine ⟨l, b, m, w, ⟨si, a, hgl.symm⟩, c1, c2, c3, bot xm hxm' m hm, top xm hxm' m hm, ?_, ⟨xb, List.mem_of_getLast? hxb, hb⟩,
    ⟨xw, List.mem_of_mem_head? hxw, hw⟩, ⟨xm, hxm, hm⟩, hok.sorted⟩
  intro x hx
  obtain ⟨u, hu⟩ := Option.isSome_iff_exists.mp (hok.scored x hx)
  exact ⟨u, hu, bot x hx u hu, top x hx u hu⟩

/-! ## C45 -/

/-- What `update` keeps true about its own record: `best_solution` has the largest recorded best score, and the
counter is the number of most recent entries of `historical_best` that are no strict record. -/
def Counted {σ : Type} [LinearOrder σ] (s : St σ) : Prop :=
  (s.ga.best = none ∧ s.ga.histBest = [] ∧ s.ga.noImprove = 0) ∨
  ∃ b g v, s.ga.best = some (.single b g) ∧ (s.heap b).score = some v ∧ v ∈ s.ga.histBest ∧ (∀ x ∈ s.ga.histBest, x ≤ v) ∧
    s.ga.noImprove = stale s.ga.histBest

theorem stale_append {σ : Type} [LinearOrder σ] (h : List σ) (x : σ) :
    stale (h ++ [x]) = if ∀ y ∈ h, y < x then 0 else stale h + 1 := by
  unfold stale
  rw [List.reverse_append, List.reverse_singleton, List.singleton_append]
  cases hh : h.reverse with
  | nil =>
    have : h = [] := by simpa using hh
    subst this
    simp [staleRev]
  | cons a l =>
    rw [staleRev]
    · congr 1
      rw [← hh]
      simp
    · simp

/-- C45 for arbitrary populations given to `update`, also if the best score drops. -/
theorem C45_update_counts {σ : Type} [LinearOrder σ] {s s' : St σ} (hc : Counted s) (h : gaUpdate s = (.ok (), s')) :
    Counted s' ∧ ∃ b, s'.ga.histBest = s.ga.histBest ++ [b] ∧ ∃ r ∈ s.ga.population, (s.heap r).score = some b := by
  obtain ⟨pop, rb, rm, rw', b, m, w, hperm, hs1, hs2, l1, l2, l3, b1, b2, b3, s1, hdec, rfl⟩ := gaUpdate_ok h
  have hrb : ∃ r ∈ s.ga.population, (s.heap r).score = some b :=
    ⟨rb, hperm.subset (List.mem_of_getLast? l1), b1⟩
  cases hdec with
  | first hn =>
    simp only at hn
    rcases hc with ⟨_, h2, h3⟩ | ⟨b', g, v, e, _⟩
    · refine ⟨.inr ⟨s.next, _, b, rfl, by simp only [upd_same]; exact b1, by simp, ?_, ?_⟩, b, rfl, hrb⟩
      · simp [h2]
      · simp only [h2, h3]; simp [stale, staleRev]
    · rw [hn] at e; simp at e
  | @better c g bs sc e1 e2 e3 hlt =>
    simp only at e1 e2 e3
    rw [b1] at e3
    injection e3 with e3
    subst e3
    rcases hc with ⟨e, _⟩ | ⟨b', g', v, d1, d2, d3, d4, d5⟩
    · rw [e] at e1; simp at e1
    rw [d1] at e1
    simp at e1
    obtain ⟨rfl, rfl⟩ := e1
    rw [d2] at e2
    injection e2 with e2
    subst e2
    have hall : ∀ y ∈ s.ga.histBest, y < b := fun y hy => (d4 y hy).trans_lt hlt
    refine ⟨.inr ⟨s.next, _, b, rfl, by simp only [upd_same]; exact b1, by simp, ?_, ?_⟩, b, rfl, hrb⟩
    · intro x hx
      rcases List.mem_append.mp hx with hx | hx
      · exact (hall x hx).le
      · simp at hx; exact hx.le
    · simp only
      rw [stale_append, if_pos hall]
  | @same c g bs sc e1 e2 e3 hlt =>
    simp only at e1 e2 e3
    rw [b1] at e3
    injection e3 with e3
    subst e3
    rcases hc with ⟨e, _⟩ | ⟨b', g', v, d1, d2, d3, d4, d5⟩
    · rw [e] at e1; simp at e1
    rw [d1] at e1
    simp at e1
    obtain ⟨rfl, rfl⟩ := e1
    rw [d2] at e2
    injection e2 with e2
    subst e2
    refine ⟨.inr ⟨b', g', v, by simp only; exact d1, d2, by simp [d3], ?_, ?_⟩, b, rfl, hrb⟩
    · intro x hx
      rcases List.mem_append.mp hx with hx | hx
      · exact d4 x hx
      · simp at hx; rw [hx]; exact not_lt.mp hlt
    · simp only
      rw [stale_append, if_neg (fun hc => hlt (hc v d3)), d5]

/-- C45: in a run the counter is the number of most recent generations whose best score did not exceed the best
score before them, i.e. the number of generations since the one recorded in `best_solution`. -/
theorem C45_no_improve (h0 : Fresh s0) {k : Nat} {s : St ℚ} (h : After (singleOps fit sel op mop tr) s0 k s) :
    s.ga.noImprove = stale s.ga.histBest ∧
    ∃ b g, s.ga.best = some (.single b g) ∧ g + s.ga.noImprove + 1 = k := by
  have hinv := h.inv (singleOps_run fit sel op mop tr) h0
  have hpos := hinv.pos
  rcases hinv.hist.best with ⟨e, _⟩ | ⟨b, g, v, l, b1, b2, b3, b4, b5, b6, b7, b8⟩
  · omega
  exact ⟨(stale_of_plateau (by rw [hinv.hist.lenB]; exact b4.symm) b7 b8).symm, b, g, b1, b4⟩

/-! ## C46 -/

theorem max_one_eq (N : Nat) : max 1 N = 1 + (N - 1) := by omega

/-- C46: a finished run made `k` generations, `1 ≤ k ≤ max 1 num_generations`, and `k` is smaller than
`max 1 num_generations` only if after generation `k ≥ 2` the counter exceeded `early_stop`; it did so after no
generation in between. -/
theorem C46_stopping_rule {σ : Type} {ops : Ops σ} (ho : OpsKeep SameSetup ops) {s0 s' : St σ} {N : Nat} {e : Int}
    (hN : s0.ga.numGenerations = N) (he : s0.ga.earlyStop = some e) (h : evolve ops s0 = (.ok (), s')) :
    ∃ k, After ops s0 k s' ∧ 1 ≤ k ∧ k ≤ max 1 N ∧ (k < max 1 N → 2 ≤ k ∧ e < s'.ga.noImprove) ∧
      ∀ i si, 2 ≤ i → i < k → After ops s0 i si → ¬ e < si.ga.noImprove := by
  obtain ⟨s1, k, a1, k1, k2, ak, c1, c2⟩ := evolve_after h
  have hp : ∀ i si, After ops s0 i si → si.ga.numGenerations = N ∧ si.ga.earlyStop = some e := by
    intro i si hi
    obtain ⟨⟨p1, _, p3⟩, _⟩ := hi.keeps sameSetup_frame ho
    exact ⟨p1.trans hN, p3.trans he⟩
  have hs1 := (hp 1 s1 a1).1
  rw [hs1] at k2 c1
  rw [max_one_eq N]
  refine ⟨k, ak, k1, k2, ?_, ?_⟩
  · intro hk
    obtain ⟨a, e', b, c⟩ := c1 hk
    rw [(hp k s' ak).2] at b
    injection b with b
    exact ⟨a, by rw [b]; exact c⟩
  · intro i si i1 i2 hi
    obtain ⟨e', b, c⟩ := c2 i si i1 i2 hi
    rw [(hp i si hi).2] at b
    injection b with b
    rw [b]; exact c

theorem singleOps_keep (fit : Fit ℚ) (sel : SelOp) (op : CrossOp) (mop : MutOp) (tr : Transfer) :
    OpsKeep SameSetup (singleOps fit sel op mop tr) := singleOps_frame sameSetup_frame fit sel op mop tr

/-- C46: if `early_stop` is at least `num_generations - 1` (in particular for the facades with
`early_stop=None`, which use `num_generations`) the run makes exactly `max 1 num_generations` generations. -/
theorem C46_never_early (h0 : Fresh s0) {s' : St ℚ} {N : Nat} {e : Int} (hN : s0.ga.numGenerations = N)
    (he : s0.ga.earlyStop = some e) (hNe : (N : Int) ≤ e + 1) (h : evolve (singleOps fit sel op mop tr) s0 = (.ok (), s')) :
    After (singleOps fit sel op mop tr) s0 (max 1 N) s' := by
  obtain ⟨k, ak, k1, k2, k3, _⟩ := C46_stopping_rule (singleOps_keep fit sel op mop tr) hN he h
  by_cases hk : k < max 1 N
  · obtain ⟨k4, k5⟩ := k3 hk
    obtain ⟨_, b, g, _, hg⟩ := C45_no_improve h0 ak
    omega
  · obtain rfl : k = max 1 N := by omega
    exact ak

theorem gaUpdate_noImprove {σ : Type} [LinearOrder σ] {s s' : St σ} {u : Unit} (h : gaUpdate s = (.ok u, s')) :
    s'.ga.noImprove ≤ s.ga.noImprove + 1 := by
  obtain ⟨pop, rb, rm, rw', b, m, w, _, _, _, _, _, _, _, _, _, s1, hdec, rfl⟩ := gaUpdate_ok h
  cases hdec <;> simp

theorem generation_noImprove (h0 : Fresh s0) {k : Nat} {s s' : St ℚ} (h : After (singleOps fit sel op mop tr) s0 k s)
    (h' : After (singleOps fit sel op mop tr) s0 (k + 1) s') : s'.ga.noImprove ≤ s.ga.noImprove + 1 := by
  have hops := singleOps_run fit sel op mop tr
  cases h' with
  | first _ _ => exact absurd h.pos (by omega)
  | next a b =>
    rw [← a.unique h] at b
    obtain ⟨_, s1, s2, s3, es, t, hB, _, _, e2, _, _, _, _, hF, hup, _⟩ := generation_inv hops (h.inv hops h0) b
    have := gaUpdate_noImprove hup
    have e : s3.ga.noImprove = s.ga.noImprove := by
      rw [hF.ga, e2]
      simp only
      rw [hB.ga]
    rw [e] at this
    exact this

/-- C46: a run that stops early (with `early_stop ≥ 0`) made exactly `early_stop + 1` generations after the one
in which `best_solution` was found. -/
theorem C46_early_exact (h0 : Fresh s0) {s' : St ℚ} {N k : Nat} {e : Nat} (hN : s0.ga.numGenerations = N)
    (he : s0.ga.earlyStop = some (e : Int)) (h : evolve (singleOps fit sel op mop tr) s0 = (.ok (), s'))
    (hk : After (singleOps fit sel op mop tr) s0 k s') (hlt : k < max 1 N) :
    s'.ga.noImprove = e + 1 ∧ ∃ b g, s'.ga.best = some (.single b g) ∧ k = (g + 1) + (e + 1) := by
  obtain ⟨k', ak, k1, k2, k3, k4⟩ := C46_stopping_rule (singleOps_keep fit sel op mop tr) hN he h
  have hops := singleOps_run fit sel op mop tr
  have hkk : k' = k := by
    have a := (ak.inv hops h0).hist.idx
    have b := (hk.inv hops h0).hist.idx
    omega
  subst hkk
  obtain ⟨k5, k6⟩ := k3 hlt
  obtain ⟨_, b, g, hb, hg⟩ := C45_no_improve h0 ak
  obtain ⟨j, rfl⟩ : ∃ j, k' = j + 1 := ⟨k' - 1, by omega⟩
  obtain ⟨sj, aj, _⟩ := ak.earlier hops h0 (j - 1) (by omega)
  rw [show j - 1 + 1 = j by omega] at aj
  have hstep := generation_noImprove h0 aj ak
  obtain ⟨_, bj, gj, _, hgj⟩ := C45_no_improve h0 aj
  have hle : sj.ga.noImprove ≤ e := by
    by_cases hj : 2 ≤ j
    · have := k4 j sj hj (by omega) aj
      omega
    · omega
  have : s'.ga.noImprove = e + 1 := by omega
  exact ⟨this, b, g, hb, by omega⟩

/-- The three single-objective facades. -/
inductive SingleFacade
  | binary (gray : Bool) (gens : List BinGene)
  | combinatory (a b k : Int)
  | categorical (gens : List CatGene)

/-- `optimize` of the facade. -/
def SingleFacade.optimize (c : Cfg) (objValue : Option ℚ) : SingleFacade → M ℚ Unit
  | .binary gray gens => binaryGA c gray gens objValue
  | .combinatory a b k => combinatoryGA c a b k objValue
  | .categorical gens => categoricalGA c gens objValue

/-- Population class of the facade. -/
def SingleFacade.spec : SingleFacade → PopSpec
  | .binary gray gens => .binary gray gens
  | .combinatory a b k => .orderCat a b k
  | .categorical gens => .cat gens

/-- Operators of the facade. -/
def SingleFacade.cross : SingleFacade → CrossOp
  | .binary _ _ => .onePoint
  | .combinatory _ _ _ => .order
  | .categorical _ => .uniform

@[inherit_doc SingleFacade.cross]
def SingleFacade.mutOp : SingleFacade → MutOp
  | .binary _ _ => .binString
  | .combinatory _ _ _ => .movement
  | .categorical _ => .categorical

/-- A successful `optimize()` is a finished run, so that everything said about runs applies to it. -/
theorem SingleFacade.run {f : SingleFacade} {c : Cfg} {ov : Option ℚ} {s s' : St ℚ} (h : f.optimize c ov s = (.ok (), s')) :
    ∃ fit tr s0 k, Started f.spec c.numIndivid c.numGenerations c.input c.childrenPercent (some c.stop) c.arith s0 ∧
      evolve (singleOps fit (.tournament c.tournamentSize) f.cross f.mutOp tr) s0 = (.ok (), s') ∧
      After (singleOps fit (.tournament c.tournamentSize) f.cross f.mutOp tr) s0 k s' ∧
      ∃ l, checkMutation f.mutOp c.mutationLvl = .ok l ∧ s0.mutLvl = l.stored c.arith := by
  cases f <;> (
    obtain ⟨fit, tr, s0, sa, sb, a1, a2, a3, a4, a5, a6, a7, a8, a9⟩ := facade_ok h
    obtain ⟨s1, k, b1, b2, b3, b4, _⟩ := evolve_after a8
    exact ⟨fit, tr, s0, k, a7, a8, b4, a6⟩)

/-- C46 for the facades: number of generations in terms of the parameters of the facade. -/
theorem C46_facades {f : SingleFacade} {c : Cfg} {ov : Option ℚ} {s s' : St ℚ} (h : f.optimize c ov s = (.ok (), s')) :
    1 ≤ s'.ga.idxGeneration ∧ s'.ga.idxGeneration ≤ max 1 c.numGenerations ∧
    (c.earlyStop = none → s'.ga.idxGeneration = max 1 c.numGenerations) ∧
    (∀ e : Nat, c.earlyStop = some (e : Int) → s'.ga.idxGeneration < max 1 c.numGenerations → s'.ga.noImprove = e + 1) := by
  obtain ⟨fit, tr, s0, k, hst, hev, hk, _⟩ := SingleFacade.run h
  have hops := singleOps_run fit (.tournament c.tournamentSize) f.cross f.mutOp tr
  obtain ⟨k', ak, k1, k2, k3, k4⟩ := C46_stopping_rule (singleOps_keep _ _ _ _ _) hst.gens hst.stop hev
  have hidx := (ak.inv hops hst.fresh).hist.idx
  refine ⟨by omega, by omega, ?_, ?_⟩
  · intro hn
    have hs : c.stop = (c.numGenerations : Int) := by unfold Cfg.stop; rw [hn]; rfl
    have := C46_never_early hst.fresh hst.gens hst.stop (by rw [hs]; omega) hev
    exact (this.inv hops hst.fresh).hist.idx
  · intro e he hlt
    have hs : c.stop = (e : Int) := by unfold Cfg.stop; rw [he]; rfl
    have hstop := hst.stop
    rw [hs] at hstop
    exact (C46_early_exact hst.fresh hst.gens hstop hev ak (by omega)).1

/-! ## C49 -/

/-- C49: from one generation to a later one `best_solution` is either the same object with the same content, or it
was replaced by one with a strictly larger score. -/
theorem C49_best_is_snapshot (h0 : Fresh s0) {k j : Nat} {s s' : St ℚ} (h : After (singleOps fit sel op mop tr) s0 k s)
    (h' : After (singleOps fit sel op mop tr) s0 j s') (hkj : k ≤ j) :
    ∃ b g v, s.ga.best = some (.single b g) ∧ (s.heap b).score = some v ∧
      ((s'.ga.best = some (.single b g) ∧ s'.heap b = s.heap b) ∨
       ∃ b' g' v', s'.ga.best = some (.single b' g') ∧ (s'.heap b').score = some v' ∧ v < v' ∧ k ≤ g') := by
  have hops := singleOps_run fit sel op mop tr
  have hinv := h.inv hops h0
  obtain ⟨b, g, v, r, t1, t2, _⟩ := hinv.top
  refine ⟨b, g, v, t1, t2, ?_⟩
  refine (h.induct h' hkj (P := fun s' => k ≤ s'.ga.idxGeneration ∧ ((s'.ga.best = some (.single b g) ∧ s'.heap b = s.heap b) ∨
       ∃ b' g' v', s'.ga.best = some (.single b' g') ∧ (s'.heap b').score = some v' ∧ v < v' ∧ k ≤ g'))
    ⟨hinv.hist.idx.ge, .inl ⟨t1, rfl⟩⟩ ?_).2
  intro i a c ha hP hg
  have hia := ha.inv hops h0
  obtain ⟨hic, s1, s2, s3, es, t, hB, _, hel, e2, _, _, _, _, hF, hup, _⟩ := generation_inv hops hia hg
  obtain ⟨n0, hn0, hrange, hn1⟩ := hB.range
  have hga3 : s3.ga.best = a.ga.best ∧ s3.ga.idxGeneration = a.ga.idxGeneration := by
    rw [hF.ga, e2]
    simp only
    rw [hB.ga]
    exact ⟨rfl, rfl⟩
  have hcell : ∀ b' g', a.ga.best = some (.single b' g') → s3.heap b' = a.heap b' ∧ b' < s3.next := by
    intro b' g' e
    have hb := hia.settled.best b' g' e
    have hnm : b' ∉ s2.ga.population := by
      rw [e2]
      intro hc
      rcases List.mem_append.mp hc with hc | hc
      · rw [hrange, List.mem_range'_1] at hc; omega
      · exact hb.2 (hel.mem b' hc)
    refine ⟨?_, ?_⟩
    · rw [hF.old b' hnm, e2]
      exact hB.old b' hb.1 hb.2
    · rw [hF.next, e2]
      simp only
      omega
  have hidx : c.ga.idxGeneration = a.ga.idxGeneration + 1 := by rw [hic.hist.idx, hia.hist.idx]
  refine ⟨by omega, ?_⟩
  obtain ⟨pop, rb, rm, rw', bb, m, w, _, _, _, l1, l2, l3, b1, b2, b3, s4, hdec, rfl⟩ := gaUpdate_ok hup
  cases hdec with
  | first hn =>
    simp only at hn
    rw [hga3.1] at hn
    rcases hP.2 with ⟨e, _⟩ | ⟨_, _, _, e, _⟩ <;> (rw [hn] at e; simp at e)
  | @better c' g' bs sc d1 d2 d3 hlt =>
    simp only at d1 d2 d3 ⊢
    rw [b1] at d3
    injection d3 with d3
    subst d3
    rw [hga3.1] at d1
    have hc := (hcell c' g' d1).1
    refine .inr ⟨s3.next, s3.ga.idxGeneration, bb, rfl, by rw [upd_same]; exact b1, ?_, by rw [hga3.2]; exact hP.1⟩
    rw [hc] at d2
    rcases hP.2 with ⟨e, e'⟩ | ⟨b', g'', v', e, e', e3, _⟩
    · rw [d1] at e
      simp at e
      obtain ⟨rfl, rfl⟩ := e
      rw [e', t2] at d2
      injection d2 with d2
      rw [d2]; exact hlt
    · rw [d1] at e
      simp at e
      obtain ⟨rfl, rfl⟩ := e
      rw [e'] at d2
      injection d2 with d2
      exact e3.trans (by rw [d2]; exact hlt)
  | @same c' g' bs sc d1 d2 d3 hlt =>
    simp only
    rcases hP.2 with ⟨e, e'⟩ | ⟨b', g'', v', e, e', e3, e4⟩
    · exact .inl ⟨by rw [hga3.1]; exact e, by rw [(hcell b g e).1]; exact e'⟩
    · exact .inr ⟨b', g'', v', by rw [hga3.1]; exact e, by rw [(hcell b' g'' e).1]; exact e', e3, e4⟩

/-! ## C47 -/

/-- C47, what holds: the first generation has `num_individ` members.  Let `c` be
`int(children_percent * num_individ)` in the arithmetic of the run.  If `1 ≤ c ≤ num_individ` all later generations have exactly `num_individ + 1`
members; if `c > num_individ` they have `c + 1`.  (Not covered: `c = 0`.) -/
theorem C47_size_partial (h0 : Fresh s0) {n c k : Nat} (hn : s0.ga.attrs.numIndivid = n) (hpop : s0.ga.population.length = n)
    (h1 : s0.ga.attrs.arith.share s0.ga.childrenPercent n 1 = c) (hc : 1 ≤ c)
    {s : St ℚ} (h : After (singleOps fit sel op mop tr) s0 k s) :
    s.ga.population.length = if k = 1 then n else if c ≤ n then n + 1 else c + 1 := by
  have hops := singleOps_run fit sel op mop tr
  have key : s.ga.population.length = (if k = 1 then n else if c ≤ n then n + 1 else c + 1) ∧
      s.ga.attrs.numIndivid = n ∧ s.ga.childrenPercent = s0.ga.childrenPercent ∧
      s.ga.attrs.arith = s0.ga.attrs.arith := by
    induction h with
    | @first s1 s a b =>
      obtain ⟨_, hperm, _, hat, _⟩ := first_inv hops.fitness h0 a b
      obtain ⟨⟨_, hcp, _⟩, _⟩ := (After.first a b).keeps sameSetup_frame (singleOps_keep fit sel op mop tr)
      refine ⟨by rw [if_pos rfl, hperm.length_eq, hpop], by rw [hat]; exact hn, hcp, by rw [hat]⟩
    | @next k s s' a b ih =>
      obtain ⟨i1, i2, i3, i4⟩ := ih
      obtain ⟨_, s1, s2, s3, es, t, hB, hlen, hel, e2, e3, e4, _, _, hF, hup, hperm, _, hat, _⟩ :=
        generation_inv hops (a.inv hops h0) b
      obtain ⟨⟨_, hcp, _⟩, _⟩ := (After.next a b).keeps sameSetup_frame (singleOps_keep fit sel op mop tr)
      have hk := a.pos
      have hnum1 : s1.ga.attrs.numIndivid = n := by rw [hB.ga]; exact i2
      rw [numPairs_share, i2, i3, i4, h1] at hlen
      rw [hnum1, hlen] at e3 e4
      rw [if_neg (by omega), hperm.length_eq, List.length_append, hlen]
      refine ⟨?_, by rw [hat]; exact i2, hcp, by rw [hat]; exact i4⟩
      split
      · rename_i hcn
        have hpl : n - c < s.ga.population.length := by
          rw [i1]
          split <;> omega
        rw [e4 hpl]
        omega
      · rename_i hcn
        rw [e3 (by omega)]
  exact key.1

/-! ## Concrete runs -/

/-- Sum of the genes. -/
def exObj (l : List Val) : Except PyErr Ret :=
  .ok (.sc (l.foldl (fun a v => match v with | .num q => a + q | .str _ => a) 0))

/-- Three generations of four individuals, two children each. -/
def exCfg : Cfg :=
  { numGenerations := 3, numIndivid := 4, obj1 := exObj, childrenPercent := 1 / 2, tournamentSize := 2,
    mutationLvl := .float (1 / 100) }

def exFacade : SingleFacade := .categorical [.range 0 9 1, .range 0 9 1, .range 0 9 1]

def exTape : List Nat := (List.range 400).map fun i => i * i * 7 + 3 * i + 11

/-- The end of the run. -/
def exRun : Except PyErr Unit × St ℚ := exFacade.optimize exCfg none { tape := exTape }

set_option maxRecDepth 100000 in
/-- The run succeeds, so the hypotheses of C42-C46 and C49 can be met (`SingleFacade.run`). -/
theorem exRun_ok : exRun.1 = .ok () := by decide +kernel

theorem exRun_eq : exFacade.optimize exCfg none { tape := exTape } = (.ok (), exRun.2) := by
  rw [← exRun_ok]; rfl

set_option maxRecDepth 100000 in
example : exRun.2.ga.idxGeneration = 3 ∧ exRun.2.ga.histBest = [-7, -7, -7] ∧ exRun.2.ga.noImprove = 2 := by decide +kernel

set_option maxRecDepth 100000 in
/-- C47 refuted: in this run with `num_individ = 4` the second generation has five members. -/
theorem C47_size_refuted : ¬ ∀ (f : SingleFacade) (c : Cfg) (ov : Option ℚ) (s s' : St ℚ), f.optimize c ov s = (.ok (), s') →
    ∀ l ∈ s'.snaps, l.length = c.numIndivid := by
  intro h
  have h1 := h exFacade exCfg none { tape := exTape } exRun.2 exRun_eq
  have h2 : ¬ ∀ l ∈ exRun.2.snaps, l.length = exCfg.numIndivid := by decide +kernel
  exact h2 h1

example : ∃ fit tr s0 k, Started exFacade.spec 4 3 none (1 / 2) (some 10) .exact s0 ∧
    After (singleOps fit (.tournament 2) .uniform .categorical tr) s0 k exRun.2 := by
  obtain ⟨fit, tr, s0, k, a, _, b, _⟩ := SingleFacade.run exRun_eq
  exact ⟨fit, tr, s0, k, a, b⟩

end BaumEva
