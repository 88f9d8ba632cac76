import Verif.Proofs.Facade
/-!
# Earlier generations of a run
-/
namespace BaumEva
variable {σ : Type}

section
variable [LinearOrder σ] {ops : Ops σ} {m : Nat} {op : CrossOp} {mop : MutOp} {tr : Transfer} {s0 : St σ}

/-- `update` appends one snapshot. -/
theorem gaUpdate_snaps {s s' : St σ} {u : Unit} (h : gaUpdate s = (.ok u, s')) :
    s'.snaps = s.snaps ++ [s'.ga.population.map s'.heap] := by
  obtain ⟨pop, rb, rm, rw', b, m, w, _, _, _, _, _, _, _, _, _, s1, hdec, rfl⟩ := gaUpdate_ok h
  cases hdec <;> rfl

theorem generation_snaps (hops : SingleRun ops m op mop tr) {s s' : St σ} {u : Unit} {k : Nat} (hs : RunInv s k)
    (h : generation ops s = (.ok u, s')) : s'.snaps = s.snaps ++ [s'.ga.population.map s'.heap] := by
  obtain ⟨_, s1, s2, s3, es, t, hB, _, _, e2, _, _, _, _, hF, hup, _⟩ := generation_inv hops hs h
  rw [gaUpdate_snaps hup, hF.snaps, e2]
  simp only
  rw [hB.snaps]

/-- Every earlier generation was reached, and its population is recorded in the trace. -/
theorem After.earlier (hops : SingleRun ops m op mop tr) (h0 : Fresh s0) {s : St σ} {k : Nat} (h : After ops s0 k s) :
    ∀ i, i < k → ∃ si, After ops s0 (i + 1) si ∧ s.snaps[i]? = some (si.ga.population.map si.heap) := by
  induction h with
  | @first s1 s h1 h2 =>
    intro i hi
    obtain rfl : i = 0 := by omega
    have ha : After ops s0 1 s := .first h1 h2
    refine ⟨s, ha, ?_⟩
    have hi := ha.inv hops h0
    have hl := hi.last
    rwa [List.getLast?_eq_getElem?, hi.hist.snaps] at hl
  | @next k s s' h1 h2 ih =>
    intro i hi
    have hinv := h1.inv hops h0
    have hsn := generation_snaps hops hinv h2
    by_cases hik : i < k
    · obtain ⟨si, a, b⟩ := ih i hik
      exact ⟨si, a, by rw [hsn, List.getElem?_append_left (by rw [hinv.hist.snaps]; exact hik)]; exact b⟩
    · obtain rfl : i = k := by omega
      exact ⟨s', .next h1 h2, by rw [hsn, List.getElem?_append_right (by rw [hinv.hist.snaps])]; simp [hinv.hist.snaps]⟩

/-- The trace of a run is the list of its populations. -/
theorem After.snap (hops : SingleRun ops m op mop tr) (h0 : Fresh s0) {s si : St σ} {k i : Nat} (h : After ops s0 k s)
    (hi : After ops s0 i si) (hik : i ≤ k) : s.snaps[i - 1]? = some (si.ga.population.map si.heap) := by
  have := hi.pos
  obtain ⟨sj, a, b⟩ := h.earlier hops h0 (i - 1) (by omega)
  rw [show i - 1 + 1 = i by omega] at a
  rw [hi.unique a] at b
  exact b

omit [LinearOrder σ] in
/-- Later states of a run are reached from earlier ones by generations. -/
theorem After.induct {P : St σ → Prop} {s s' : St σ} {k j : Nat} (h : After ops s0 k s) (h' : After ops s0 j s') (hkj : k ≤ j)
    (hP : P s) (hstep : ∀ i a b, After ops s0 i a → P a → generation ops a = (.ok (), b) → P b) : P s' := by
  induction h' with
  | first h1 h2 =>
    have := h.pos
    obtain rfl : k = 1 := by omega
    have := h.unique (.first h1 h2)
    rw [this]; exact hP
  | @next j a b h1 h2 ih =>
    by_cases hk : k ≤ j
    · exact hstep j a b h1 (ih hk) h2
    · obtain rfl : k = j + 1 := by omega
      have := h.unique (.next h1 h2)
      rw [this]; exact hP

end

/-! ## the counter -/

theorem staleRev_replicate [LinearOrder σ] {v : σ} : ∀ {n : Nat} {q : List σ}, (∀ y ∈ q, y < v) →
    staleRev (List.replicate (n + 1) v ++ q) = n := by
  intro n
  induction n with
  | zero =>
    intro q hq
    cases q with
    | nil => rfl
    | cons y ys =>
      simp only [zero_add, List.replicate_one, List.singleton_append, staleRev]
      rw [if_pos hq]
  | succ n ih =>
    intro q hq
    have := ih hq
    rw [List.replicate_succ] at this ⊢
    rw [List.cons_append, List.replicate_succ, List.cons_append, staleRev, ← List.cons_append, this, if_neg]
    · intro hc
      exact lt_irrefl v (hc v (by simp))
    · simp

/-- A history that rises strictly to `v` at position `g` and stays there. -/
theorem stale_of_plateau [LinearOrder σ] {l : List σ} {g n : Nat} {v : σ} (hl : l.length = g + n + 1)
    (h1 : ∀ (i : Nat) (x : σ), i < g → l[i]? = some x → x < v) (h2 : ∀ (i : Nat) (x : σ), g ≤ i → l[i]? = some x → x = v) :
    stale l = n := by
  have e : l = l.take g ++ List.replicate (n + 1) v := by
    conv_lhs => rw [← List.take_append_drop g l]
    congr 1
    rw [List.eq_replicate_iff]
    refine ⟨by simp; omega, ?_⟩
    intro x hx
    obtain ⟨i, hi⟩ := List.getElem?_of_mem hx
    rw [List.getElem?_drop] at hi
    exact h2 _ _ (by omega) hi
  unfold stale
  rw [e, List.reverse_append, List.reverse_replicate]
  apply staleRev_replicate
  intro y hy
  rw [List.mem_reverse] at hy
  obtain ⟨i, hi⟩ := List.getElem?_of_mem hy
  rw [List.getElem?_take] at hi
  split at hi
  · exact h1 i y (by assumption) hi
  · simp at hi

end BaumEva
