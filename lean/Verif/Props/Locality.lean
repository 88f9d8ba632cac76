import Verif.Props.Mutation
/-!
# C130: how much of a tour a mutation changes

`InversionMutation`, `MovementMutation`, `ShiftMutation` and `SwapMutation` rearrange a track (C21).  A user who searches a short round trip wants
a mutation to be a small step: the length should change by the length of a few legs only.
-/
namespace BaumEva

variable {σ : Type}

/-! ## The length of a round trip -/

/-- The length of a walk through the genes in their order. -/
def walkLength (d : Val → Val → ℚ) : List Val → ℚ
  | [] => 0
  | [_] => 0
  | x :: y :: l => d x y + walkLength d (y :: l)

/-- The length of the leg from the last gene of one list to the first gene of another one. -/
def legBetween (d : Val → Val → ℚ) (a b : List Val) : ℚ :=
  match a.getLast?, b.head? with
  | some x, some y => d x y
  | _, _ => 0

/-- The length of the round trip through the genes, back to the first one. -/
def tripLength (d : Val → Val → ℚ) (g : List Val) : ℚ := walkLength d g + legBetween d g g

/-- The number of legs a mutation may replace. -/
def newLegs : MutOp → Nat
  | .inversion => 2
  | .movement => 3
  | .shift => 3
  | .swap => 4
  | _ => 0

/-! ## Cutting walks -/

theorem walkLength_append (d : Val → Val → ℚ) : ∀ a b : List Val, walkLength d (a ++ b) = walkLength d a + legBetween d a b + walkLength d b
  | [], b => by simp [walkLength, legBetween]
  | [x], [] => by simp [walkLength, legBetween]
  | [x], y :: l => by simp [walkLength, legBetween]
  | x :: y :: l, b => by
    have ih := walkLength_append d (y :: l) b
    have hl : legBetween d (x :: y :: l) b = legBetween d (y :: l) b := by
      unfold legBetween
      rw [List.getLast?_cons_cons]
    simp only [List.cons_append] at ih ⊢
    simp only [walkLength, ih, hl]
    ring

theorem legBetween_left (d : Val → Val → ℚ) {b : List Val} (hb : b ≠ []) (a c : List Val) : legBetween d (a ++ b) c = legBetween d b c := by
  unfold legBetween
  rw [List.getLast?_append_of_ne_nil _ hb]

theorem legBetween_right (d : Val → Val → ℚ) {b : List Val} (hb : b ≠ []) (a c : List Val) : legBetween d a (b ++ c) = legBetween d a b := by
  unfold legBetween
  rw [List.head?_append_of_ne_nil _ hb]

theorem tripLength_append (d : Val → Val → ℚ) {a b : List Val} (ha : a ≠ []) (hb : b ≠ []) :
    tripLength d (a ++ b) = walkLength d a + walkLength d b + legBetween d a b + legBetween d b a := by
  unfold tripLength
  rw [walkLength_append, legBetween_left d hb, legBetween_right d ha]
  ring

/-- A round trip has no beginning. -/
theorem tripLength_rotate (d : Val → Val → ℚ) (a b : List Val) : tripLength d (a ++ b) = tripLength d (b ++ a) := by
  by_cases ha : a = []
  · simp [ha]
  · by_cases hb : b = []
    · simp [hb]
    · rw [tripLength_append d ha hb, tripLength_append d hb ha]
      ring

/-! ## Legs that are bounded -/

section
variable {d : Val → Val → ℚ} {D : ℚ} (h0 : ∀ x y, 0 ≤ d x y) (hD : ∀ x y, d x y ≤ D)
include h0 hD

theorem legBetween_bounds (a b : List Val) : 0 ≤ legBetween d a b ∧ legBetween d a b ≤ D := by
  have hD0 : 0 ≤ D := (h0 bit0 bit0).trans (hD _ _)
  unfold legBetween
  split
  · exact ⟨h0 _ _, hD _ _⟩
  · exact ⟨le_rfl, hD0⟩

/-- The round trip through two pieces: their lengths and at most two legs. -/
theorem trip_two (a b : List Val) :
    walkLength d a + walkLength d b ≤ tripLength d (a ++ b) ∧ tripLength d (a ++ b) ≤ walkLength d a + walkLength d b + 2 * D := by
  unfold tripLength
  rw [walkLength_append]
  have h1 := legBetween_bounds h0 hD a b
  have h2 := legBetween_bounds h0 hD (a ++ b) (a ++ b)
  constructor <;> linarith

theorem trip_three (a b c : List Val) :
    walkLength d a + walkLength d b + walkLength d c ≤ tripLength d (a ++ b ++ c) ∧
      tripLength d (a ++ b ++ c) ≤ walkLength d a + walkLength d b + walkLength d c + 3 * D := by
  have h := trip_two h0 hD (a ++ b) c
  rw [walkLength_append d a b] at h
  have h1 := legBetween_bounds h0 hD a b
  constructor <;> linarith

theorem trip_four (a b c e : List Val) :
    walkLength d a + walkLength d b + walkLength d c + walkLength d e ≤ tripLength d (a ++ b ++ c ++ e) ∧
      tripLength d (a ++ b ++ c ++ e) ≤ walkLength d a + walkLength d b + walkLength d c + walkLength d e + 4 * D := by
  have h := trip_three h0 hD (a ++ b) c e
  rw [walkLength_append d a b] at h
  have h1 := legBetween_bounds h0 hD a b
  constructor <;> linarith

omit h0 hD in
theorem walkLength_reverse (hs : ∀ x y, d x y = d y x) : ∀ l : List Val, walkLength d l.reverse = walkLength d l
  | [] => rfl
  | [x] => rfl
  | x :: y :: l => by
    have ih := walkLength_reverse hs (y :: l)
    rw [List.reverse_cons, walkLength_append, ih]
    have : legBetween d (y :: l).reverse [x] = d x y := by
      unfold legBetween
      rw [List.getLast?_reverse]
      exact hs y x
    rw [this]
    simp only [walkLength]
    ring

/-- A chain that is cut out and put in elsewhere: three legs. -/
theorem trip_reinsert {a b a' b' : List Val} (chain : List Val) (h : a ++ b = a' ++ b') :
    |tripLength d (a' ++ chain ++ b') - tripLength d (a ++ chain ++ b)| ≤ 3 * D := by
  have main : ∀ m c e : List Val, |tripLength d (c ++ m ++ chain ++ e) - tripLength d (c ++ chain ++ m ++ e)| ≤ 3 * D := by
    intro m c e
    have e1 : tripLength d (c ++ m ++ chain ++ e) = tripLength d (m ++ chain ++ (e ++ c)) := by
      rw [List.append_assoc c m chain, List.append_assoc c, tripLength_rotate]; simp only [List.append_assoc]
    have e2 : tripLength d (c ++ chain ++ m ++ e) = tripLength d (chain ++ m ++ (e ++ c)) := by
      rw [List.append_assoc c chain m, List.append_assoc c, tripLength_rotate]; simp only [List.append_assoc]
    have h1 := trip_three h0 hD m chain (e ++ c)
    have h2 := trip_three h0 hD chain m (e ++ c)
    rw [e1, e2, abs_le]
    constructor <;> linarith
  rcases List.append_eq_append_iff.mp h with ⟨m, rfl, rfl⟩ | ⟨m, rfl, rfl⟩
  · have := main m a b'
    rwa [List.append_assoc (a ++ chain)] at this
  · have := main m a' b
    rw [abs_sub_comm, List.append_assoc (a' ++ chain)] at this
    exact this

omit h0 hD in
theorem swapGenes_split {g : List Val} {i j : Nat} (hij : i < j) (hj : j < g.length) :
    ∃ a x b y c, g = a ++ [x] ++ b ++ [y] ++ c ∧ swapGenes i j g = a ++ [y] ++ b ++ [x] ++ c := by
  have hi : i < g.length := by omega
  have e1 : g = g.take i ++ g[i] :: g.drop (i + 1) := by rw [← List.drop_eq_getElem_cons hi, List.take_append_drop]
  have hl : j - (i + 1) < (g.drop (i + 1)).length := by rw [List.length_drop]; omega
  have e2 : g.drop (i + 1) = (g.drop (i + 1)).take (j - (i + 1)) ++ g[j] :: g.drop (j + 1) := by
    conv_lhs => rw [← List.take_append_drop (j - (i + 1)) (g.drop (i + 1))]
    rw [List.drop_drop, show i + 1 + (j - (i + 1)) = j by omega, List.drop_eq_getElem_cons hj]
  have e : g = g.take i ++ [g[i]] ++ (g.drop (i + 1)).take (j - (i + 1)) ++ [g[j]] ++ g.drop (j + 1) := by
    conv_lhs => rw [e1, e2]
    simp only [List.append_assoc, List.cons_append, List.nil_append]
  refine ⟨g.take i, g[i], (g.drop (i + 1)).take (j - (i + 1)), g[j], g.drop (j + 1), e, ?_⟩
  unfold swapGenes
  rw [List.getElem?_eq_getElem hi, List.getElem?_eq_getElem hj]
  simp only
  have l1 : (g.take i).length = i := by rw [List.length_take]; omega
  have l2 : ((g.drop (i + 1)).take (j - (i + 1))).length = j - (i + 1) := by rw [List.length_take]; omega
  generalize g.take i = a at *
  generalize (g.drop (i + 1)).take (j - (i + 1)) = b at *
  generalize g.drop (j + 1) = c at *
  generalize g[i] = x at *
  generalize g[j] = y at *
  subst e
  rw [show a ++ [x] ++ b ++ [y] ++ c = a ++ (x :: (b ++ (y :: c))) by simp, List.set_append_right _ _ (by omega), List.set_append_right _ _ (by omega),
    l1, Nat.sub_self, List.set_cons_zero, show j - i = (j - (i + 1)) + 1 by omega, List.set_cons_succ, List.set_append_right _ _ (by omega), l2, Nat.sub_self,
    List.set_cons_zero]
  simp

/-- Two genes that change places: four legs. -/
theorem trip_swap {g : List Val} {i j : Nat} (hij : i ≠ j) (hi : i < g.length) (hj : j < g.length) : |tripLength d (swapGenes i j g) - tripLength d g| ≤ 4 * D := by
  have main : ∀ {i j : Nat}, i < j → j < g.length → |tripLength d (swapGenes i j g) - tripLength d g| ≤ 4 * D := by
    intro i j h hj
    obtain ⟨a, x, b, y, c, e1, e2⟩ := swapGenes_split h hj
    rw [e2, e1]
    have rot : ∀ u v : Val, tripLength d (a ++ [u] ++ b ++ [v] ++ c) = tripLength d ([u] ++ b ++ [v] ++ (c ++ a)) := by
      intro u v
      rw [show a ++ [u] ++ b ++ [v] ++ c = a ++ ([u] ++ b ++ [v] ++ c) by simp, tripLength_rotate]
      simp only [List.append_assoc]
    have h1 := trip_four h0 hD [x] b [y] (c ++ a)
    have h2 := trip_four h0 hD [y] b [x] (c ++ a)
    rw [rot, rot, abs_le]
    constructor <;> linarith
  rcases Nat.lt_or_gt_of_ne hij with h | h
  · exact main h hj
  · have : swapGenes i j g = swapGenes j i g := by
      unfold swapGenes
      rw [List.getElem?_eq_getElem hi, List.getElem?_eq_getElem hj]
      simp only
      rw [List.set_comm _ _ hij]
    rw [this]
    exact main h hi

/-- C130: a mutation replaces at most two, three, three and four legs of the round trip. -/
theorem C130_mutation {op : MutOp} (hop : Combinatorial op) (hs : op = .inversion → ∀ x y, d x y = d y x) {g g' : List Val} {s s' : St σ}
    (h : mutateComb op g s = (.ok g', s')) : |tripLength d g' - tripLength d g| ≤ newLegs op * D := by
  rcases hop with rfl | rfl | rfl | rfl
  · obtain ⟨i, j, hij, hj, rfl, _⟩ := mutateComb_inversion h
    have e := split3 g (show i ≤ j + 1 by omega)
    have rot : ∀ b : List Val, tripLength d (g.take i ++ b ++ g.drop (j + 1)) = tripLength d (b ++ (g.drop (j + 1) ++ g.take i)) := by
      intro b
      rw [List.append_assoc, tripLength_rotate, List.append_assoc]
    have h1 := trip_two h0 hD (slice g i (j + 1)) (g.drop (j + 1) ++ g.take i)
    have h2 := trip_two h0 hD (slice g i (j + 1)).reverse (g.drop (j + 1) ++ g.take i)
    rw [← rot, e] at h1
    rw [← rot, walkLength_reverse (hs rfl)] at h2
    show |tripLength d (g.take i ++ (slice g i (j + 1)).reverse ++ g.drop (j + 1)) - tripLength d g| ≤ ((2 : Nat) : ℚ) * D
    push_cast
    rw [abs_le]
    constructor <;> linarith
  · obtain ⟨i, j, hij, hi, hj, h1, h2⟩ := C21_movement_exact h
    have hj' : j < g'.length := by
      rw [List.getElem?_eq_getElem hi, List.getElem?_eq_some_iff] at h1
      exact h1.1
    have e1 : g = g.take i ++ [g[i]] ++ g.drop (i + 1) := by
      rw [List.append_assoc, List.singleton_append, ← List.drop_eq_getElem_cons hi, List.take_append_drop]
    have e2 : g' = g'.take j ++ [g[i]] ++ g'.drop (j + 1) := by
      rw [List.getElem?_eq_getElem hi, List.getElem?_eq_getElem hj', Option.some.injEq] at h1
      rw [← h1, List.append_assoc, List.singleton_append, ← List.drop_eq_getElem_cons hj', List.take_append_drop]
    rw [List.eraseIdx_eq_take_drop_succ, List.eraseIdx_eq_take_drop_succ] at h2
    have := trip_reinsert h0 hD [g[i]] h2.symm
    rw [← e1, ← e2] at this
    exact_mod_cast this
  · obtain ⟨a, chain, b, a', b', _, _, rfl, rfl, h5, _⟩ := C21_shift_exact h
    have := trip_reinsert h0 hD chain h5
    exact_mod_cast this
  · obtain ⟨i, j, hij, hi, hj, rfl, _⟩ := mutateComb_swap h
    have := trip_swap h0 hD hij hi hj
    exact_mod_cast this

/-- C130 for a child of a population: its genotype changes by that much at most, whatever the mutation level. -/
theorem C130_child {op : MutOp} (hop : Combinatorial op) (hs : op = .inversion → ∀ x y, d x y = d y x) {g : List Val} {r : Nat} {s s' : St σ}
    (hg : (s.heap r).genotype = some g) (h : mutateChild op r s = (.ok (), s')) :
    ∃ g', (s'.heap r).genotype = some g' ∧ |tripLength d g' - tripLength d g| ≤ newLegs op * D := by
  have hD0 : 0 ≤ D := (h0 bit0 bit0).trans (hD _ _)
  have h' : (do
      let m ← determinesMutation (s.mutLvl.effective s.ga.attrs.arith)
      if m then do
        let g ← genoOf r
        let g' ← mutateComb op g
        modInd r fun ind => { ind with genotype := some g' }
      else pure () : M σ Unit) s = (.ok (), s') := by
    rcases hop with rfl | rfl | rfl | rfl <;> exact h
  obtain ⟨m, s1, h1, h2⟩ := bind_ok.mp h'
  obtain ⟨t, rfl⟩ := determines_drew h1
  cases m with
  | false =>
    obtain ⟨_, rfl⟩ := pure_ok.mp h2
    refine ⟨g, hg, ?_⟩
    rw [sub_self, abs_zero]
    positivity
  | true =>
    rw [ite_run, if_pos rfl] at h2
    obtain ⟨g1, s2, h3, h4⟩ := bind_ok.mp h2
    have e3 : genoOf r { s with tape := t } = (.ok g, { s with tape := t }) := by
      unfold genoOf
      simp only [hg]
    rw [e3] at h3
    cases h3
    obtain ⟨g', s3, h5, h6⟩ := bind_ok.mp h4
    have e := modInd_ok.mp h6
    refine ⟨g', ?_, C130_mutation h0 hD hop hs h5⟩
    rw [e]
    simp [upd]

end

/-! ## The bounds are reached -/

/-- Eight places on a circle: the way to a neighbour is free, any other costs 1. -/
def circle (x y : Val) : ℚ :=
  match x, y with
  | .num a, .num b => if b = a + 1 ∨ a = b + 1 ∨ (a = 0 ∧ b = 7) ∨ (a = 7 ∧ b = 0) then 0 else 1
  | _, _ => 1

/-- The round trip along the circle. -/
def circleTrip : List Val := [.num 0, .num 1, .num 2, .num 3, .num 4, .num 5, .num 6, .num 7]

theorem circle_bounds (x y : Val) : 0 ≤ circle x y ∧ circle x y ≤ 1 ∧ circle x y = circle y x := by
  cases x <;> cases y <;> simp only [circle]
  · rename_i a b
    have e : (b = a + 1 ∨ a = b + 1 ∨ (a = 0 ∧ b = 7) ∨ (a = 7 ∧ b = 0)) ↔ (a = b + 1 ∨ b = a + 1 ∨ (b = 0 ∧ a = 7) ∨ (b = 7 ∧ a = 0)) := by tauto
    simp only [e]
    refine ⟨?_, ?_, trivial⟩ <;> split <;> norm_num
  all_goals norm_num

/-- Draws that make each mutation replace as many legs as possible. -/
def worstDraws : MutOp → List Nat
  | .inversion => [2, 3]
  | .movement => [2, 4]
  | .shift => [1, 1, 2]
  | .swap => [1, 3]
  | _ => []

set_option maxRecDepth 100000 in
/-- C130: none of the four bounds can be lowered. -/
theorem C130_tight {op : MutOp} (hop : Combinatorial op) :
    ∃ (d : Val → Val → ℚ) (g g' : List Val) (s s' : St ℚ), (∀ x y, 0 ≤ d x y ∧ d x y ≤ 1 ∧ d x y = d y x) ∧ g.Nodup ∧
      mutateComb op g s = (.ok g', s') ∧ |tripLength d g' - tripLength d g| = newLegs op * 1 := by
  have key : ∀ op ∈ [MutOp.inversion, .movement, .shift, .swap], ∃ g' s', mutateComb op circleTrip ({ tape := worstDraws op } : St ℚ) = (.ok g', s') ∧
      |tripLength circle g' - tripLength circle circleTrip| = newLegs op * 1 := by
    have run : ∀ op ∈ [MutOp.inversion, .movement, .shift, .swap],
        (match (mutateComb op circleTrip ({ tape := worstDraws op } : St ℚ)).1 with
          | .ok g' => decide (|tripLength circle g' - tripLength circle circleTrip| = newLegs op * 1)
          | .error _ => false) = true := by decide +kernel
    intro op h
    have := run op h
    cases e : mutateComb op circleTrip ({ tape := worstDraws op } : St ℚ) with
    | mk r s' =>
      rw [e] at this
      cases r with
      | error x => simp at this
      | ok g' => exact ⟨g', s', rfl, by simpa using this⟩
  obtain ⟨g', s', h1, h2⟩ := key op (by rcases hop with rfl | rfl | rfl | rfl <;> simp)
  exact ⟨circle, circleTrip, g', _, s', circle_bounds, by decide +kernel, h1, h2⟩

set_option maxRecDepth 100000 in
/-- A child that mutates: the hypotheses of `C130_child` hold, and its round trip gets longer by 4. -/
example : ((({ tape := [0, 1, 3], mutLvl := .float (1 / 10), heap := fun _ => { genotype := some circleTrip } } : St ℚ).heap 0).genotype = some circleTrip) ∧
    (match mutateChild .swap 0 ({ tape := [0, 1, 3], mutLvl := .float (1 / 10), heap := fun _ => { genotype := some circleTrip } } : St ℚ) with
      | (.ok _, s') => ((s'.heap 0).genotype.map (tripLength circle) = some 4 : Bool)
      | _ => false) = true ∧ tripLength circle circleTrip = 0 := ⟨rfl, by decide +kernel, by decide +kernel⟩

/-! ## One-way streets -/

/-- Downhill is free, uphill costs 1: distances that depend on the direction. -/
def uphill (x y : Val) : ℚ :=
  match x, y with
  | .num a, .num b => if b < a then 0 else 1
  | _, _ => 1

/-- The places from the highest to the lowest. -/
def descent (n : Nat) : List Val := ((List.range n).map fun (k : Nat) => (.num k : Val)).reverse

theorem walkLength_pairwise {d : Val → Val → ℚ} {c : ℚ} : ∀ {l : List Val}, l.Pairwise (fun x y => d x y = c) → walkLength d l = ((l.length - 1 : Nat) : ℚ) * c
  | [], _ => by simp [walkLength]
  | [x], _ => by simp [walkLength]
  | x :: y :: l, h => by
    rw [List.pairwise_cons] at h
    simp only [walkLength, walkLength_pairwise h.2, h.1 y (by simp)]
    simp only [List.length_cons, Nat.add_sub_cancel]
    push_cast
    ring

/-- C130: with distances that depend on the direction one inversion can replace all legs but two of a trip, however long it is. -/
theorem C130_one_way {n : Nat} (hn : 2 ≤ n) (s : St σ) :
    ∃ (g' : List Val) (t : List Nat), mutateComb .inversion (descent n) { s with tape := t } = (.ok g', { s with tape := [] }) ∧
      tripLength uphill g' - tripLength uphill (descent n) = n - 2 := by
  have hlen : (descent n).length = n := by simp [descent]
  have hsample : sample (List.range n) 2 { s with tape := [0, n - 2] } = (.ok [0, n - 1], { s with tape := [] }) := by
    unfold sample
    rw [ite_run, if_neg (by rw [List.length_range]; omega)]
    show sampleAux 2 _ _ = _
    rw [sampleAux, bind_of_ok (draw_ok.mpr ⟨[n - 2], rfl, rfl⟩), Nat.zero_mod, List.getElem?_range (by omega)]
    simp only []
    have h2 : sampleAux 1 ((List.range n).eraseIdx 0) { s with tape := [n - 2] } = (.ok [n - 1], { s with tape := [] }) := by
      rw [sampleAux, bind_of_ok (draw_ok.mpr ⟨[], rfl, rfl⟩), List.length_eraseIdx, List.length_range, if_pos (by omega), Nat.mod_eq_of_lt (by omega)]
      have : ((List.range n).eraseIdx 0)[n - 2]? = some (n - 1) := by
        rw [List.getElem?_eraseIdx, if_neg (by omega), List.getElem?_range (by omega), show n - 2 + 1 = n - 1 by omega]
      rw [this]
      rfl
    rw [bind_of_ok h2, pure_run]
  have hrun : mutateComb .inversion (descent n) { s with tape := [0, n - 2] } = (.ok (descent n).reverse, { s with tape := [] }) := by
    rw [mutateComb, hlen]
    have : segmentPoints 0 n { s with tape := [0, n - 2] } = (.ok (0, n - 1), { s with tape := [] }) := by
      unfold segmentPoints
      rw [List.drop_zero, bind_of_ok hsample]
      simp only []
      rw [pure_run]
      congr 3
    rw [bind_of_ok this, pure_run]
    congr 2
    unfold inversion slice
    rw [show n - 1 + 1 = n by omega, List.take_zero, List.drop_zero, Nat.sub_zero, List.nil_append, List.drop_eq_nil_of_le hlen.le, List.take_of_length_le hlen.le,
      List.append_nil]
  refine ⟨_, _, hrun, ?_⟩
  have up : ((List.range n).map fun (k : Nat) => (.num k : Val)).Pairwise (fun x y => uphill x y = 1) := by
    rw [List.pairwise_map]
    refine List.pairwise_lt_range.imp fun {a b} h => ?_
    simp only [uphill]
    rw [if_neg]
    exact_mod_cast Nat.not_lt.mpr h.le
  have down : (descent n).Pairwise (fun x y => uphill x y = 0) := by
    rw [descent, List.pairwise_reverse, List.pairwise_map]
    refine List.pairwise_lt_range.imp fun {a b} h => ?_
    simp only [uphill]
    rw [if_pos]
    exact_mod_cast h
  have e0 : (List.range n).head? = some 0 := by rw [List.head?_range, if_neg (by omega)]
  have e1 : (List.range n).getLast? = some (n - 1) := by rw [List.getLast?_range, if_neg (by omega)]
  have l1 : legBetween uphill (descent n) (descent n) = 1 := by
    simp only [legBetween, descent, List.getLast?_reverse, List.head?_reverse, List.head?_map, List.getLast?_map, e0, e1, Option.map_some, uphill]
    rw [if_neg]
    push_cast
    rw [not_lt]
    exact_mod_cast Nat.zero_le _
  have l2 : legBetween uphill (descent n).reverse (descent n).reverse = 0 := by
    simp only [legBetween, descent, List.reverse_reverse, List.head?_map, List.getLast?_map, e0, e1, Option.map_some, uphill]
    rw [if_pos]
    exact_mod_cast (show 0 < n - 1 by omega)
  unfold tripLength
  rw [l1, l2, walkLength_pairwise down, descent, List.reverse_reverse, walkLength_pairwise up]
  simp only [List.length_map, List.length_range, mul_one, mul_zero]
  rw [Nat.cast_sub (by omega)]
  push_cast
  ring

end BaumEva
