import Verif.Proofs.Frame
import Verif.Proofs.Live
import Verif.Proofs.Generation
import Verif.Proofs.Vega
/-!
# Which individuals a component writes to, also when it raises
-/
namespace BaumEva
variable {σ α β : Type}

/-- Only individuals of `L` and new ones were written to. -/
def Touch (L : List Nat) (s s' : St σ) : Prop := s.next ≤ s'.next ∧ ∀ r, r < s.next → r ∉ L → s'.heap r = s.heap r

theorem touch_step (L : List Nat) : Step (Touch L : St σ → St σ → Prop) :=
  ⟨fun _ => ⟨le_rfl, fun _ _ _ => rfl⟩,
   fun h1 h2 => ⟨h1.1.trans h2.1, fun r hr hn => (h2.2 r (hr.trans_le h1.1) hn).trans (h1.2 r hr hn)⟩⟩

theorem touch_calm (L : List Nat) : Calm (Touch L : St σ → St σ → Prop) where
  step := touch_step L
  tape _ _ _ _ := ⟨le_rfl, fun _ _ _ => rfl⟩
  seeded _ _ _ := ⟨le_rfl, fun _ _ _ => rfl⟩
  fresh s v := ⟨Nat.le_succ _, fun r hr _ => by simp only [upd]; rw [if_neg (by omega)]⟩
  ga _ _ _ _ := ⟨le_rfl, fun _ _ _ => rfl⟩
  mutLvl _ _ := ⟨le_rfl, fun _ _ _ => rfl⟩

theorem touch_moving (L : List Nat) : Moving (Touch L : St σ → St σ → Prop) :=
  ⟨touch_calm L, fun _ _ _ => ⟨le_rfl, fun _ _ _ => rfl⟩⟩

theorem Touch.mono {L L' : List Nat} {s s' : St σ} (h : Touch L s s') (hs : ∀ r ∈ L, r ∈ L') : Touch L' s s' :=
  ⟨h.1, fun r hr hn => h.2 r hr fun hm => hn (hs r hm)⟩

theorem touch_modInd {L : List Nat} {r : Nat} (h : r ∈ L) (f : Ind σ → Ind σ) : Keeps (Touch L) (modInd r f) := fun s =>
  ⟨le_rfl, fun x _ hn => by
    have : x ≠ r := fun e => hn (e ▸ h)
    simp only [modInd, upd]
    rw [if_neg this]⟩

theorem Keeps.forEach_mem {R : St σ → St σ → Prop} (hR : Step R) {l : List α} {f : α → M σ Unit} (h : ∀ x ∈ l, Keeps R (f x)) :
    Keeps R (BaumEva.forEach l f) := by
  induction l with
  | nil => exact Keeps.pure hR ()
  | cons x xs ih =>
    rw [BaumEva.forEach]
    exact Keeps.bind hR (h x (by simp)) fun _ => ih fun y hy => h y (List.mem_cons_of_mem _ hy)

/-- Composition at one state. -/
theorem keeps_bind {R : St σ → St σ → Prop} (hR : Step R) {m : M σ α} {f : α → M σ β} {s : St σ} (hm : R s (m s).2)
    (hf : ∀ a s1, m s = (.ok a, s1) → R s1 (f a s1).2) : R s ((m >>= f) s).2 := by
  rcases hx : m s with ⟨x, s1⟩
  rw [hx] at hm
  cases x with
  | error e => rw [bind_of_err hx]; exact hm
  | ok a => rw [bind_of_ok hx]; exact hR.trans hm (hf a s1 hx)

/-! ## selections -/

theorem resetIdxFrom_touch {L : List Nat} : ∀ (l : List Nat) (i : Nat), (∀ r ∈ l, r ∈ L) → Keeps (Touch L) (resetIdxFrom i l : M σ Unit)
  | [], i, _ => by rw [resetIdxFrom]; exact Keeps.pure (touch_step L) ()
  | r :: l, i, h => by
    rw [resetIdxFrom]
    exact (touch_calm L).bind (touch_modInd (h r (by simp)) _) fun _ =>
      resetIdxFrom_touch l _ fun x hx => h x (List.mem_cons_of_mem _ hx)

theorem baseSelection_touch (s : St σ) : Touch s.ga.population s ((baseSelection : M σ Unit) s).2 := by
  have hC := touch_calm (σ := σ) s.ga.population
  unfold baseSelection
  refine keeps_bind hC.step ?_ fun _ s1 _ => hC.bind (newPopulation_frame hC) (fun _ => hC.modGa _ ?_) s1
  swap
  · exact fun _ => ⟨⟨rfl, rfl, rfl, rfl, rfl, rfl, rfl, rfl, rfl, rfl⟩, rfl, rfl⟩
  unfold resetIdx
  rw [bind_of_ok (getGa_run s)]
  exact resetIdxFrom_touch _ _ (fun _ h => h) s

/-- `m` writes only to members of the population, which it does not replace. -/
def InPop (m : M σ α) : Prop := ∀ s, Touch s.ga.population s (m s).2 ∧ (m s).2.ga.population = s.ga.population

theorem InPop.bind {m : M σ α} {f : α → M σ β} (hm : InPop m) (hf : ∀ a, InPop (f a)) : InPop (m >>= f) := by
  intro s
  obtain ⟨h1, h2⟩ := hm s
  rcases hx : m s with ⟨x, s1⟩
  rw [hx] at h1 h2
  cases x with
  | error e => rw [bind_of_err hx]; exact ⟨h1, h2⟩
  | ok a =>
    rw [bind_of_ok hx]
    obtain ⟨h3, h4⟩ := hf a s1
    simp only at h2
    rw [h2] at h3 h4
    exact ⟨(touch_step _).trans h1 h3, h4⟩

theorem InPop.pure (a : α) : InPop (Pure.pure a : M σ α) := fun s => ⟨(touch_step _).refl s, rfl⟩
theorem InPop.liftE (x : Except PyErr α) : InPop (BaumEva.liftE x : M σ α) := fun s => by
  cases x <;> exact ⟨(touch_step _).refl s, rfl⟩
theorem InPop.getInd (r : Nat) : InPop (BaumEva.getInd r : M σ (Ind σ)) := fun s => ⟨(touch_step _).refl s, rfl⟩
theorem InPop.getGa : InPop (BaumEva.getGa : M σ (GaData σ)) := fun s => ⟨(touch_step _).refl s, rfl⟩

theorem InPop.forEach {l : List α} {f : α → M σ Unit} (h : ∀ x, InPop (f x)) : InPop (BaumEva.forEach l f) := by
  induction l with
  | nil => exact InPop.pure ()
  | cons x xs ih => rw [BaumEva.forEach]; exact InPop.bind (h x) fun _ => ih

theorem popAt_state (i : Int) (s : St σ) : (popAt i s).2 = s := by
  unfold popAt
  rw [bind_of_ok (getGa_run s)]
  cases pyGet? s.ga.population i <;> rfl

/-- Write to the member at a position. -/
theorem InPop.popAt {β : Type} {i : Int} {f : Nat → M σ β} (h : ∀ r s, r ∈ s.ga.population →
    Touch s.ga.population s (f r s).2 ∧ (f r s).2.ga.population = s.ga.population) : InPop (BaumEva.popAt i >>= f) := by
  intro s
  rcases hx : BaumEva.popAt i s with ⟨x, s1⟩
  cases x with
  | error e =>
    have : s1 = s := by have := popAt_state i s; rw [hx] at this; exact this
    rw [bind_of_err hx, this]
    exact ⟨(touch_step _).refl s, rfl⟩
  | ok r =>
    obtain ⟨hm, rfl⟩ := popAt_ok.mp hx
    rw [bind_of_ok hx]
    exact h r s1 (pyGet?_mem hm)

theorem writeTies_inPop (setRank : ℚ → Ind σ → Ind σ) (a b : Int) (c : Nat) : InPop (writeTies setRank a b c : M σ Unit) := by
  unfold writeTies
  exact InPop.bind InPop.getGa fun ga => InPop.forEach fun i => InPop.popAt fun r s hr => ⟨touch_modInd hr _ s, rfl⟩

theorem rankedStep_inPop (setRank : ℚ → Ind σ → Ind σ) (n idx : Nat) (sc prev : ℚ) (c : Nat) :
    InPop (rankedStep setRank n idx sc prev c : M σ Nat) := by
  unfold rankedStep
  split
  · split
    · exact InPop.bind (writeTies_inPop _ _ _ _) fun _ => InPop.pure _
    · exact InPop.pure _
  · split
    · exact InPop.bind (writeTies_inPop _ _ _ _) fun _ => InPop.pure _
    · exact InPop.pure _

theorem rankedLoop_inPop (key : Ind σ → Except PyErr ℚ) (setRank : ℚ → Ind σ → Ind σ) (n : Nat) :
    ∀ (k idx : Nat) (prev : ℚ) (c : Nat), InPop (rankedLoop key setRank n k idx prev c : M σ Unit) := by
  intro k
  induction k with
  | zero => intro idx prev c; rw [rankedLoop]; exact InPop.pure _
  | succ k ih =>
    intro idx prev c
    rw [rankedLoop]
    refine InPop.popAt fun r s hr => ?_
    have hw : Touch s.ga.population s (modInd r (setRank ((idx : ℚ) + 1)) s).2 ∧
        (modInd r (setRank ((idx : ℚ) + 1)) s).2.ga.population = s.ga.population := ⟨touch_modInd hr _ s, rfl⟩
    have hrest := (InPop.bind (InPop.getInd (σ := σ) r) fun ind => InPop.bind (InPop.liftE (key ind)) fun sc =>
      InPop.bind (rankedStep_inPop setRank n idx sc prev c) fun c' => ih (idx + 1) sc c')
    rcases hx : modInd r (setRank ((idx : ℚ) + 1)) s with ⟨x, s1⟩
    rw [hx] at hw
    cases x with
    | error e => rw [bind_of_err hx]; exact hw
    | ok a =>
      rw [bind_of_ok hx]
      obtain ⟨h3, h4⟩ := hrest s1
      simp only at hw
      rw [hw.2] at h3 h4
      exact ⟨(touch_step _).trans hw.1 h3, h4⟩

theorem assignRanked_inPop (key : Ind σ → Except PyErr ℚ) (setRank : ℚ → Ind σ → Ind σ) : InPop (assignRanked key setRank : M σ Unit) := by
  unfold assignRanked
  exact InPop.bind InPop.getGa fun ga => rankedLoop_inPop _ _ _ _ _ _ _

/-- `m` writes only to members of the population and new individuals. -/
def WritesPop (m : M σ α) : Prop := ∀ s : St σ, (∀ r ∈ s.ga.population, r < s.next) → Touch s.ga.population s (m s).2

theorem tournamentExec_writes [LinearOrder σ] (size : Int) : WritesPop (tournamentExec size : M σ Unit) := by
  intro s _
  have hC := touch_calm (σ := σ) s.ga.population
  unfold tournamentExec
  refine keeps_bind hC.step (checkTournament_frame hC size s) fun _ s1 h1 => ?_
  obtain ⟨rfl, _⟩ := checkTournament_ok h1
  exact keeps_bind hC.step (baseSelection_touch s1) fun _ s2 _ => tournament_frame hC _ _ _ s2

theorem balancedWith_writes {pre : M σ Unit} (hpre : InPop pre) (w : Ind σ → Except PyErr ℚ) (m : Nat) :
    WritesPop (balancedWith pre w m : M σ Unit) := by
  intro s _
  have hC := touch_calm (σ := σ) s.ga.population
  unfold balancedWith
  refine keeps_bind hC.step (baseSelection_touch s) fun _ s1 h1 => keeps_bind hC.step ?_ fun _ s2 _ => ?_
  · have hp : s1.ga.population = s.ga.population := by rw [(baseSelection_relabelled h1).1.ga]
    rw [← hp]; exact (hpre s1).1
  · exact (hC.bind (weights_frame hC w) fun ws => hC.bind hC.getGa fun _ => hC.bind (hC.liftE _) fun sel => roulette_frame hC sel m) s2

theorem selExec_writes (sel : SelOp) : WritesPop (selExec sel) := by
  cases sel
  · exact tournamentExec_writes _
  · exact balancedWith_writes (InPop.pure ()) _ _
  · exact balancedWith_writes (assignRanked_inPop _ _) _ _

/-- One selection per objective. -/
theorem forEach_writes {f : α → M σ Unit} (h1 : ∀ i, WritesPop (f i)) (h2 : ∀ i, Selects (f i)) :
    ∀ l : List α, WritesPop (forEach l f)
  | [] => fun s _ => (touch_step _).refl s
  | x :: l => by
    intro s hal
    rw [forEach]
    refine keeps_bind (touch_step _) (h1 x s hal) fun _ s1 e => ?_
    have hS := h2 x s s1 _ hal e
    have hp : s1.ga.population = s.ga.population := by rw [hS.ga]
    rw [← hp]
    exact forEach_writes h1 h2 l s1 fun r hr => (hal r (hp ▸ hr)).trans_le hS.next

/-! ## crossover and mutation -/

theorem crossExec_writes (op : CrossOp) (L : List Nat) : Keeps (Touch L) (crossExec op : M σ Unit) := crossExec_frame (touch_calm L) op

theorem mutateChild_writes (op : MutOp) {L : List Nat} {r : Nat} (hr : r ∈ L) : Keeps (Touch L) (mutateChild op r : M σ Unit) := by
  have hR := touch_calm (σ := σ) L
  have hm := fun f => touch_modInd (σ := σ) hr f
  unfold mutateChild
  refine hR.bind hR.getS fun s => ?_
  split
  · exact hR.bind (hR.genoOf r) fun g => hR.bind (mutateBits_frame hR _ _) fun g' => hm _
  · refine hR.bind (hR.genoOf r) fun g => ?_
    split
    · exact hR.bind (mutateCat_frame hR _ _ _) fun g' => hm _
    · exact hR.throwE _
  · exact hR.bind (determinesMutation_frame hR _) fun m => Keeps.ite
      (hR.bind (hR.genoOf r) fun g => hR.bind (mutateComb_frame hR _ _) fun g' => hm _) (hR.pure _)

theorem mutExec_writes (op : MutOp) (s : St σ) : Touch s.ga.children s ((mutExec op : M σ Unit) s).2 := by
  have hR := touch_calm (σ := σ) s.ga.children
  have hloop : Keeps (Touch s.ga.children) (forEach s.ga.children (mutateChild op) : M σ Unit) :=
    Keeps.forEach_mem hR.step fun r hr => mutateChild_writes op hr
  unfold mutExec
  rw [bind_of_ok (getS_run s)]
  cases op with
  | binString =>
    cases hsp : s.ga.attrs.spec with
    | binary g b => simp only; exact (hR.bind (hR.liftE _) fun l => hR.bind (hR.setMutLvl l) fun _ => hloop) s
    | _ => simp only; exact hR.throwE _ s
  | _ => exact hloop s

/-! ## evaluation -/

/-- Writes only to the population `L`, which stays the population. -/
def PopTouch (L : List Nat) (s s' : St σ) : Prop := s.ga.population = L → Touch L s s' ∧ s'.ga.population = L

theorem popTouch_step (L : List Nat) : Step (PopTouch L : St σ → St σ → Prop) :=
  ⟨fun s h => ⟨(touch_step L).refl s, h⟩,
   fun h1 h2 h => ⟨(touch_step L).trans (h1 h).1 (h2 (h1 h).2).1, (h2 (h1 h).2).2⟩⟩

theorem InPop.of_popTouch {m : M σ α} (h : ∀ L, Keeps (PopTouch L) m) : InPop m := fun s => h _ s rfl

section
variable {L : List Nat}

theorem PopTouch.modInd {r : Nat} (hr : r ∈ L) (f : Ind σ → Ind σ) : Keeps (PopTouch L) (BaumEva.modInd r f) :=
  fun s h => ⟨touch_modInd hr f s, h⟩

theorem PopTouch.population {f : List Nat → M σ α} (h : Keeps (PopTouch L) (f L)) :
    Keeps (PopTouch L) (BaumEva.getGa >>= fun ga => f ga.population) := by
  intro s hs
  rw [bind_of_ok (getGa_run s), hs]
  exact h s hs

theorem PopTouch.ga {f : GaData σ → M σ α} (h : ∀ ga : GaData σ, ga.population = L → Keeps (PopTouch L) (f ga)) :
    Keeps (PopTouch L) (BaumEva.getGa >>= f) := by
  intro s hs
  rw [bind_of_ok (getGa_run s)]
  exact h s.ga hs s hs

theorem getPhenotype_popTouch : Keeps (PopTouch L) (getPhenotype : M σ Unit) := by
  have hR := popTouch_step (σ := σ) L
  unfold getPhenotype
  refine PopTouch.ga fun ga hga => Keeps.forEach_mem hR fun r hr => Keeps.bind hR (Keeps.getInd hR r) fun ind => ?_
  split
  · exact Keeps.pure hR _
  · exact Keeps.bind hR (Keeps.genoOf hR r) fun g => Keeps.bind hR (Keeps.liftE hR _) fun p => PopTouch.modInd (hga ▸ hr) _

theorem ensurePhenotype_popTouch : Keeps (PopTouch L) (ensurePhenotype : M σ Unit) := by
  have hR := popTouch_step (σ := σ) L
  unfold ensurePhenotype
  exact Keeps.bind hR (Keeps.getGa hR) fun ga => Keeps.ite getPhenotype_popTouch (Keeps.pure hR _)

theorem swapPop_popTouch : Keeps (PopTouch L) (swapPop : M σ Unit) := by
  have hR := popTouch_step (σ := σ) L
  unfold swapPop
  exact PopTouch.ga fun ga hga => Keeps.forEach_mem hR fun r hr => PopTouch.modInd (hga ▸ hr) _

theorem callObj_popTouch (f : List Val → Except PyErr Ret) (g : List Val) : Keeps (PopTouch L) (callObj f g : M σ Ret) := by
  have hR := popTouch_step (σ := σ) L
  unfold callObj
  exact Keeps.bind hR (fun s h => ⟨⟨le_rfl, fun _ _ _ => rfl⟩, h⟩) fun _ => Keeps.liftE hR _

theorem feasLoop_popTouch {r : Nat} (hr : r ∈ L) : ∀ (cs : List Cond) (vs : List ℚ), Keeps (PopTouch L) (feasLoop r cs vs : M σ Unit)
  | [], [] => Keeps.pure (popTouch_step L) _
  | _ :: _, [] => Keeps.pure (popTouch_step L) _
  | [], _ :: _ => Keeps.throwE (popTouch_step L) _
  | c :: cs, v :: vs => by
    rw [feasLoop]
    refine Keeps.bind (popTouch_step L) ?_ fun _ => feasLoop_popTouch hr cs vs
    unfold markFeas
    exact Keeps.ite (Keeps.pure (popTouch_step L) _) (PopTouch.modInd hr _)

theorem evalInd_popTouch (fit : Fit σ) {r : Nat} (hr : r ∈ L) : Keeps (PopTouch L) (evalInd fit r : M σ Unit) := by
  have hR := popTouch_step (σ := σ) L
  unfold evalInd
  refine Keeps.bind hR (Keeps.getInd hR r) fun ind => ?_
  split
  · exact Keeps.pure hR _
  · refine Keeps.bind hR (Keeps.genoOf hR r) fun g => Keeps.bind hR ?_ fun v => Keeps.bind hR ?_ fun p =>
      Keeps.bind hR (Keeps.getInd hR r) fun ind => Keeps.bind hR (Keeps.liftE hR _) fun sc => PopTouch.modInd hr _
    · unfold calcObj
      exact Keeps.bind hR (callObj_popTouch _ _) fun _ => Keeps.liftE hR _
    · unfold evalValues
      refine Keeps.ite ?_ (Keeps.bind hR (PopTouch.modInd hr _) fun _ => Keeps.pure hR _)
      split
      · unfold evalCond
        refine Keeps.bind hR (Keeps.liftE hR _) fun pr => Keeps.bind hR (PopTouch.modInd hr _) fun _ =>
          Keeps.bind hR (feasLoop_popTouch hr _ _) fun _ => Keeps.bind hR (Keeps.getS hR) fun s => ?_
        split
        · exact Keeps.throwE hR _
        · exact Keeps.liftE hR _
      · exact Keeps.throwE hR _

theorem baseFitnessExec_popTouch (fit : Fit σ) : Keeps (PopTouch L) (baseFitnessExec fit : M σ Unit) := by
  have hR := popTouch_step (σ := σ) L
  unfold baseFitnessExec
  refine PopTouch.ga fun ga hga => ?_
  have hloop : Keeps (PopTouch L) (forEach ga.population (evalInd fit) : M σ Unit) :=
    Keeps.forEach_mem hR fun r hr => evalInd_popTouch fit (hga ▸ hr)
  exact Keeps.ite (Keeps.bind hR getPhenotype_popTouch fun _ => Keeps.bind hR swapPop_popTouch fun _ =>
    Keeps.bind hR hloop fun _ => swapPop_popTouch) hloop

theorem objVector_popTouch (t : Task σ) (r : Nat) : Keeps (PopTouch L) (objVector t r : M σ (List ℚ)) := by
  have hR := popTouch_step (σ := σ) L
  unfold objVector
  refine Keeps.bind hR (Keeps.getInd hR r) fun ind => ?_
  split
  · exact Keeps.throwE hR _
  · refine Keeps.bind hR (callObj_popTouch _ _) fun v => ?_
    split
    · exact Keeps.pure hR _
    · exact Keeps.throwE hR _

theorem rankPair_popTouch (t : Task σ) {x y : Nat} (hx : x ∈ L) (hy : y ∈ L) : Keeps (PopTouch L) (rankPair t x y : M σ Unit) := by
  have hR := popTouch_step (σ := σ) L
  unfold rankPair
  refine Keeps.bind hR (objVector_popTouch t x) fun xs => Keeps.bind hR (objVector_popTouch t y) fun ys =>
    Keeps.bind hR (Keeps.liftE hR _) fun i => ?_
  split
  · exact Keeps.pure hR _
  · exact PopTouch.modInd hx _
  · exact PopTouch.modInd hy _

theorem rankLoop_popTouch (t : Task σ) : ∀ l : List Nat, (∀ r ∈ l, r ∈ L) → Keeps (PopTouch L) (rankLoop t l : M σ Unit)
  | [], _ => Keeps.pure (popTouch_step L) _
  | x :: l, h => by
    rw [rankLoop]
    exact Keeps.bind (popTouch_step L) (Keeps.forEach_mem (popTouch_step L) fun y hy =>
      rankPair_popTouch t (h x (by simp)) (h y (List.mem_cons_of_mem _ hy))) fun _ =>
      rankLoop_popTouch t l fun r hr => h r (List.mem_cons_of_mem _ hr)

theorem multiFitnessExec_popTouch (fit : Fit σ) : Keeps (PopTouch L) (multiFitnessExec fit : M σ Unit) := by
  have hR := popTouch_step (σ := σ) L
  unfold multiFitnessExec
  refine Keeps.bind hR ensurePhenotype_popTouch fun _ => Keeps.bind hR ?_ fun _ => baseFitnessExec_popTouch fit
  unfold assignRanks
  exact PopTouch.ga fun ga hga => Keeps.bind hR (Keeps.forEach_mem hR fun r hr => PopTouch.modInd (hga ▸ hr) _) fun _ =>
    rankLoop_popTouch _ _ fun r hr => hga ▸ hr

end

theorem InPop.writes {m : M σ α} (h : InPop m) : WritesPop m := fun s _ => (h s).1

theorem baseFitness_writes (fit : Fit σ) : WritesPop (baseFitnessExec fit : M σ Unit) :=
  (InPop.of_popTouch fun _ => baseFitnessExec_popTouch fit).writes
theorem multiFitness_writes (fit : Fit σ) : WritesPop (multiFitnessExec fit : M σ Unit) :=
  (InPop.of_popTouch fun _ => multiFitnessExec_popTouch fit).writes

theorem newGenExec_writes [LinearOrder σ] (tr : Transfer) (L : List Nat) : Keeps (Touch L) (newGenExec tr : M σ Unit) :=
  newGenExec_frame (touch_moving L) tr

theorem multiNewGen_writes (tr : Transfer) : WritesPop (multiNewGenExec tr : M σ Unit) := by
  intro s _
  have hC := touch_calm (σ := σ) s.ga.population
  unfold multiNewGenExec
  refine keeps_bind hC.step ((InPop.of_popTouch fun _ => ensurePhenotype_popTouch) s).1 fun _ s1 _ => ?_
  exact (hC.bind (chooseFront_frame hC tr) fun l => installPop_frame (touch_moving _) l) s1

/-! ## components that keep scores or more -/

/-- `R` is also kept by writes to nothing but rank and index. -/
structure Ranking (R : St σ → St σ → Prop) : Prop extends Calm R where
  write : ∀ (r : Nat) (f : Ind σ → Ind σ), (∀ i, SameCore i (f i)) → Keeps R (BaumEva.modInd r f)

/-- `R` is also kept by writes that keep the score. -/
structure Gentle (R : St σ → St σ → Prop) : Prop extends Calm R where
  write : ∀ (r : Nat) (f : Ind σ → Ind σ), (∀ i, (f i).score = i.score) → Keeps R (BaumEva.modInd r f)

theorem Gentle.ranking {R : St σ → St σ → Prop} (h : Gentle R) : Ranking R :=
  { h.toCalm with write := fun r f hf => h.write r f fun i => (hf i).score }

section
variable {R : St σ → St σ → Prop} (hG : Ranking R)
include hG

theorem resetIdxFrom_ranking : ∀ (l : List Nat) (i : Nat), Keeps R (resetIdxFrom i l : M σ Unit)
  | [], i => by rw [resetIdxFrom]; exact hG.toCalm.pure _
  | r :: l, i => by
    rw [resetIdxFrom]
    exact hG.toCalm.bind (hG.write r _ fun _ => rfl) fun _ => resetIdxFrom_ranking l _

theorem baseSelection_ranking : Keeps R (baseSelection : M σ Unit) := by
  have hC := hG.toCalm
  unfold baseSelection
  refine hC.bind ?_ fun _ => hC.bind (newPopulation_frame hC) (fun _ => hC.modGa _ ?_)
  swap
  · exact fun _ => ⟨⟨rfl, rfl, rfl, rfl, rfl, rfl, rfl, rfl, rfl, rfl⟩, rfl, rfl⟩
  unfold resetIdx
  exact hC.bind hC.getGa fun ga => resetIdxFrom_ranking hG _ _

theorem tournamentExec_ranking [LinearOrder σ] (size : Int) : Keeps R (tournamentExec size : M σ Unit) := by
  have hC := hG.toCalm
  unfold tournamentExec
  exact hC.bind (checkTournament_frame hC size) fun _ => hC.bind (baseSelection_ranking hG) fun _ => tournament_frame hC _ _ _

theorem balancedWith_ranking {pre : M σ Unit} (hpre : Keeps R pre) (w : Ind σ → Except PyErr ℚ) (m : Nat) :
    Keeps R (balancedWith pre w m : M σ Unit) := by
  have hC := hG.toCalm
  unfold balancedWith
  exact hC.bind (baseSelection_ranking hG) fun _ => hC.bind hpre fun _ => hC.bind (weights_frame hC w) fun ws =>
    hC.bind hC.getGa fun _ => hC.bind (hC.liftE _) fun sel => roulette_frame hC sel m

section
variable (setRank : ℚ → Ind σ → Ind σ) (hs : ∀ q i, SameCore i (setRank q i))
include hs

theorem writeTies_ranking (a b : Int) (c : Nat) : Keeps R (writeTies setRank a b c : M σ Unit) := by
  have hC := hG.toCalm
  unfold writeTies
  exact hC.bind hC.getGa fun _ => hC.forEach fun i => hC.bind (popAt_frame hC i) fun r => hG.write r _ (hs _)

theorem rankedStep_ranking (n idx : Nat) (sc prev : ℚ) (c : Nat) : Keeps R (rankedStep setRank n idx sc prev c : M σ Nat) := by
  have hC := hG.toCalm
  unfold rankedStep
  exact Keeps.ite (Keeps.ite (hC.bind (writeTies_ranking hG _ hs _ _ _) fun _ => hC.pure _) (hC.pure _))
    (Keeps.ite (hC.bind (writeTies_ranking hG _ hs _ _ _) fun _ => hC.pure _) (hC.pure _))

theorem rankedLoop_ranking (key : Ind σ → Except PyErr ℚ) (n : Nat) :
    ∀ (k idx : Nat) (prev : ℚ) (c : Nat), Keeps R (rankedLoop key setRank n k idx prev c : M σ Unit) := by
  have hC := hG.toCalm
  intro k
  induction k with
  | zero => intro idx prev c; rw [rankedLoop]; exact hC.pure _
  | succ k ih =>
    intro idx prev c
    rw [rankedLoop]
    exact hC.bind (popAt_frame hC _) fun r => hC.bind (hG.write r _ (hs _)) fun _ => hC.bind (hC.getInd r) fun ind =>
      hC.bind (hC.liftE _) fun sc => hC.bind (rankedStep_ranking hG _ hs _ _ _ _ _) fun c' => ih _ _ _

theorem assignRanked_ranking (key : Ind σ → Except PyErr ℚ) : Keeps R (assignRanked key setRank : M σ Unit) := by
  have hC := hG.toCalm
  unfold assignRanked
  exact hC.bind hC.getGa fun ga => rankedLoop_ranking hG setRank hs key _ _ _ _ _
end

end

section
variable {R : St σ → St σ → Prop} (hG : Gentle R)
include hG

theorem mutateChild_gentle (op : MutOp) (r : Nat) : Keeps R (mutateChild op r : M σ Unit) := by
  have hR := hG.toCalm
  unfold mutateChild
  refine hR.bind hR.getS fun s => ?_
  split
  · exact hR.bind (hR.genoOf r) fun g => hR.bind (mutateBits_frame hR _ _) fun g' => hG.write r _ fun _ => rfl
  · refine hR.bind (hR.genoOf r) fun g => ?_
    split
    · exact hR.bind (mutateCat_frame hR _ _ _) fun g' => hG.write r _ fun _ => rfl
    · exact hR.throwE _
  · exact hR.bind (determinesMutation_frame hR _) fun m => Keeps.ite
      (hR.bind (hR.genoOf r) fun g => hR.bind (mutateComb_frame hR _ _) fun g' => hG.write r _ fun _ => rfl) (hR.pure _)

theorem mutExec_gentle (op : MutOp) : Keeps R (mutExec op : M σ Unit) := by
  have hR := hG.toCalm
  unfold mutExec
  refine hR.bind hR.getS fun s => ?_
  split
  · split
    · exact hR.bind (hR.liftE _) fun l => hR.bind (hR.setMutLvl l) fun _ => hR.forEach fun r => mutateChild_gentle hG _ r
    · exact hR.throwE _
  · exact hR.forEach fun r => mutateChild_gentle hG _ r

end

theorem selExec_ranking {R : St ℚ → St ℚ → Prop} (hG : Ranking R) (sel : SelOp) : Keeps R (selExec sel) := by
  cases sel
  · exact tournamentExec_ranking hG _
  · exact balancedWith_ranking hG (hG.toCalm.pure ()) _ _
  · exact balancedWith_ranking hG (assignRanked_ranking hG (fun q ind => { ind with rank := some (.sc q) }) (fun _ _ => rfl) _) _ _

/-! ## VEGA's selections -/

theorem vegaTournamentExec_writes (m : Nat) (size : Int) : WritesPop (vegaTournamentExec m size) := by
  intro s _
  have hC := touch_calm (σ := List ℚ) s.ga.population
  unfold vegaTournamentExec
  refine keeps_bind hC.step (checkTournament_frame hC size s) fun _ s1 h1 => ?_
  obtain ⟨rfl, _⟩ := checkTournament_ok h1
  exact keeps_bind hC.step (baseSelection_touch s1) fun _ s2 _ => hC.forEach (fun i => tournament_frame hC _ _ _) s2

theorem vegaSelExec_writes (m : Nat) (sel : VegaSelOp) : WritesPop (vegaSelExec m sel) := by
  cases sel with
  | tournament size => exact vegaTournamentExec_writes m size
  | balanced =>
    exact forEach_writes (fun i => balancedWith_writes (InPop.pure ()) _ _) (fun i => balanced_at_selects i m) _
  | ranked =>
    intro s hal
    show Touch _ s (vegaRankedExec m s).2
    unfold vegaRankedExec
    rw [bind_of_ok (getGa_run s)]
    have hloop : Keeps (PopTouch s.ga.population) (forEach s.ga.population fun r =>
        modInd r fun ind : Ind (List ℚ) => { ind with rank := some (.vec (List.replicate m 0)) }) :=
      Keeps.forEach_mem (popTouch_step _) fun r hr => PopTouch.modInd hr _
    have h1 := hloop s rfl
    refine keeps_bind (touch_step _) h1.1 fun _ s1 e => ?_
    rw [e] at h1
    rw [← h1.2]
    refine forEach_writes (fun i => balancedWith_writes (assignRanked_inPop _ _) _ _) (fun i => ranked_at_selects i m) _ s1 ?_
    intro r hr
    rw [h1.2] at hr
    exact (hal r hr).trans_le h1.1.1

theorem vegaSelExec_ranking {R : St (List ℚ) → St (List ℚ) → Prop} (hG : Ranking R) (m : Nat) (sel : VegaSelOp) :
    Keeps R (vegaSelExec m sel) := by
  have hC := hG.toCalm
  cases sel with
  | tournament size =>
    show Keeps R (vegaTournamentExec m size)
    unfold vegaTournamentExec
    exact hC.bind (checkTournament_frame hC size) fun _ => hC.bind (baseSelection_ranking hG) fun _ =>
      hC.forEach fun i => tournament_frame hC _ _ _
  | balanced => exact hC.forEach fun i => balancedWith_ranking hG (hC.pure ()) _ _
  | ranked =>
    show Keeps R (vegaRankedExec m)
    unfold vegaRankedExec
    exact hC.bind hC.getGa fun ga => hC.bind (hC.forEach fun r => hG.write r _ fun _ => rfl) fun _ =>
      hC.forEach fun i => balancedWith_ranking hG (assignRanked_ranking hG _ (setRankAt_core i) _) _ _

end BaumEva
