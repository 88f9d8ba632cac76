import Verif.Model.Run
import Verif.Proofs.Keeps
/-!
# What no step of a run changes

`Frame R`: `R` is kept by every primitive effect that the components of a run use (`Quiet R`: except for calls of the
objective; `Steady R`: except for changes of the records of the run; `Still R`: except for both).  Then it is kept by the
components, also when they raise: by all (`Frame`), all but the evaluation (`Quiet`), all but the update (`Steady`).
`Moving R` says nothing about writes to existing individuals either, and `Calm R` nothing about changes of the population.
-/
namespace BaumEva
variable {σ α β : Type}

/-- The parameters of the storage object. -/
def SameParams (a b : GaData σ) : Prop :=
  b.numGenerations = a.numGenerations ∧ b.childrenPercent = a.childrenPercent ∧ b.earlyStop = a.earlyStop

theorem SameParams.refl (a : GaData σ) : SameParams a a := ⟨rfl, rfl, rfl⟩

/-- The parameters and the records of the storage object. -/
structure SameRecord (a b : GaData σ) : Prop where
  numGenerations : b.numGenerations = a.numGenerations
  childrenPercent : b.childrenPercent = a.childrenPercent
  earlyStop : b.earlyStop = a.earlyStop
  idxGeneration : b.idxGeneration = a.idxGeneration
  noImprove : b.noImprove = a.noImprove
  histBest : b.histBest = a.histBest
  histMed : b.histMed = a.histMed
  histWorst : b.histWorst = a.histWorst
  histFronts : b.histFronts = a.histFronts
  best : b.best = a.best

/-- The population and its parameters. -/
def SameMembers (a b : GaData σ) : Prop := b.population = a.population ∧ b.attrs = a.attrs

/-- `R` is kept by draws, new individuals, and changes of the parents and children; nothing is said about writes to existing
individuals, changes of the population, and calls of the objective. -/
structure Calm (R : St σ → St σ → Prop) : Prop where
  step : Step R
  tape : ∀ (s : St σ) (x : Nat) (t : List Nat), s.tape = x :: t → R s { s with tape := t }
  seeded : ∀ (s : St σ) (t : List Nat), s.seed = some t → R s { s with tape := t }
  fresh : ∀ (s : St σ) (v : Ind σ), R s { s with heap := upd s.heap s.next v, next := s.next + 1 }
  ga : ∀ (s : St σ) (g : GaData σ), SameRecord s.ga g → SameMembers s.ga g → R s { s with ga := g }
  mutLvl : ∀ (s : St σ) (l : MutLvl), R s { s with mutLvl := l }

/-- `R` is also kept by changes of the population object. -/
structure Moving (R : St σ → St σ → Prop) : Prop extends Calm R where
  move : ∀ (s : St σ) (g : GaData σ), SameRecord s.ga g → R s { s with ga := g }

/-- `R` is kept by draws, writes to individuals, and changes of the storage object that keep its parameters and records;
nothing is said about calls of the objective. -/
structure Still (R : St σ → St σ → Prop) : Prop where
  step : Step R
  tape : ∀ (s : St σ) (x : Nat) (t : List Nat), s.tape = x :: t → R s { s with tape := t }
  seeded : ∀ (s : St σ) (t : List Nat), s.seed = some t → R s { s with tape := t }
  heap : ∀ (s : St σ) (h : Nat → Ind σ) (n : Nat), R s { s with heap := h, next := n }
  ga : ∀ (s : St σ) (g : GaData σ), SameRecord s.ga g → R s { s with ga := g }
  mutLvl : ∀ (s : St σ) (l : MutLvl), R s { s with mutLvl := l }

/-- `R` is also kept by calls of the objective. -/
structure Steady (R : St σ → St σ → Prop) : Prop extends Still R where
  calls : ∀ (s : St σ) (g : List Val), R s { s with calls := s.calls ++ [g] }

/-- `R` is kept by draws, writes to individuals, and changes of the storage object that keep its parameters; nothing is
said about calls of the objective. -/
structure Quiet (R : St σ → St σ → Prop) : Prop where
  step : Step R
  tape : ∀ (s : St σ) (x : Nat) (t : List Nat), s.tape = x :: t → R s { s with tape := t }
  seeded : ∀ (s : St σ) (t : List Nat), s.seed = some t → R s { s with tape := t }
  heap : ∀ (s : St σ) (h : Nat → Ind σ) (n : Nat), R s { s with heap := h, next := n }
  ga : ∀ (s : St σ) (g : GaData σ), SameParams s.ga g → R s { s with ga := g }
  mutLvl : ∀ (s : St σ) (l : MutLvl), R s { s with mutLvl := l }
  snaps : ∀ (s : St σ) (l : List (List (Ind σ))), R s { s with snaps := l }

/-- `R` is also kept by calls of the objective. -/
structure Frame (R : St σ → St σ → Prop) : Prop extends Quiet R where
  calls : ∀ (s : St σ) (g : List Val), R s { s with calls := s.calls ++ [g] }

section
variable {R : St σ → St σ → Prop}

theorem Quiet.still (h : Quiet R) : Still R :=
  ⟨h.step, h.tape, h.seeded, h.heap, fun s g hg => h.ga s g ⟨hg.numGenerations, hg.childrenPercent, hg.earlyStop⟩, h.mutLvl⟩

theorem Frame.steady (h : Frame R) : Steady R := ⟨h.toQuiet.still, h.calls⟩

theorem Calm.pure (hR : Calm R) (a : α) : Keeps R (Pure.pure a : M σ α) := Keeps.pure hR.step a
theorem Calm.throwE (hR : Calm R) (e : PyErr) : Keeps R (BaumEva.throwE e : M σ α) := Keeps.throwE hR.step e
theorem Calm.getS (hR : Calm R) : Keeps R (BaumEva.getS : M σ (St σ)) := Keeps.getS hR.step
theorem Calm.getGa (hR : Calm R) : Keeps R (BaumEva.getGa : M σ (GaData σ)) := Keeps.getGa hR.step
theorem Calm.getInd (hR : Calm R) (r : Nat) : Keeps R (BaumEva.getInd r : M σ (Ind σ)) := Keeps.getInd hR.step r
theorem Calm.genoOf (hR : Calm R) (r : Nat) : Keeps R (BaumEva.genoOf r : M σ (List Val)) := Keeps.genoOf hR.step r
theorem Calm.liftE (hR : Calm R) (x : Except PyErr α) : Keeps R (BaumEva.liftE x : M σ α) := Keeps.liftE hR.step x
theorem Calm.bind (hR : Calm R) {m : M σ α} {f : α → M σ β} (hm : Keeps R m) (hf : ∀ a, Keeps R (f a)) :
    Keeps R (m >>= f) := Keeps.bind hR.step hm hf
theorem Calm.forEach (hR : Calm R) {l : List α} {f : α → M σ Unit} (h : ∀ x, Keeps R (f x)) :
    Keeps R (BaumEva.forEach l f) := Keeps.forEach hR.step h
theorem Calm.mapEach (hR : Calm R) {l : List α} {f : α → M σ β} (h : ∀ x, Keeps R (f x)) :
    Keeps R (BaumEva.mapEach l f) := Keeps.mapEach hR.step h

theorem Calm.alloc (hR : Calm R) (v : Ind σ) : Keeps R (BaumEva.alloc v) := fun s => hR.fresh s v
theorem Calm.modGa (hR : Calm R) (f : GaData σ → GaData σ) (h : ∀ g, SameRecord g (f g) ∧ SameMembers g (f g)) :
    Keeps R (BaumEva.modGa f) := fun s => hR.ga s _ (h s.ga).1 (h s.ga).2
theorem Calm.draw (hR : Calm R) : Keeps R (BaumEva.draw : M σ Nat) := by
  intro s
  unfold BaumEva.draw
  split
  · exact hR.step.refl s
  · rename_i x t e; exact hR.tape s x t e
theorem Calm.reseed (hR : Calm R) : Keeps R (BaumEva.reseed : M σ Unit) := by
  intro s
  unfold BaumEva.reseed
  split
  · exact hR.step.refl s
  · rename_i t e; exact hR.seeded s t e
theorem Calm.scoreOf (hR : Calm R) (r : Nat) : Keeps R (BaumEva.scoreOf r : M σ σ) := by
  intro s
  unfold BaumEva.scoreOf
  split <;> exact hR.step.refl s
theorem Calm.rankOf (hR : Calm R) (r : Nat) : Keeps R (BaumEva.rankOf r : M σ ℚ) := by
  intro s
  unfold BaumEva.rankOf
  split <;> exact hR.step.refl s
theorem Calm.frontPrefix (hR : Calm R) (l : List Nat) : Keeps R (BaumEva.frontPrefix l : M σ (List Nat)) :=
  fun s => hR.step.refl s

theorem Calm.setMutLvl (hR : Calm R) (l : MutLvl) : Keeps R (modifyS (fun s => { s with mutLvl := l }) : M σ Unit) :=
  fun s => hR.mutLvl s l

theorem Moving.modGa (hR : Moving R) (f : GaData σ → GaData σ) (h : ∀ g, SameRecord g (f g)) : Keeps R (BaumEva.modGa f) :=
  fun s => hR.move s _ (h s.ga)

theorem Still.moving (h : Still R) : Moving R :=
  ⟨⟨h.step, h.tape, h.seeded, fun s _ => h.heap s _ _, fun s g hg _ => h.ga s g hg, h.mutLvl⟩, h.ga⟩
theorem Still.calm (h : Still R) : Calm R := h.moving.toCalm

theorem Still.pure (hR : Still R) (a : α) : Keeps R (Pure.pure a : M σ α) := hR.calm.pure a
theorem Still.throwE (hR : Still R) (e : PyErr) : Keeps R (BaumEva.throwE e : M σ α) := hR.calm.throwE e
theorem Still.getS (hR : Still R) : Keeps R (BaumEva.getS : M σ (St σ)) := hR.calm.getS 
theorem Still.getGa (hR : Still R) : Keeps R (BaumEva.getGa : M σ (GaData σ)) := hR.calm.getGa 
theorem Still.getInd (hR : Still R) (r : Nat) : Keeps R (BaumEva.getInd r : M σ (Ind σ)) := hR.calm.getInd r
theorem Still.genoOf (hR : Still R) (r : Nat) : Keeps R (BaumEva.genoOf r : M σ (List Val)) := hR.calm.genoOf r
theorem Still.liftE (hR : Still R) (x : Except PyErr α) : Keeps R (BaumEva.liftE x : M σ α) := hR.calm.liftE x
theorem Still.bind (hR : Still R) {m : M σ α} {f : α → M σ β} (hm : Keeps R m) (hf : ∀ a, Keeps R (f a)) :
    Keeps R (m >>= f) := Keeps.bind hR.step hm hf
theorem Still.forEach (hR : Still R) {l : List α} {f : α → M σ Unit} (h : ∀ x, Keeps R (f x)) :
    Keeps R (BaumEva.forEach l f) := Keeps.forEach hR.step h
theorem Still.mapEach (hR : Still R) {l : List α} {f : α → M σ β} (h : ∀ x, Keeps R (f x)) :
    Keeps R (BaumEva.mapEach l f) := Keeps.mapEach hR.step h
theorem Still.modInd (hR : Still R) (r : Nat) (f : Ind σ → Ind σ) : Keeps R (BaumEva.modInd r f) := fun s => hR.heap s _ s.next
theorem Still.alloc (hR : Still R) (v : Ind σ) : Keeps R (BaumEva.alloc v) := hR.calm.alloc v
theorem Still.modGa (hR : Still R) (f : GaData σ → GaData σ) (h : ∀ g, SameRecord g (f g)) : Keeps R (BaumEva.modGa f) :=
  hR.moving.modGa f h
theorem Still.reseed (hR : Still R) : Keeps R (BaumEva.reseed : M σ Unit) := hR.calm.reseed
theorem Still.frontPrefix (hR : Still R) (l : List Nat) : Keeps R (BaumEva.frontPrefix l : M σ (List Nat)) := hR.calm.frontPrefix l
theorem Still.setMutLvl (hR : Still R) (l : MutLvl) : Keeps R (modifyS (fun s => { s with mutLvl := l }) : M σ Unit) :=
  hR.calm.setMutLvl l
theorem Steady.addCall (hR : Steady R) (g : List Val) : Keeps R (modifyS (fun s => { s with calls := s.calls ++ [g] }) : M σ Unit) :=
  fun s => hR.calls s _

theorem Quiet.pure (hR : Quiet R) (a : α) : Keeps R (Pure.pure a : M σ α) := Keeps.pure hR.step a
theorem Quiet.throwE (hR : Quiet R) (e : PyErr) : Keeps R (BaumEva.throwE e : M σ α) := Keeps.throwE hR.step e
theorem Quiet.getS (hR : Quiet R) : Keeps R (BaumEva.getS : M σ (St σ)) := Keeps.getS hR.step
theorem Quiet.getGa (hR : Quiet R) : Keeps R (BaumEva.getGa : M σ (GaData σ)) := Keeps.getGa hR.step
theorem Quiet.getInd (hR : Quiet R) (r : Nat) : Keeps R (BaumEva.getInd r : M σ (Ind σ)) := Keeps.getInd hR.step r
theorem Quiet.genoOf (hR : Quiet R) (r : Nat) : Keeps R (BaumEva.genoOf r : M σ (List Val)) := Keeps.genoOf hR.step r
theorem Quiet.liftE (hR : Quiet R) (x : Except PyErr α) : Keeps R (BaumEva.liftE x : M σ α) := Keeps.liftE hR.step x
theorem Quiet.bind (hR : Quiet R) {m : M σ α} {f : α → M σ β} (hm : Keeps R m) (hf : ∀ a, Keeps R (f a)) :
    Keeps R (m >>= f) := Keeps.bind hR.step hm hf
theorem Quiet.forEach (hR : Quiet R) {l : List α} {f : α → M σ Unit} (h : ∀ x, Keeps R (f x)) :
    Keeps R (BaumEva.forEach l f) := Keeps.forEach hR.step h
theorem Quiet.modInd (hR : Quiet R) (r : Nat) (f : Ind σ → Ind σ) : Keeps R (BaumEva.modInd r f) := fun s => hR.heap s _ s.next
theorem Quiet.frontPrefix (hR : Quiet R) (l : List Nat) : Keeps R (BaumEva.frontPrefix l : M σ (List Nat)) :=
  fun s => hR.step.refl s
theorem Quiet.modGa (hR : Quiet R) (f : GaData σ → GaData σ) (h : ∀ g, SameParams g (f g)) : Keeps R (BaumEva.modGa f) :=
  fun s => hR.ga s _ (h s.ga)
theorem Quiet.snapshot (hR : Quiet R) : Keeps R (BaumEva.snapshot : M σ Unit) := fun s => hR.snaps s _

end

/-- Decompose a computation; `hR : Calm R`, `hR : Still R` or `hR : Quiet R` must be in the context. -/
macro "frame" : tactic => `(tactic| repeat' first
  | assumption
  | exact Moving.toCalm ‹_›
  | exact Still.calm ‹_›
  | exact Still.moving ‹_›
  | exact (Quiet.still ‹_›).moving
  | exact Quiet.still ‹_›
  | exact (Quiet.still ‹_›).calm
  | intro _
  | apply Calm.pure
  | apply Calm.throwE
  | apply Calm.getS
  | apply Calm.getGa
  | apply Calm.getInd
  | apply Calm.genoOf
  | apply Calm.scoreOf
  | apply Calm.rankOf
  | apply Calm.frontPrefix
  | apply Calm.liftE
  | apply Still.modInd
  | apply Calm.alloc
  | apply Calm.draw
  | apply Calm.reseed
  | (refine Calm.modGa ?_ _ (fun _ => ⟨⟨rfl, rfl, rfl, rfl, rfl, rfl, rfl, rfl, rfl, rfl⟩, rfl, rfl⟩))
  | (refine Moving.modGa ?_ _ (fun _ => ⟨rfl, rfl, rfl, rfl, rfl, rfl, rfl, rfl, rfl, rfl⟩))
  | (refine Quiet.modGa ?_ _ (fun _ => ⟨rfl, rfl, rfl⟩))
  | apply Calm.forEach
  | apply Calm.mapEach
  | apply Keeps.ite
  | apply Calm.bind
  | split)

attribute [local irreducible] Keeps

section
variable {R : St σ → St σ → Prop} (hR : Calm R)
include hR

theorem randint_frame (a b : Int) : Keeps R (randint a b : M σ Int) := by unfold randint; frame
theorem randrange_frame (a b c : Int) : Keeps R (randrange a b c : M σ Int) := by unfold randrange; frame
theorem choice_frame (l : List α) : Keeps R (choice l : M σ α) := by unfold choice; frame
theorem sampleAux_frame : ∀ (k : Nat) (l : List α), Keeps R (sampleAux k l : M σ (List α)) := by
  intro k
  induction k with
  | zero => intro l; rw [sampleAux]; frame
  | succ k ih => intro l; rw [sampleAux]; frame; exact ih _
theorem sample_frame (l : List α) (k : Int) : Keeps R (sample l k : M σ (List α)) := by
  unfold sample
  have := sampleAux_frame hR k.toNat l
  frame
theorem random01_frame : Keeps R (random01 : M σ ℚ) := by unfold random01; frame

/-! populations -/

theorem genCatGene_frame (c : CatGene) : Keeps R (genCatGene c : M σ Val) := by
  cases c with
  | range lo hi st =>
    have := randrange_frame hR lo (hi + 1) st
    rw [genCatGene]; frame
  | values l => rw [genCatGene]; exact choice_frame hR l
  | other => rw [genCatGene]; frame
theorem genBinGene_frame (gray : Bool) (p : GeneParams) : Keeps R (genBinGene gray p : M σ (List Val)) := by
  unfold genBinGene
  have := randint_frame hR 0 p.realNumPoints
  frame
theorem generate_frame (at_ : Attrs) : Keeps R (generate at_ : M σ (List Val)) := by
  unfold generate
  split
  · exact hR.mapEach (genCatGene_frame hR)
  · exact hR.bind (sample_frame hR _ _) fun _ => hR.pure _
  · exact hR.bind (hR.mapEach (genBinGene_frame hR _)) fun _ => hR.pure _
theorem newPopulation_frame : Keeps R (newPopulation : M σ Unit) := hR.reseed
theorem isDuplicate_frame (l : List Nat) : Keeps R (isDuplicate l : M σ Bool) := by unfold isDuplicate; frame
/-! selections -/

theorem addParent_frame (r : Nat) : Keeps R (addParent r : M σ Unit) := by unfold addParent; frame
theorem popAt_frame (i : Int) : Keeps R (popAt i : M σ Nat) := by unfold popAt; frame

section
variable {κ : Type} [LinearOrder κ] (key : Ind σ → Except PyErr κ)
theorem getBestLoop_frame : ∀ (is : List Nat) (best : Nat), Keeps R (getBestLoop key best is : M σ Nat) := by
  intro is
  induction is with
  | nil => intro b; rw [getBestLoop]; frame
  | cons i is ih =>
    intro b
    rw [getBestLoop]
    have := popAt_frame hR (i : Int)
    frame
    all_goals exact ih _
theorem getBest_frame (is : List Nat) : Keeps R (getBest key is : M σ Nat) := by
  cases is with
  | nil => rw [getBest]; frame
  | cons i is =>
    rw [getBest]
    exact hR.bind (popAt_frame hR _) fun r => getBestLoop_frame hR key is r
theorem oneTournament_frame (size : Int) : Keeps R (oneTournament key size : M σ Nat) := by
  unfold oneTournament
  exact hR.bind hR.getGa fun ga => hR.bind (sample_frame hR _ _) fun t => getBest_frame hR key t
theorem secondParent_frame (size : Int) (first : Nat) : ∀ f : Nat, Keeps R (secondParent key size first f : M σ Nat) := by
  intro f
  induction f with
  | zero => rw [secondParent]; frame
  | succ f ih =>
    rw [secondParent]
    have := oneTournament_frame hR key size
    frame
theorem tournamentPair_frame (size : Int) : Keeps R (tournamentPair key size : M σ Unit) := by
  unfold tournamentPair
  exact hR.bind (oneTournament_frame hR key size) fun a => hR.bind hR.getS fun s =>
    hR.bind (secondParent_frame hR key size a _) fun b => hR.bind (addParent_frame hR a) fun _ => addParent_frame hR b
theorem tournament_frame (size : Int) (m : Nat) : Keeps R (tournament key size m : M σ Unit) := by
  unfold tournament
  exact hR.bind hR.getGa fun ga => hR.forEach fun _ => tournamentPair_frame hR key size
end

theorem checkTournament_frame (size : Int) : Keeps R (checkTournament size : M σ Unit) := by unfold checkTournament; frame
theorem getIndex_frame (sel : List ℚ) : Keeps R (getIndex sel : M σ Int) := by
  unfold getIndex
  exact hR.bind hR.getGa fun _ => hR.bind (random01_frame hR) fun r => hR.pure _
theorem secondIndex_frame (sel : List ℚ) (i : Int) : ∀ f : Nat, Keeps R (secondIndex sel i f : M σ Int) := by
  intro f
  induction f with
  | zero => rw [secondIndex]; frame
  | succ f ih =>
    rw [secondIndex]
    have := getIndex_frame hR sel
    frame
theorem roulettePair_frame (sel : List ℚ) : Keeps R (roulettePair sel : M σ Unit) := by
  unfold roulettePair
  exact hR.bind (getIndex_frame hR sel) fun i => hR.bind hR.getS fun s => hR.bind (secondIndex_frame hR sel i _) fun j =>
    hR.bind (popAt_frame hR _) fun a => hR.bind (addParent_frame hR a) fun _ =>
    hR.bind (popAt_frame hR _) fun b => addParent_frame hR b
theorem roulette_frame (sel : List ℚ) (m : Nat) : Keeps R (roulette sel m : M σ Unit) := by
  unfold roulette
  exact hR.bind hR.getGa fun ga => hR.forEach fun _ => roulettePair_frame hR sel
theorem weights_frame (w : Ind σ → Except PyErr ℚ) : Keeps R (weights w : M σ (List ℚ)) := by unfold weights; frame
/-! crossovers -/

theorem segmentPoints_frame (lo len : Nat) : Keeps R (segmentPoints lo len : M σ (Nat × Nat)) := by
  unfold segmentPoints
  refine hR.bind (sample_frame hR _ _) fun l => ?_
  frame
theorem uniformLoop_frame (p1 p2 : List Val) : ∀ (n i : Nat), Keeps R (uniformLoop p1 p2 i n : M σ (List Val)) := by
  intro n
  induction n with
  | zero => intro i; rw [uniformLoop]; frame
  | succ n ih =>
    intro i
    rw [uniformLoop]
    refine hR.bind (randint_frame hR _ _) fun coin => ?_
    simp only
    have := ih (i + 1)
    frame
theorem crossGeno_frame (op : CrossOp) (len : Nat) (p1 p2 : List Val) :
    Keeps R (crossGeno op len p1 p2 : M σ (List Val × List Val)) := by
  cases op <;> rw [crossGeno]
  · exact hR.bind (randint_frame hR _ _) fun _ => hR.pure _
  · exact hR.bind (segmentPoints_frame hR _ _) fun _ => hR.pure _
  · exact hR.bind (uniformLoop_frame hR _ _ _ _) fun _ => hR.pure _
  · exact hR.bind (segmentPoints_frame hR _ _) fun _ => hR.pure _
theorem getChild_frame (op : CrossOp) (len : Nat) (p1 p2 : List Val) : Keeps R (getChild op len p1 p2 : M σ Nat) := by
  unfold getChild
  exact hR.bind (crossGeno_frame hR op len p1 p2) fun _ => hR.bind (randint_frame hR _ _) fun _ => hR.alloc _
theorem crossPairs_frame (op : CrossOp) (len : Nat) : ∀ (n : Nat) (l : List Nat), l.length ≤ n →
    Keeps R (crossPairs op len l : M σ Unit) := by
  intro n
  induction n with
  | zero =>
    intro l hl
    have : l = [] := List.length_eq_zero_iff.mp (by omega)
    subst this; rw [crossPairs]; frame
  | succ n ih =>
    intro l hl
    match l, hl with
    | [], _ => rw [crossPairs]; frame
    | [_], _ => rw [crossPairs]; frame
    | a :: b :: rest, hl =>
      rw [crossPairs]
      refine hR.bind (hR.genoOf a) fun p1 => hR.bind (hR.genoOf b) fun p2 => hR.bind (getChild_frame hR _ _ _ _) fun c =>
        hR.bind (hR.modGa _ fun _ => ⟨⟨rfl, rfl, rfl, rfl, rfl, rfl, rfl, rfl, rfl, rfl⟩, rfl, rfl⟩) fun _ => ih rest ?_
      simp at hl; omega
theorem crossExec_frame (op : CrossOp) : Keeps R (crossExec op : M σ Unit) := by
  unfold crossExec
  refine hR.bind hR.getGa fun ga => ?_
  split
  · exact hR.throwE _
  · exact hR.bind (hR.genoOf _) fun g => hR.bind (newPopulation_frame hR) fun _ =>
      hR.bind (hR.modGa _ fun _ => ⟨⟨rfl, rfl, rfl, rfl, rfl, rfl, rfl, rfl, rfl, rfl⟩, rfl, rfl⟩) fun _ => crossPairs_frame hR op _ _ _ le_rfl

/-! mutations -/

theorem determinesMutation_frame (lvl : MutLvl) : Keeps R (determinesMutation lvl : M σ Bool) := by
  unfold determinesMutation
  refine hR.bind (randint_frame hR _ _) fun d => ?_
  frame
theorem mutateComb_frame (op : MutOp) (g : List Val) : Keeps R (mutateComb op g : M σ (List Val)) := by
  have h1 := segmentPoints_frame (σ := σ) hR
  have h2 := randint_frame (σ := σ) hR
  have h3 := choice_frame (σ := σ) (α := Int) hR
  have h4 := sample_frame (σ := σ) (α := Nat) hR
  cases op <;> simp only [mutateComb] <;> frame
theorem mutateBits_frame (lvl : MutLvl) : ∀ g : List Val, Keeps R (mutateBits lvl g : M σ (List Val)) := by
  intro g
  induction g with
  | nil => rw [mutateBits]; frame
  | cons x xs ih =>
    rw [mutateBits]
    have := determinesMutation_frame hR lvl
    frame
theorem mutateCatGene_frame (p : CatGene) (x : Val) : Keeps R (mutateCatGene p x : M σ Val) := by
  cases p with
  | values l => rw [mutateCatGene]; exact Keeps.ite (choice_frame hR _) (hR.pure _)
  | range lo hi st =>
    rw [mutateCatGene]
    exact Keeps.ite (hR.throwE _) (Keeps.ite (choice_frame hR _) (hR.pure _))
  | other => rw [mutateCatGene]; frame
theorem mutateCatAt_frame (lvl : MutLvl) (ps : List CatGene) (x : Val) : Keeps R (mutateCatAt lvl ps x : M σ Val) := by
  unfold mutateCatAt
  refine hR.bind (determinesMutation_frame hR lvl) fun m => Keeps.ite ?_ (hR.pure _)
  split
  · exact hR.throwE _
  · exact mutateCatGene_frame hR _ _
theorem mutateCat_frame (lvl : MutLvl) : ∀ (g : List Val) (ps : List CatGene), Keeps R (mutateCat lvl ps g : M σ (List Val)) := by
  intro g
  induction g with
  | nil => intro ps; rw [mutateCat]; frame
  | cons x xs ih =>
    intro ps
    rw [mutateCat]
    exact hR.bind (mutateCatAt_frame hR _ _ _) fun y => hR.bind (ih _) fun ys => hR.pure _
theorem newMutation_frame (op : MutOp) (lvl : MutLvl) : Keeps R (newMutation op lvl : M σ Unit) := by
  unfold newMutation
  exact hR.bind (hR.liftE _) fun l => hR.bind hR.getGa fun _ => hR.setMutLvl _

/-! new generations -/

theorem withGeno_frame (l : List Nat) : Keeps R (withGeno l : M σ (List (List Val × Nat))) := by unfold withGeno; frame
theorem addBest_frame (k : Nat) : Keeps R (addBest k : M σ (List Nat)) := by
  unfold addBest
  refine hR.bind hR.getGa fun ga => ?_
  simp only
  exact hR.bind (isDuplicate_frame hR _) fun d => Keeps.ite (hR.bind (withGeno_frame hR _) fun _ =>
    hR.bind (sample_frame hR _ _) fun _ => hR.pure _) (hR.pure _)
theorem resample_frame (pool : List Nat) (k : Nat) : ∀ (n : Nat) (e : List Nat), Keeps R (resample pool k n e : M σ (List Nat)) := by
  intro n
  induction n with
  | zero => intro e; rw [resample]; frame
  | succ n ih =>
    intro e
    rw [resample]
    exact hR.bind (isDuplicate_frame hR _) fun d => Keeps.ite (hR.bind (sample_frame hR _ _) fun e' => ih e') (hR.pure _)
theorem addRandom_frame (k : Nat) : Keeps R (addRandom k : M σ (List Nat)) := by
  unfold addRandom
  refine hR.bind hR.getGa fun ga => ?_
  simp only
  refine hR.bind (sample_frame hR _ _) fun e => hR.bind (resample_frame hR _ _ _ _) fun e => ?_
  frame
theorem chooseElites_frame (tr : Transfer) (k : Nat) : Keeps R (chooseElites tr k : M σ (List Nat)) := by
  cases tr
  · exact addBest_frame hR k
  · exact addRandom_frame hR k
theorem chooseFront_frame (tr : Transfer) : Keeps R (chooseFront tr : M σ (List Nat)) := by
  unfold chooseFront
  refine hR.bind hR.getGa fun ga => ?_
  cases tr
  · exact hR.frontPrefix _
  · exact addRandom_frame hR _
theorem copyAll_frame (l : List Nat) : Keeps R (copyAll l : M σ (List Nat)) := by unfold copyAll; frame

end

section
variable {R : St σ → St σ → Prop} (hR : Moving R)
include hR

/-! what changes the population -/

theorem addDict_frame (g : List Val) : Keeps R (addDict g : M σ Unit) := by unfold addDict; frame
theorem setParams_frame (spec : PopSpec) (n : Nat) (input : Option (List (List Val))) :
    Keeps R (setParams spec n input : M σ Unit) := by unfold setParams; frame
theorem prepare_frame : Keeps R (prepare : M σ Unit) := by unfold prepare; frame
theorem sortByScore_frame [LinearOrder σ] : Keeps R (sortByScore : M σ Unit) := by unfold sortByScore; frame
theorem sortByRank_frame : Keeps R (sortByRank : M σ Unit) := by unfold sortByRank; frame

theorem installPop_frame (l : List Nat) : Keeps R (installPop l : M σ Unit) := hR.modGa _ fun _ => ⟨rfl, rfl, rfl, rfl, rfl, rfl, rfl, rfl, rfl, rfl⟩
theorem ensureSorted_frame [LinearOrder σ] : Keeps R (ensureSorted : M σ Unit) := by
  unfold ensureSorted
  exact hR.toCalm.bind hR.toCalm.getGa fun ga => Keeps.ite (hR.toCalm.pure _) (sortByScore_frame hR)
theorem newGenExec_frame [LinearOrder σ] (tr : Transfer) : Keeps R (newGenExec tr : M σ Unit) := by
  unfold newGenExec
  refine hR.toCalm.bind (ensureSorted_frame hR) fun _ => hR.toCalm.bind hR.toCalm.getGa fun ga => Keeps.ite
    (hR.toCalm.bind (chooseElites_frame hR.toCalm _ _) fun l => installPop_frame hR l) ?_
  split
  · exact installPop_frame hR _
  · exact hR.toCalm.throwE _
theorem ensureRankSorted_frame : Keeps R (ensureRankSorted : M σ Unit) := by
  unfold ensureRankSorted
  exact hR.toCalm.bind hR.toCalm.getGa fun ga => Keeps.ite (hR.toCalm.pure _) (sortByRank_frame hR)

end

section
variable {R : St σ → St σ → Prop} (hR : Still R)
include hR

/-! what writes to individuals -/

theorem resetIdxFrom_frame : ∀ (l : List Nat) (i : Nat), Keeps R (resetIdxFrom i l : M σ Unit) := by
  intro l
  induction l with
  | nil => intro i; rw [resetIdxFrom]; frame
  | cons x xs ih => intro i; rw [resetIdxFrom]; frame; exact ih _
theorem resetIdx_frame : Keeps R (resetIdx : M σ Unit) := by
  unfold resetIdx
  refine hR.bind hR.getGa fun ga => resetIdxFrom_frame hR _ _
theorem getPhenotype_frame : Keeps R (getPhenotype : M σ Unit) := by unfold getPhenotype; frame
theorem ensurePhenotype_frame : Keeps R (ensurePhenotype : M σ Unit) := by
  unfold ensurePhenotype
  have := getPhenotype_frame hR
  frame
theorem swapPop_frame : Keeps R (swapPop : M σ Unit) := by unfold swapPop; frame
theorem fill_frame (input : Option (List (List Val))) : Keeps R (fill input : M σ Unit) := by
  unfold fill
  refine hR.bind (prepare_frame hR.moving) fun _ => hR.bind hR.getGa fun ga => ?_
  refine hR.bind (hR.forEach fun x => hR.bind (hR.liftE _) fun g => addDict_frame hR.moving g) fun _ => ?_
  refine hR.bind (hR.forEach fun x => hR.bind (generate_frame hR.calm _) fun g => addDict_frame hR.moving g) fun _ => ?_
  have h1 := getPhenotype_frame hR
  have h2 := resetIdx_frame hR
  simp only
  split
  · exact hR.bind h1 fun _ => h2
  · exact h2
theorem baseSelection_frame : Keeps R (baseSelection : M σ Unit) := by
  unfold baseSelection newPopulation
  have := resetIdx_frame hR
  frame
theorem tournamentExec_frame [LinearOrder σ] (size : Int) : Keeps R (tournamentExec size : M σ Unit) := by
  unfold tournamentExec
  exact hR.bind (checkTournament_frame hR.calm size) fun _ => hR.bind (baseSelection_frame hR) fun _ => tournament_frame hR.calm _ _ _

theorem balancedWith_frame {pre : M σ Unit} (hpre : Keeps R pre) (w : Ind σ → Except PyErr ℚ) (m : Nat) :
    Keeps R (balancedWith pre w m : M σ Unit) := by
  unfold balancedWith
  exact hR.bind (baseSelection_frame hR) fun _ => hR.bind hpre fun _ => hR.bind (weights_frame hR.calm w) fun ws =>
    hR.bind hR.getGa fun _ => hR.bind (hR.liftE _) fun sel => roulette_frame hR.calm sel m
theorem writeTies_frame (setRank : ℚ → Ind σ → Ind σ) (a b : Int) (c : Nat) : Keeps R (writeTies setRank a b c : M σ Unit) := by
  unfold writeTies
  exact hR.bind hR.getGa fun _ => hR.forEach fun i => hR.bind (popAt_frame hR.calm i) fun r => hR.modInd r _
theorem rankedStep_frame (setRank : ℚ → Ind σ → Ind σ) (n idx : Nat) (sc prev : ℚ) (c : Nat) :
    Keeps R (rankedStep setRank n idx sc prev c : M σ Nat) := by
  unfold rankedStep
  exact Keeps.ite (Keeps.ite (hR.bind (writeTies_frame hR _ _ _ _) fun _ => hR.pure _) (hR.pure _))
    (Keeps.ite (hR.bind (writeTies_frame hR _ _ _ _) fun _ => hR.pure _) (hR.pure _))
theorem rankedLoop_frame (key : Ind σ → Except PyErr ℚ) (setRank : ℚ → Ind σ → Ind σ) (n : Nat) :
    ∀ (k idx : Nat) (prev : ℚ) (c : Nat), Keeps R (rankedLoop key setRank n k idx prev c : M σ Unit) := by
  intro k
  induction k with
  | zero => intro idx prev c; rw [rankedLoop]; frame
  | succ k ih =>
    intro idx prev c
    rw [rankedLoop]
    exact hR.bind (popAt_frame hR.calm _) fun r => hR.bind (hR.modInd r _) fun _ => hR.bind (hR.getInd r) fun ind =>
      hR.bind (hR.liftE _) fun sc => hR.bind (rankedStep_frame hR _ _ _ _ _ _) fun c' => ih _ _ _
theorem assignRanked_frame (key : Ind σ → Except PyErr ℚ) (setRank : ℚ → Ind σ → Ind σ) :
    Keeps R (assignRanked key setRank : M σ Unit) := by
  unfold assignRanked
  exact hR.bind hR.getGa fun ga => rankedLoop_frame hR key setRank _ _ _ _ _

theorem mutateChild_frame (op : MutOp) (r : Nat) : Keeps R (mutateChild op r : M σ Unit) := by
  unfold mutateChild
  refine hR.bind hR.getS fun s => ?_
  split
  · exact hR.bind (hR.genoOf r) fun g => hR.bind (mutateBits_frame hR.calm _ _) fun g' => hR.modInd r _
  · refine hR.bind (hR.genoOf r) fun g => ?_
    split
    · exact hR.bind (mutateCat_frame hR.calm _ _ _) fun g' => hR.modInd r _
    · exact hR.throwE _
  · exact hR.bind (determinesMutation_frame hR.calm _) fun m => Keeps.ite
      (hR.bind (hR.genoOf r) fun g => hR.bind (mutateComb_frame hR.calm _ _) fun g' => hR.modInd r _) (hR.pure _)
theorem mutExec_frame (op : MutOp) : Keeps R (mutExec op : M σ Unit) := by
  unfold mutExec
  refine hR.bind hR.getS fun s => ?_
  split
  · split
    · exact hR.bind (hR.liftE _) fun l => hR.bind (hR.setMutLvl l) fun _ => hR.forEach fun r => mutateChild_frame hR _ r
    · exact hR.throwE _
  · exact hR.forEach fun r => mutateChild_frame hR _ r
theorem multiNewGenExec_frame (tr : Transfer) : Keeps R (multiNewGenExec tr : M σ Unit) := by
  unfold multiNewGenExec
  exact hR.bind (ensurePhenotype_frame hR) fun _ => hR.bind (chooseFront_frame hR.calm tr) fun l => installPop_frame hR.moving l

end

section
variable {R : St σ → St σ → Prop} (hR : Quiet R)
include hR

/-! update -/

theorem recordScores_frame : Keeps R (recordScores : M σ Unit) := by
  unfold recordScores
  refine hR.bind hR.getGa fun ga => ?_
  frame
theorem replaceBest_frame (r : Nat) : Keeps R (replaceBest r : M σ Unit) := by unfold replaceBest; frame
theorem decideBest_frame [LinearOrder σ] (r : Nat) : Keeps R (decideBest r : M σ Unit) := by
  unfold decideBest
  refine hR.bind hR.getGa fun ga => ?_
  have := replaceBest_frame hR r
  frame
theorem gaUpdate_frame [LinearOrder σ] : Keeps R (gaUpdate : M σ Unit) := by
  unfold gaUpdate
  refine hR.bind (ensureSorted_frame hR.still.moving) fun _ => hR.bind (recordScores_frame hR) fun _ => hR.bind hR.getGa fun ga => ?_
  split
  · exact hR.throwE _
  · exact hR.bind (decideBest_frame hR _) fun _ => hR.bind (hR.modGa _ fun _ => ⟨rfl, rfl, rfl⟩) fun _ => hR.snapshot
theorem initFront_frame : Keeps R (initFront : M σ Unit) := by unfold initFront; frame
theorem decideFront_frame [DecidableEq σ] (l : List Nat) : Keeps R (decideFront l : M σ Unit) := by
  unfold decideFront
  have := copyAll_frame hR.still.calm l
  frame
theorem multiUpdate_frame [DecidableEq σ] : Keeps R (multiUpdate : M σ Unit) := by
  unfold multiUpdate
  exact hR.bind (ensureRankSorted_frame hR.still.moving) fun _ => hR.bind hR.getGa fun ga => hR.bind (hR.frontPrefix _) fun l =>
    hR.bind (hR.modGa _ fun _ => ⟨rfl, rfl, rfl⟩) fun _ => hR.bind (initFront_frame hR) fun _ =>
    hR.bind (decideFront_frame hR l) fun _ => hR.bind (hR.modGa _ fun _ => ⟨rfl, rfl, rfl⟩) fun _ => hR.snapshot

end

section
variable {R : St σ → St σ → Prop} (hF : Steady R)
include hF

/-! fitness -/

theorem callObj_frame (f : List Val → Except PyErr Ret) (g : List Val) : Keeps R (callObj f g : M σ Ret) := by
  have hR := hF.toStill
  unfold callObj
  exact hR.bind (hF.addCall _) fun _ => hR.liftE _
theorem calcObj_frame (fit : Fit σ) (g : List Val) : Keeps R (calcObj fit g : M σ (Option Ret)) := by
  have hR := hF.toStill
  unfold calcObj
  exact hR.bind (callObj_frame hF _ _) fun _ => hR.liftE _
theorem markFeas_frame (r : Nat) (c : Cond) (v : ℚ) : Keeps R (markFeas r c v : M σ Unit) := by have hR := hF.toStill; unfold markFeas; frame
theorem feasLoop_frame (r : Nat) : ∀ (cs : List Cond) (vs : List ℚ), Keeps R (feasLoop r cs vs : M σ Unit) := by
  have hR := hF.toStill
  intro cs
  induction cs with
  | nil => intro vs; cases vs <;> rw [feasLoop] <;> frame
  | cons c cs ih =>
    intro vs
    cases vs with
    | nil => rw [feasLoop]; frame
    | cons v vs => rw [feasLoop]; exact hR.bind (markFeas_frame hF r c v) fun _ => ih vs
theorem evalCond_frame (fit : Fit σ) (r : Nat) (vs : List ℚ) : Keeps R (evalCond fit r vs : M σ ℚ) := by
  have hR := hF.toStill
  unfold evalCond
  refine hR.bind (hR.liftE _) fun pr => hR.bind (hR.modInd r _) fun _ => hR.bind (feasLoop_frame hF r _ _) fun _ => ?_
  frame
theorem evalValues_frame (fit : Fit σ) (r : Nat) (v : Option Ret) : Keeps R (evalValues fit r v : M σ ℚ) := by
  have hR := hF.toStill
  unfold evalValues
  refine Keeps.ite ?_ (hR.bind (hR.modInd r _) fun _ => hR.pure _)
  split
  · exact evalCond_frame hF fit r _
  · exact hR.throwE _
theorem evalInd_frame (fit : Fit σ) (r : Nat) : Keeps R (evalInd fit r : M σ Unit) := by
  have hR := hF.toStill
  unfold evalInd
  refine hR.bind (hR.getInd r) fun ind => ?_
  split
  · exact hR.pure _
  · exact hR.bind (hR.genoOf r) fun g => hR.bind (calcObj_frame hF fit g) fun v => hR.bind (evalValues_frame hF fit r v) fun p =>
      hR.bind (hR.getInd r) fun ind => hR.bind (hR.liftE _) fun sc => hR.modInd r _
theorem baseFitnessExec_frame (fit : Fit σ) : Keeps R (baseFitnessExec fit : M σ Unit) := by
  have hR := hF.toStill
  unfold baseFitnessExec
  exact hR.bind hR.getGa fun ga => Keeps.ite (hR.bind (getPhenotype_frame hR) fun _ => hR.bind (swapPop_frame hR) fun _ =>
    hR.bind (hR.forEach fun r => evalInd_frame hF fit r) fun _ => swapPop_frame hR) (hR.forEach fun r => evalInd_frame hF fit r)
theorem objVector_frame (t : Task σ) (r : Nat) : Keeps R (objVector t r : M σ (List ℚ)) := by
  have hR := hF.toStill
  unfold objVector
  refine hR.bind (hR.getInd r) fun ind => ?_
  split
  · exact hR.throwE _
  · refine hR.bind (callObj_frame hF _ _) fun v => ?_
    frame
theorem rankPair_frame (t : Task σ) (x y : Nat) : Keeps R (rankPair t x y : M σ Unit) := by
  have hR := hF.toStill
  unfold rankPair
  refine hR.bind (objVector_frame hF t x) fun xs => hR.bind (objVector_frame hF t y) fun ys => hR.bind (hR.liftE _) fun i => ?_
  frame
theorem rankLoop_frame (t : Task σ) : ∀ l : List Nat, Keeps R (rankLoop t l : M σ Unit) := by
  have hR := hF.toStill
  intro l
  induction l with
  | nil => rw [rankLoop]; frame
  | cons x xs ih => rw [rankLoop]; exact hR.bind (hR.forEach fun y => rankPair_frame hF t x y) fun _ => ih
theorem assignRanks_frame (t : Task σ) : Keeps R (assignRanks t : M σ Unit) := by
  have hR := hF.toStill
  unfold assignRanks
  exact hR.bind hR.getGa fun ga => hR.bind (hR.forEach fun r => hR.modInd r _) fun _ => rankLoop_frame hF t _
theorem multiFitnessExec_frame (fit : Fit σ) : Keeps R (multiFitnessExec fit : M σ Unit) := by
  have hR := hF.toStill
  unfold multiFitnessExec
  exact hR.bind (ensurePhenotype_frame hR) fun _ => hR.bind (assignRanks_frame hF _) fun _ => baseFitnessExec_frame hF fit

end

section
variable {R : St ℚ → St ℚ → Prop} (hR : Still R)
include hR

theorem balancedExec_frame : Keeps R balancedExec := balancedWith_frame hR (hR.pure _) _ _
theorem rankedExec_frame : Keeps R rankedExec := balancedWith_frame hR (assignRanked_frame hR _ _) _ _
theorem selExec_frame (sel : SelOp) : Keeps R (selExec sel) := by
  cases sel
  · exact tournamentExec_frame hR _
  · exact balancedExec_frame hR
  · exact rankedExec_frame hR
end

section
variable {R : St (List ℚ) → St (List ℚ) → Prop} (hR : Still R)
include hR

theorem vegaTournamentExec_frame (m : Nat) (size : Int) : Keeps R (vegaTournamentExec m size) := by
  unfold vegaTournamentExec
  exact hR.bind (checkTournament_frame hR.calm size) fun _ => hR.bind (baseSelection_frame hR) fun _ =>
    hR.forEach fun i => tournament_frame hR.calm _ _ _
theorem vegaBalancedExec_frame (m : Nat) : Keeps R (vegaBalancedExec m) := by
  unfold vegaBalancedExec
  exact hR.forEach fun i => balancedWith_frame hR (hR.pure _) _ _
theorem vegaRankedExec_frame (m : Nat) : Keeps R (vegaRankedExec m) := by
  unfold vegaRankedExec
  exact hR.bind hR.getGa fun ga => hR.bind (hR.forEach fun r => hR.modInd r _) fun _ =>
    hR.forEach fun i => balancedWith_frame hR (assignRanked_frame hR _ _) _ _
end

/-! whole runs -/

/-- All components keep `R`. -/
structure OpsKeep (R : St σ → St σ → Prop) (ops : Ops σ) : Prop where
  fitness : Keeps R ops.fitness
  update : Keeps R ops.update
  selection : Keeps R ops.selection
  crossover : Keeps R ops.crossover
  mutation : Keeps R ops.mutation
  newGen : Keeps R ops.newGen

section
variable {R : St σ → St σ → Prop} (hF : Frame R)
include hF

theorem generation_frame {ops : Ops σ} (h : OpsKeep R ops) : Keeps R (generation ops) := by
  have hR := hF.toQuiet
  unfold generation
  exact hR.bind h.selection fun _ => hR.bind h.crossover fun _ => hR.bind h.mutation fun _ => hR.bind h.newGen fun _ =>
    hR.bind h.fitness fun _ => h.update
theorem mainLoop_frame {ops : Ops σ} (h : OpsKeep R ops) : ∀ n, Keeps R (mainLoop ops n) := by
  have hR := hF.toQuiet
  intro n
  induction n with
  | zero => rw [mainLoop]; frame
  | succ n ih =>
    rw [mainLoop]
    refine hR.bind (generation_frame hF h) fun _ => hR.bind hR.getGa fun ga => ?_
    frame
theorem evolve_frame {ops : Ops σ} (h : OpsKeep R ops) : Keeps R (evolve ops) := by
  have hR := hF.toQuiet
  unfold evolve
  exact hR.bind h.fitness fun _ => hR.bind h.update fun _ => hR.bind hR.getGa fun ga => mainLoop_frame hF h _
theorem printBest_frame : Keeps R (printBest : M σ Unit) := by
  have hR := hF.toQuiet
  unfold printBest
  refine hR.bind hR.getS fun s => ?_
  frame
end

theorem singleOps_frame {R : St ℚ → St ℚ → Prop} (hR : Frame R) (fit : Fit ℚ) (sel : SelOp) (op : CrossOp) (mop : MutOp)
    (tr : Transfer) : OpsKeep R (singleOps fit sel op mop tr) :=
  ⟨baseFitnessExec_frame hR.steady fit, gaUpdate_frame hR.toQuiet, selExec_frame hR.toQuiet.still sel, crossExec_frame hR.toQuiet.still.calm op, mutExec_frame hR.toQuiet.still mop,
    newGenExec_frame hR.toQuiet.still.moving tr⟩

theorem vegaOps_frame {R : St (List ℚ) → St (List ℚ) → Prop} (hR : Frame R) (fit : Fit (List ℚ)) (m : Nat) (sel : VegaSelOp)
    (op : CrossOp) (mop : MutOp) (tr : Transfer) : OpsKeep R (vegaOps fit m sel op mop tr) := by
  refine ⟨multiFitnessExec_frame hR.steady fit, multiUpdate_frame hR.toQuiet, ?_, crossExec_frame hR.toQuiet.still.calm op, mutExec_frame hR.toQuiet.still mop,
    newGenExec_frame hR.toQuiet.still.moving tr⟩
  cases sel with
  | tournament size => exact vegaTournamentExec_frame hR.toQuiet.still m size
  | balanced => exact vegaBalancedExec_frame hR.toQuiet.still m
  | ranked => exact vegaRankedExec_frame hR.toQuiet.still m

theorem ffgaOps_frame {R : St ℚ → St ℚ → Prop} (hR : Frame R) (fit : Fit ℚ) (sel : SelOp) (op : CrossOp) (mop : MutOp)
    (tr : Transfer) : OpsKeep R (ffgaOps fit sel op mop tr) :=
  ⟨multiFitnessExec_frame hR.steady fit, multiUpdate_frame hR.toQuiet, selExec_frame hR.toQuiet.still sel, crossExec_frame hR.toQuiet.still.calm op, mutExec_frame hR.toQuiet.still mop,
    multiNewGenExec_frame hR.toQuiet.still tr⟩

end BaumEva
