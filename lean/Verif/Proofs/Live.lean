import Verif.Proofs.Monad
import Verif.Model.Run
/-!
# No dangling references

In Python every reference points to an existing object.  In the model references are numbers below `next`; this
file shows that every function of the model keeps it so (`Tidy`), also when it raises: all references held by the
storage object are below `next`, and no cell at or above `next` was ever written.
-/
namespace BaumEva

/-- All references of a list exist. -/
def RefsIn (l : List Nat) (n : Nat) : Prop := ∀ r ∈ l, r < n

/-- The references of `best_solution` exist. -/
def BestIn : Option Best → Nat → Prop
  | none, _ => True
  | some (.single r _), n => r < n
  | some (.pareto f _), n => RefsIn f n

/-- All references held by the storage object exist. -/
structure GaData.Below {σ : Type} (g : GaData σ) (n : Nat) : Prop where
  population : RefsIn g.population n
  parents : RefsIn g.parents n
  children : RefsIn g.children n
  fronts : ∀ f ∈ g.histFronts, RefsIn f n
  best : BestIn g.best n

/-- Cells that were not allocated are empty. -/
def Clean {σ : Type} (s : St σ) : Prop := ∀ r, s.next ≤ r → s.heap r = {}

/-- No dangling reference. -/
structure Tidy {σ : Type} (s : St σ) : Prop where
  clean : Clean s
  ga : s.ga.Below s.next

theorem RefsIn.mono {l : List Nat} {n k : Nat} (h : RefsIn l n) (hk : n ≤ k) : RefsIn l k :=
  fun r hr => lt_of_lt_of_le (h r hr) hk

theorem BestIn.mono {b : Option Best} {n k : Nat} (h : BestIn b n) (hk : n ≤ k) : BestIn b k := by
  rcases b with _ | ⟨r, g⟩ | ⟨f, g⟩
  · trivial
  · exact lt_of_lt_of_le h hk
  · exact RefsIn.mono h hk

theorem GaData.Below.mono {σ : Type} {g : GaData σ} {n k : Nat} (h : g.Below n) (hk : n ≤ k) : g.Below k :=
  ⟨h.1.mono hk, h.2.mono hk, h.3.mono hk, fun f hf => (h.4 f hf).mono hk, h.5.mono hk⟩

theorem RefsIn.append {l l' : List Nat} {n : Nat} (h : RefsIn l n) (h' : RefsIn l' n) : RefsIn (l ++ l') n := by
  intro r hr
  rcases List.mem_append.mp hr with hr | hr
  · exact h r hr
  · exact h' r hr

theorem RefsIn.sub {l l' : List Nat} {n : Nat} (h : RefsIn l n) (hs : ∀ r ∈ l', r ∈ l) : RefsIn l' n :=
  fun r hr => h r (hs r hr)

section
variable {σ α β γ : Type}

/-- From tidy states with at least `n` objects, `m` ends in a tidy state, and its result satisfies `P`. -/
def Live (n : Nat) (P : α → Nat → Prop) (m : M σ α) : Prop :=
  ∀ s, Tidy s → n ≤ s.next →
    Tidy (m s).2 ∧ s.next ≤ (m s).2.next ∧ ∀ a, (m s).1 = .ok a → P a (m s).2.next

/-- No claim about the result. -/
abbrev Any (_ : α) (_ : Nat) : Prop := True

namespace Live
variable {n : Nat} {P : α → Nat → Prop} {Q : β → Nat → Prop}

theorem pure {a : α} (h : ∀ k, n ≤ k → P a k) : Live n P (Pure.pure a : M σ α) := by
  intro s hs hn
  refine ⟨hs, le_refl _, fun b hb => ?_⟩
  have hb : Except.ok (ε := PyErr) a = .ok b := hb
  injection hb with hb
  subst hb
  exact h s.next hn

theorem any {a : α} : Live n Any (Pure.pure a : M σ α) := pure fun _ _ => trivial

theorem throwE {e : PyErr} : Live n P (BaumEva.throwE e : M σ α) :=
  fun _ hs _ => ⟨hs, le_refl _, fun _ hb => by cases hb⟩

theorem liftE {x : Except PyErr α} : Live n Any (BaumEva.liftE x : M σ α) := by
  intro s hs _
  cases x <;> exact ⟨hs, le_refl _, fun _ _ => trivial⟩

theorem mono {k : Nat} {m : M σ α} (h : Live n P m) (hk : n ≤ k) : Live k P m :=
  fun s hs hn => h s hs (hk.trans hn)

theorem bind {m : M σ α} {f : α → M σ β} (hm : Live n P m)
    (hf : ∀ a k, n ≤ k → P a k → Live k Q (f a)) : Live n Q (m >>= f) := by
  intro s hs hn
  obtain ⟨h1, h2, h3⟩ := hm s hs hn
  rw [bind_run]
  rcases hms : m s with ⟨r, s1⟩
  rw [hms] at h1 h2 h3
  cases r with
  | error e => exact ⟨h1, h2, fun b hb => by cases hb⟩
  | ok a =>
    obtain ⟨g1, g2, g3⟩ := hf a s1.next (hn.trans h2) (h3 a rfl) s1 h1 (le_refl _)
    exact ⟨g1, h2.trans g2, g3⟩

/-- Sequencing without references. -/
theorem seq {m : M σ α} {f : α → M σ β} (hm : Live n Any m) (hf : ∀ a, Live n Q (f a)) : Live n Q (m >>= f) :=
  bind hm fun a _ hk _ => (hf a).mono hk

theorem ite {p : Prop} [Decidable p] {m m' : M σ α} (h : p → Live n P m) (h' : ¬p → Live n P m') :
    Live n P (if p then m else m') := by
  split
  · exact h ‹_›
  · exact h' ‹_›

theorem weaken {m : M σ α} (h : Live n P m) : Live n Any m :=
  fun s hs hn => ⟨(h s hs hn).1, (h s hs hn).2.1, fun _ _ => trivial⟩

theorem getS : Live n (fun t k => t.ga.Below k) (BaumEva.getS : M σ (St σ)) := by
  intro s hs _
  refine ⟨hs, le_refl _, fun a ha => ?_⟩
  have ha : Except.ok (ε := PyErr) s = .ok a := ha
  injection ha with ha
  subst ha
  exact hs.ga

theorem getGa : Live n GaData.Below (BaumEva.getGa : M σ (GaData σ)) := by
  intro s hs _
  refine ⟨hs, le_refl _, fun a ha => ?_⟩
  have ha : Except.ok (ε := PyErr) s.ga = .ok a := ha
  injection ha with ha
  subst ha
  exact hs.ga

theorem modGa {f : GaData σ → GaData σ} (h : ∀ g k, n ≤ k → g.Below k → (f g).Below k) :
    Live n Any (BaumEva.modGa f) :=
  fun _ hs hn => ⟨⟨hs.clean, h _ _ hn hs.ga⟩, le_refl _, fun _ _ => trivial⟩

theorem modifyS {f : St σ → St σ} (h : ∀ s, (f s).heap = s.heap ∧ (f s).next = s.next ∧ (f s).ga = s.ga) :
    Live n Any (BaumEva.modifyS f) := by
  intro s hs _
  have ⟨h1, h2, h3⟩ := h s
  refine ⟨⟨?_, ?_⟩, ?_, fun _ _ => trivial⟩
  · intro r hr
    simp only [BaumEva.modifyS] at hr ⊢
    rw [h1]; rw [h2] at hr
    exact hs.clean r hr
  · simp only [BaumEva.modifyS]
    rw [h3, h2]; exact hs.ga
  · simp only [BaumEva.modifyS]
    rw [h2]

theorem getInd {r : Nat} : Live n Any (BaumEva.getInd r : M σ (Ind σ)) :=
  fun _ hs _ => ⟨hs, le_refl _, fun _ _ => trivial⟩

theorem modInd {r : Nat} {f : Ind σ → Ind σ} (hr : r < n) : Live n Any (BaumEva.modInd r f) := by
  intro s hs hn
  refine ⟨⟨?_, hs.ga⟩, le_refl _, fun _ _ => trivial⟩
  intro x hx
  have hx : s.next ≤ x := hx
  simp only [BaumEva.modInd, upd]
  rw [if_neg (by omega)]
  exact hs.clean x hx

theorem alloc {x : Ind σ} : Live n (fun r k => r < k) (BaumEva.alloc x) := by
  intro s hs _
  refine ⟨⟨?_, hs.ga.mono (Nat.le_succ _)⟩, Nat.le_succ _, fun a ha => ?_⟩
  · intro y hy
    have hy : s.next + 1 ≤ y := hy
    simp only [BaumEva.alloc, upd]
    rw [if_neg (by omega)]
    exact hs.clean y (by omega)
  · have ha : Except.ok (ε := PyErr) s.next = .ok a := ha
    injection ha with ha
    subst ha
    exact Nat.lt_succ_self _

theorem genoOf {r : Nat} : Live n Any (BaumEva.genoOf r : M σ (List Val)) := by
  intro s hs _
  simp only [BaumEva.genoOf]
  split <;> exact ⟨hs, le_refl _, fun _ _ => trivial⟩

theorem scoreOf {r : Nat} : Live n Any (BaumEva.scoreOf r : M σ σ) := by
  intro s hs _
  simp only [BaumEva.scoreOf]
  split <;> exact ⟨hs, le_refl _, fun _ _ => trivial⟩

theorem rankOf {r : Nat} : Live n Any (BaumEva.rankOf r : M σ ℚ) := by
  intro s hs _
  simp only [BaumEva.rankOf]
  split <;> exact ⟨hs, le_refl _, fun _ _ => trivial⟩

theorem draw : Live n Any (BaumEva.draw : M σ Nat) := by
  intro s hs _
  simp only [BaumEva.draw]
  split
  · exact ⟨hs, le_refl _, fun _ _ => trivial⟩
  · exact ⟨⟨hs.clean, hs.ga⟩, le_refl _, fun _ _ => trivial⟩

theorem reseed : Live n Any (BaumEva.reseed : M σ Unit) := by
  intro s hs _
  simp only [BaumEva.reseed]
  split
  · exact ⟨hs, le_refl _, fun _ _ => trivial⟩
  · exact ⟨⟨hs.clean, hs.ga⟩, le_refl _, fun _ _ => trivial⟩

theorem forEach {f : α → M σ Unit} : ∀ {l : List α}, (∀ a ∈ l, Live n Any (f a)) → Live n Any (BaumEva.forEach l f)
  | [], _ => any
  | x :: xs, h => seq (h x (by simp)) fun _ => forEach fun a ha => h a (by simp [ha])

theorem mapEach {f : α → M σ β} (hmono : ∀ b k k', k ≤ k' → Q b k → Q b k') :
    ∀ {l : List α} {n : Nat}, (∀ a ∈ l, Live n Q (f a)) → Live n (fun l k => ∀ b ∈ l, Q b k) (BaumEva.mapEach l f)
  | [], _, _ => pure fun _ _ _ hb => by simp at hb
  | x :: xs, n, h =>
    bind (h x (by simp)) fun y k hk hy =>
      bind ((mapEach hmono (n := n) fun a ha => h a (by simp [ha])).mono hk) fun ys k' hk' hys => pure fun k'' hk'' b hb => by
        rcases List.mem_cons.mp hb with rfl | hb
        · exact hmono _ _ _ (hk'.trans hk'') hy
        · exact hmono _ _ _ hk'' (hys b hb)

theorem mapEach_any {f : α → M σ β} {l : List α} (h : ∀ a ∈ l, Live n Any (f a)) : Live n Any (BaumEva.mapEach l f) :=
  (mapEach (Q := Any) (fun _ _ _ _ _ => trivial) h).weaken

theorem randint {a b : Int} : Live n Any (BaumEva.randint a b : M σ Int) :=
  ite (fun _ => throwE) fun _ => seq draw fun _ => any

theorem random01 : Live n Any (BaumEva.random01 : M σ ℚ) := seq draw fun _ => any

theorem randrange {a b c : Int} : Live n Any (BaumEva.randrange a b c : M σ Int) :=
  ite (fun _ => throwE) fun _ => ite (fun _ => throwE) fun _ => seq draw fun _ => any

theorem choice {l : List α} : Live n Any (BaumEva.choice l : M σ α) := by
  unfold BaumEva.choice
  refine ite (fun _ => throwE) fun _ => seq draw fun x => ?_
  cases l[x % l.length]? with
  | none => exact throwE
  | some v => exact any

/-- What is sampled comes from the list. -/
theorem sampleAux : ∀ (k : Nat) (l : List α),
    Live n (fun r _ => ∀ x ∈ r, x ∈ l) (BaumEva.sampleAux k l : M σ (List α))
  | 0, _ => pure fun _ _ _ hb => by simp at hb
  | k + 1, l => by
    unfold BaumEva.sampleAux
    refine seq draw fun x => ?_
    cases hx : l[x % l.length]? with
    | none => exact throwE
    | some y =>
      refine bind (sampleAux k _) fun r k _ hr => pure fun _ _ z hz => ?_
      rcases List.mem_cons.mp hz with rfl | hz
      · exact List.mem_of_getElem? hx
      · exact List.mem_of_mem_eraseIdx (hr z hz)

theorem sample {l : List α} {k : Int} :
    Live n (fun r _ => ∀ x ∈ r, x ∈ l) (BaumEva.sample l k : M σ (List α)) :=
  ite (fun _ => throwE) fun _ => sampleAux _ _

theorem newPopulation : Live n Any (BaumEva.newPopulation : M σ Unit) := reseed

/-! ## Populations -/

theorem addDict {g : List Val} : Live n Any (BaumEva.addDict g : M σ Unit) :=
  bind alloc fun r k _ hr => modGa fun ga k' hk' h =>
    ⟨h.population.append (by intro x hx; simp at hx; omega), h.2, h.3, h.4, h.5⟩

theorem resetIdxFrom : ∀ {i : Nat} {rs : List Nat}, RefsIn rs n → Live n Any (BaumEva.resetIdxFrom i rs : M σ Unit)
  | _, [], _ => any
  | _, r :: rs, h => seq (modInd (h r (by simp))) fun _ => resetIdxFrom fun x hx => h x (by simp [hx])

theorem resetIdx : Live n Any (BaumEva.resetIdx : M σ Unit) :=
  bind getGa fun _ _ _ h => resetIdxFrom h.population

theorem getPhenotype : Live n Any (BaumEva.getPhenotype : M σ Unit) := by
  refine bind getGa fun ga k _ h => forEach fun r hr => seq getInd fun ind => ?_
  cases ind.phenotype with
  | some _ => exact any
  | none => exact seq genoOf fun _ => seq liftE fun _ => modInd (h.population r hr)

theorem ensurePhenotype : Live n Any (BaumEva.ensurePhenotype : M σ Unit) :=
  bind getGa fun _ _ _ _ => ite (fun _ => getPhenotype) fun _ => any

theorem swapPop : Live n Any (BaumEva.swapPop : M σ Unit) :=
  bind getGa fun _ _ _ h => forEach fun r hr => modInd (h.population r hr)

theorem genCatGene : ∀ g, Live n Any (BaumEva.genCatGene g : M σ Val)
  | .range _ _ _ => seq randrange fun _ => any
  | .values _ => choice
  | .other => throwE

theorem generate {a : Attrs} : Live n Any (BaumEva.generate a : M σ (List Val)) := by
  unfold BaumEva.generate
  cases a.spec with
  | cat gens => exact mapEach_any fun g _ => genCatGene g
  | orderCat a b k => exact seq sample.weaken fun _ => any
  | binary gray gens => exact seq (mapEach_any fun p _ => seq randint fun _ => liftE) fun _ => any

theorem setParams {spec : PopSpec} {k : Nat} {input : Option (List (List Val))} :
    Live n Any (BaumEva.setParams spec k input : M σ Unit) :=
  ite (fun _ => throwE) fun _ => modGa fun _ _ _ h => ⟨fun _ hr => by simp at hr, h.2, h.3, h.4, h.5⟩

theorem prepare : Live n Any (BaumEva.prepare : M σ Unit) := by
  refine bind getGa fun ga _ _ _ => ?_
  cases ga.attrs.spec with
  | binary gray gens => exact seq liftE fun r => modGa fun _ _ _ h => ⟨h.1, h.2, h.3, h.4, h.5⟩
  | cat _ => exact any
  | orderCat _ _ _ => exact any

theorem fill {input : Option (List (List Val))} : Live n Any (BaumEva.fill input : M σ Unit) :=
  seq prepare fun _ => bind getGa fun _ _ _ _ =>
    seq (forEach fun _ _ => seq liftE fun _ => addDict) fun _ =>
    seq (forEach fun _ _ => seq generate fun _ => addDict) fun _ =>
    ite (fun _ => seq getPhenotype fun _ => resetIdx) fun _ => resetIdx

theorem isDuplicate {rs : List Nat} : Live n Any (BaumEva.isDuplicate rs : M σ Bool) :=
  seq (mapEach_any fun _ _ => genoOf) fun _ => any

theorem keyed {κ : Type} {f : Nat → M σ κ} {l : List Nat} (hf : ∀ {r n}, Live n Any (f r)) (hl : RefsIn l n) :
    Live n (fun r k => ∀ b ∈ r, Prod.snd b < k)
      (BaumEva.mapEach l fun r => do
        let v ← f r
        Pure.pure (v, r)) :=
  mapEach (Q := fun (b : κ × Nat) k => b.2 < k) (fun _ _ _ h h' => lt_of_lt_of_le h' h) fun r hr =>
    seq hf fun _ => pure fun _ hk => lt_of_lt_of_le (hl r hr) hk

theorem mem_sortByKey {κ : Type} [LinearOrder κ] {key : α → κ} {l : List α} {x : α} : x ∈ sortByKey key l ↔ x ∈ l := by
  unfold sortByKey
  exact (List.perm_insertionSort _ l).mem_iff

theorem sorted_in {κ : Type} [LinearOrder κ] {l : List (κ × Nat)} {k : Nat} (h : ∀ b ∈ l, b.2 < k) :
    RefsIn ((sortByKey (fun p : κ × Nat => p.1) l).map Prod.snd) k := by
  intro r hr
  obtain ⟨b, hb, rfl⟩ := List.mem_map.mp hr
  exact h b (mem_sortByKey.mp hb)

theorem sortByScore [LinearOrder σ] : Live n Any (BaumEva.sortByScore : M σ Unit) :=
  bind getGa fun _ _ _ h => bind (keyed scoreOf h.population) fun _ _ _ hl => modGa fun _ _ hk h' =>
    ⟨(sorted_in hl).mono hk, h'.2, h'.3, h'.4, h'.5⟩

theorem sortByRank : Live n Any (BaumEva.sortByRank : M σ Unit) :=
  bind getGa fun _ _ _ h => bind (keyed rankOf h.population) fun _ _ _ hl => modGa fun _ _ hk h' =>
    ⟨(sorted_in hl).mono hk, h'.2, h'.3, h'.4, h'.5⟩

/-! ## Fitness -/

theorem newFitness {t : Task σ} : Live n Any (BaumEva.newFitness t) := by
  refine seq getS.weaken fun s => ?_
  cases t.penalty with
  | none => exact any
  | some _ =>
    exact ite (fun _ => any) fun _ => ite (fun _ => any) fun _ =>
      ite (fun _ => seq (modifyS fun _ => ⟨rfl, rfl, rfl⟩) fun _ => any) fun _ => throwE

theorem callObj {f : List Val → Except PyErr Ret} {g : List Val} : Live n Any (BaumEva.callObj f g : M σ Ret) :=
  seq (modifyS fun _ => ⟨rfl, rfl, rfl⟩) fun _ => liftE

theorem calcObj {fit : Fit σ} {g : List Val} : Live n Any (BaumEva.calcObj fit g) := seq callObj fun _ => liftE

theorem feasLoop {r : Nat} (hr : r < n) : ∀ {cs : List Cond} {vs : List ℚ},
    Live n Any (BaumEva.feasLoop r cs vs : M σ Unit)
  | _, [] => by unfold BaumEva.feasLoop; exact any
  | [], _ :: _ => throwE
  | _ :: _, _ :: _ => seq (ite (fun _ => any) fun _ => modInd hr) fun _ => feasLoop hr

theorem evalCond {fit : Fit σ} {r : Nat} (hr : r < n) {vs : List ℚ} : Live n Any (BaumEva.evalCond fit r vs) := by
  refine seq liftE fun pr => seq (modInd hr) fun _ => seq (feasLoop hr) fun _ => seq getS.weaken fun s => ?_
  cases fit.task.penalty with
  | none => exact throwE
  | some p => exact liftE

theorem evalValues {fit : Fit σ} {r : Nat} (hr : r < n) {v : Option Ret} : Live n Any (BaumEva.evalValues fit r v) := by
  refine ite (fun _ => ?_) fun _ => seq (modInd hr) fun _ => any
  rcases v with _ | (_ | vs)
  · exact throwE
  · exact throwE
  · exact evalCond hr

theorem evalInd {fit : Fit σ} {r : Nat} (hr : r < n) : Live n Any (BaumEva.evalInd fit r) := by
  refine seq getInd fun ind => ?_
  cases ind.score with
  | some _ => exact any
  | none =>
    exact seq genoOf fun g => seq calcObj fun v => seq (evalValues hr) fun pen => seq getInd fun ind =>
      seq liftE fun sc => modInd hr

theorem baseFitnessExec {fit : Fit σ} : Live n Any (BaumEva.baseFitnessExec fit) :=
  bind getGa fun _ _ _ h => ite
    (fun _ => seq getPhenotype fun _ => seq swapPop fun _ =>
      seq (forEach fun r hr => evalInd (h.population r hr)) fun _ => swapPop)
    fun _ => forEach fun r hr => evalInd (h.population r hr)

theorem objVector {t : Task σ} {r : Nat} : Live n Any (BaumEva.objVector t r) := by
  refine seq getInd fun ind => ?_
  cases ind.phenotype with
  | none => exact throwE
  | some p =>
    refine seq callObj fun v => ?_
    cases v with
    | tup l => exact any
    | sc _ => exact throwE

theorem rankPair {t : Task σ} {x y : Nat} (hx : x < n) (hy : y < n) : Live n Any (BaumEva.rankPair t x y) := by
  refine seq objVector fun _ => seq objVector fun _ => seq liftE fun i => ?_
  rcases i with _ | (_ | _)
  · exact any
  · exact modInd hy
  · exact modInd hx

theorem rankLoop {t : Task σ} : ∀ {l}, RefsIn l n → Live n Any (BaumEva.rankLoop t l)
  | [], _ => any
  | x :: xs, h => seq (forEach fun y hy => rankPair (h x (by simp)) (h y (by simp [hy]))) fun _ =>
      rankLoop fun y hy => h y (by simp [hy])

theorem assignRanks {t : Task σ} : Live n Any (BaumEva.assignRanks t) :=
  bind getGa fun _ _ _ h => seq (forEach fun r hr => modInd (h.population r hr)) fun _ => rankLoop h.population

theorem multiFitnessExec {fit : Fit σ} : Live n Any (BaumEva.multiFitnessExec fit) :=
  seq ensurePhenotype fun _ => seq assignRanks fun _ => baseFitnessExec

/-! ## Selections -/

theorem baseSelection : Live n Any (BaumEva.baseSelection : M σ Unit) :=
  seq resetIdx fun _ => seq newPopulation fun _ => modGa fun _ _ _ h =>
    ⟨h.1, fun _ hr => by simp at hr, h.3, h.4, h.5⟩

theorem addParent {r : Nat} : Live n Any (BaumEva.addParent r : M σ Unit) :=
  seq getInd fun _ => bind alloc fun _ _ _ hc => modGa fun _ _ _ h =>
    ⟨h.1, h.parents.append (by intro x hx; simp at hx; omega), h.3, h.4, h.5⟩

theorem pyGet?_mem {l : List α} {i : Int} {x : α} (h : pyGet? l i = some x) : x ∈ l := by
  unfold pyGet? at h
  split at h
  · exact List.mem_of_getElem? h
  · split at h
    · exact List.mem_of_getElem? h
    · cases h

theorem popAt {i : Int} : Live n (fun r k => r < k) (BaumEva.popAt i : M σ Nat) := by
  refine bind getGa fun ga k _ h => ?_
  cases hx : pyGet? ga.population i with
  | none => exact throwE
  | some r => exact pure fun k' hk' => lt_of_lt_of_le (h.population r (pyGet?_mem hx)) hk'

section keyed
variable {κ : Type} [LinearOrder κ] {key : Ind σ → Except PyErr κ}

theorem getBestLoop : ∀ {is : List Nat} {b : Nat}, Live n Any (BaumEva.getBestLoop key b is)
  | [], _ => any
  | _ :: _, _ => seq popAt.weaken fun _ => seq getInd fun _ => seq getInd fun _ => seq liftE fun _ =>
      seq liftE fun _ => getBestLoop

theorem getBest : ∀ {is}, Live n Any (BaumEva.getBest key is)
  | [] => throwE
  | _ :: _ => seq popAt.weaken fun _ => getBestLoop

theorem oneTournament {size : Int} : Live n Any (BaumEva.oneTournament key size) :=
  bind getGa fun _ _ _ _ => seq sample.weaken fun _ => getBest

theorem secondParent {size : Int} {first : Nat} : ∀ {f : Nat}, Live n Any (BaumEva.secondParent key size first f)
  | 0 => throwE
  | _ + 1 => seq oneTournament fun _ => seq getInd fun _ => seq getInd fun _ =>
      ite (fun _ => any) fun _ => secondParent

theorem tournament {size : Int} {m : Nat} : Live n Any (BaumEva.tournament key size m) :=
  bind getGa fun _ _ _ _ => forEach fun _ _ => seq oneTournament fun _ => seq getS.weaken fun _ =>
    seq secondParent fun _ => seq addParent fun _ => addParent

end keyed

theorem checkTournament {size : Int} : Live n Any (BaumEva.checkTournament size : M σ Unit) :=
  bind getGa fun _ _ _ _ => ite (fun _ => throwE) fun _ => any

theorem tournamentExec [LinearOrder σ] {size : Int} : Live n Any (BaumEva.tournamentExec size : M σ Unit) :=
  seq checkTournament fun _ => seq baseSelection fun _ => tournament

theorem getIndex {sel : List ℚ} : Live n Any (BaumEva.getIndex sel : M σ Int) :=
  bind getGa fun _ _ _ _ => seq random01 fun _ => any

theorem secondIndex {sel : List ℚ} {first : Int} : ∀ {f : Nat}, Live n Any (BaumEva.secondIndex sel first f : M σ Int)
  | 0 => throwE
  | _ + 1 => seq getIndex fun _ => ite (fun _ => any) fun _ => secondIndex

theorem roulette {sel : List ℚ} {m : Nat} : Live n Any (BaumEva.roulette sel m : M σ Unit) :=
  bind getGa fun _ _ _ _ => forEach fun _ _ => seq getIndex fun _ => seq getS.weaken fun _ => seq secondIndex fun _ =>
    seq popAt.weaken fun _ => seq addParent fun _ => seq popAt.weaken fun _ => addParent

theorem weights {w : Ind σ → Except PyErr ℚ} : Live n Any (BaumEva.weights w) :=
  bind getGa fun _ _ _ _ => mapEach_any fun _ _ => seq getInd fun _ => liftE

theorem balancedWith {pre : M σ Unit} (h : ∀ {n}, Live n Any pre) {w : Ind σ → Except PyErr ℚ} {m : Nat} :
    Live n Any (BaumEva.balancedWith pre w m) :=
  seq baseSelection fun _ => seq h fun _ => seq weights fun _ => bind getGa fun _ _ _ _ => seq liftE fun _ => roulette

theorem writeTies {f : ℚ → Ind σ → Ind σ} {a b : Int} {c : Nat} : Live n Any (BaumEva.writeTies f a b c) :=
  bind getGa fun _ _ _ _ => forEach fun _ _ => bind popAt fun _ _ _ hr => modInd hr

theorem rankedStep {f : ℚ → Ind σ → Ind σ} {l idx : Nat} {sc prev : ℚ} {count : Nat} :
    Live n Any (BaumEva.rankedStep f l idx sc prev count) :=
  ite (fun _ => ite (fun _ => seq writeTies fun _ => any) fun _ => any)
    fun _ => ite (fun _ => seq writeTies fun _ => any) fun _ => any

theorem rankedLoop {key : Ind σ → Except PyErr ℚ} {f : ℚ → Ind σ → Ind σ} {l : Nat} :
    ∀ {k idx prev count}, Live n Any (BaumEva.rankedLoop key f l k idx prev count)
  | 0, _, _, _ => any
  | _ + 1, _, _, _ => bind popAt fun _ _ hk hr => (seq (modInd hr) fun _ => seq getInd fun _ => seq liftE fun _ =>
      seq rankedStep fun _ => rankedLoop.mono hk)

theorem assignRanked {key : Ind σ → Except PyErr ℚ} {f : ℚ → Ind σ → Ind σ} :
    Live n Any (BaumEva.assignRanked key f) := bind getGa fun _ _ _ _ => rankedLoop

theorem selExec : ∀ sel, Live n Any (BaumEva.selExec sel)
  | .tournament _ => tournamentExec
  | .balanced => balancedWith any
  | .ranked => balancedWith assignRanked

theorem vegaTournamentExec {m : Nat} {size : Int} : Live n Any (BaumEva.vegaTournamentExec m size) :=
  seq checkTournament fun _ => seq baseSelection fun _ => forEach fun _ _ => tournament

theorem vegaSelExec {m : Nat} : ∀ sel, Live n Any (BaumEva.vegaSelExec m sel)
  | .tournament _ => vegaTournamentExec
  | .balanced => forEach fun _ _ => balancedWith any
  | .ranked => bind getGa fun _ _ _ h => seq (forEach fun r hr => modInd (h.population r hr)) fun _ =>
      forEach fun _ _ => balancedWith assignRanked

/-! ## Crossovers -/

theorem segmentPoints {lo len : Nat} : Live n Any (BaumEva.segmentPoints lo len : M σ (Nat × Nat)) := by
  refine seq sample.weaken fun l => ?_
  rcases l with _ | ⟨i, _ | ⟨j, _ | ⟨k, l⟩⟩⟩
  · exact throwE
  · exact throwE
  · exact any
  · exact throwE

theorem uniformLoop {p1 p2 : List Val} : ∀ i k, Live n Any (BaumEva.uniformLoop p1 p2 i k : M σ (List Val))
  | _, 0 => by unfold BaumEva.uniformLoop; exact any
  | i, k + 1 => by
    unfold BaumEva.uniformLoop
    refine seq randint fun coin => ?_
    dsimp only
    cases (if coin = 1 then p1 else p2)[i]? with
    | none => exact throwE
    | some v => exact seq (uniformLoop _ k) fun _ => any

theorem crossGeno {op : CrossOp} {len : Nat} {p1 p2 : List Val} :
    Live n Any (BaumEva.crossGeno op len p1 p2 : M σ _) := by
  cases op with
  | onePoint => exact seq randint fun _ => any
  | twoPoint => exact seq segmentPoints fun _ => any
  | uniform => exact seq (uniformLoop _ _) fun _ => any
  | order => exact seq segmentPoints fun _ => any

theorem getChild {op : CrossOp} {len : Nat} {p1 p2 : List Val} :
    Live n (fun r k => r < k) (BaumEva.getChild op len p1 p2 : M σ Nat) :=
  seq crossGeno fun _ => seq randint fun _ => alloc

theorem crossPairs {op : CrossOp} {len : Nat} : ∀ l, Live n Any (BaumEva.crossPairs op len l : M σ Unit)
  | [] => any
  | [_] => throwE
  | _ :: _ :: rest =>
    seq genoOf fun _ => seq genoOf fun _ => bind getChild fun _ _ hk hc =>
      seq (modGa fun _ _ _ h => ⟨h.1, h.2, h.children.append (by intro x hx; simp at hx; omega), h.4, h.5⟩)
        fun _ => (crossPairs rest).mono hk

theorem crossExec {op : CrossOp} : Live n Any (BaumEva.crossExec op : M σ Unit) := by
  refine bind getGa fun ga _ _ _ => ?_
  cases ga.population with
  | nil => exact throwE
  | cons r0 rs =>
    exact seq genoOf fun _ => seq newPopulation fun _ =>
      seq (modGa fun _ _ _ h => ⟨h.1, h.2, fun _ hr => by simp at hr, h.4, h.5⟩) fun _ => crossPairs _

/-! ## Mutations -/

theorem determinesMutation {lvl : MutLvl} : Live n Any (BaumEva.determinesMutation lvl : M σ Bool) := by
  refine seq randint fun d => ?_
  cases lvl with
  | float q => exact any
  | str _ => exact throwE
  | other => exact throwE

theorem mutateComb {op : MutOp} {g : List Val} : Live n Any (BaumEva.mutateComb op g : M σ (List Val)) := by
  cases op with
  | inversion => exact seq segmentPoints fun _ => any
  | movement =>
    refine seq sample.weaken fun l => ?_
    rcases l with _ | ⟨i, _ | ⟨j, _ | ⟨k, l⟩⟩⟩
    · exact throwE
    · exact throwE
    · exact any
    · exact throwE
  | swap =>
    refine seq sample.weaken fun l => ?_
    rcases l with _ | ⟨i, _ | ⟨j, _ | ⟨k, l⟩⟩⟩
    · exact throwE
    · exact throwE
    · exact any
    · exact throwE
  | shift => exact seq randint fun _ => seq randint fun _ => seq choice fun _ => any
  | binString => exact any
  | categorical => exact any

theorem mutateBits {lvl : MutLvl} : ∀ l, Live n Any (BaumEva.mutateBits lvl l : M σ (List Val))
  | [] => any
  | _ :: xs => seq determinesMutation fun _ => seq (mutateBits xs) fun _ => any

theorem mutateCatGene {p : CatGene} {x : Val} : Live n Any (BaumEva.mutateCatGene p x : M σ Val) := by
  cases p with
  | values l => exact ite (fun _ => choice) fun _ => any
  | range lo hi step => exact ite (fun _ => throwE) fun _ => ite (fun _ => choice) fun _ => any
  | other => exact throwE

theorem mutateCatAt {lvl : MutLvl} {pools : List CatGene} {x : Val} :
    Live n Any (BaumEva.mutateCatAt lvl pools x : M σ Val) := by
  refine seq determinesMutation fun m => ite (fun _ => ?_) fun _ => any
  cases pools with
  | nil => exact throwE
  | cons p _ => exact mutateCatGene

theorem mutateCat {lvl : MutLvl} : ∀ l pools, Live n Any (BaumEva.mutateCat lvl pools l : M σ (List Val))
  | [], _ => by unfold BaumEva.mutateCat; exact any
  | x :: xs, pools => by
    unfold BaumEva.mutateCat
    exact seq mutateCatAt fun _ => seq (mutateCat xs _) fun _ => any

theorem mutateChild {op : MutOp} {r : Nat} (hr : r < n) : Live n Any (BaumEva.mutateChild op r : M σ Unit) := by
  refine seq getS.weaken fun s => ?_
  cases op with
  | binString => exact seq genoOf fun _ => seq (mutateBits _) fun _ => modInd hr
  | categorical =>
    refine seq genoOf fun _ => ?_
    cases s.ga.attrs.spec with
    | cat pools => exact seq (mutateCat _ _) fun _ => modInd hr
    | orderCat _ _ _ => exact throwE
    | binary _ _ => exact throwE
  | _ =>
    exact seq determinesMutation fun _ =>
      ite (fun _ => seq genoOf fun _ => seq mutateComb fun _ => modInd hr) fun _ => any

theorem mutExec {op : MutOp} : Live n Any (BaumEva.mutExec op : M σ Unit) := by
  refine bind getS fun s _ _ h => ?_
  cases op with
  | binString =>
    dsimp only
    cases s.ga.attrs.spec with
    | binary _ _ =>
      exact seq liftE fun _ => seq (modifyS fun _ => ⟨rfl, rfl, rfl⟩) fun _ =>
        forEach fun r hr => mutateChild (h.children r hr)
    | cat _ => exact throwE
    | orderCat _ _ _ => exact throwE
  | _ => exact forEach fun r hr => mutateChild (h.children r hr)

theorem newMutation {op : MutOp} {lvl : MutLvl} : Live n Any (BaumEva.newMutation op lvl : M σ Unit) :=
  seq liftE fun _ => modifyS fun _ => ⟨rfl, rfl, rfl⟩

/-! ## Next generation -/

theorem mem_delDupRev [DecidableEq α] {x : α × Nat} : ∀ {l : List (α × Nat)}, x ∈ delDupRev l → x ∈ l
  | [], h => h
  | y :: ys, h => by
    unfold delDupRev at h
    split at h
    · rcases List.mem_cons.mp h with rfl | h
      · simp
      · exact List.mem_cons_of_mem _ (List.mem_of_mem_eraseP h)
    · rcases List.mem_cons.mp h with rfl | h
      · simp
      · exact List.mem_cons_of_mem _ (mem_delDupRev h)

theorem mem_lastN {l : List α} {k : Nat} {x : α} (h : x ∈ lastN l k) : x ∈ l := List.mem_of_mem_drop h

theorem addBest {k : Nat} : Live n RefsIn (BaumEva.addBest k : M σ _) := by
  refine bind getGa fun ga k _ h => ?_
  refine bind isDuplicate fun dup k1 hk1 _ => ite (fun _ => ?_) fun _ => ?_
  · refine bind (keyed genoOf ((h.population.sub fun _ => mem_lastN).mono hk1)) fun kd k2 hk2 hkd => ?_
    refine bind sample fun ex k3 hk3 hex => pure fun k4 hk4 => ?_
    refine RefsIn.append ?_ ?_
    · exact ((h.population.sub hex).mono (by omega))
    · intro r hr
      obtain ⟨b, hb, rfl⟩ := List.mem_map.mp hr
      have := hkd b (by simpa using mem_delDupRev (List.mem_reverse.mp hb))
      omega
  · exact pure fun k2 hk2 => (h.population.sub fun _ => mem_lastN).mono (by omega)

theorem resample {m : Nat} {pool : List Nat} : ∀ {k n : Nat} {e : List Nat}, RefsIn pool n → RefsIn e n →
    Live n RefsIn (BaumEva.resample pool m k e : M σ _)
  | 0, _, _, _, h => pure fun _ hk => h.mono hk
  | _ + 1, _, _, hp, h => seq isDuplicate fun _ =>
      ite (fun _ => bind sample fun _ _ hk hs => (resample (hp.mono hk) ((hp.sub hs).mono hk)))
        fun _ => pure fun _ hk => h.mono hk

theorem addRandom {m : Nat} : Live n RefsIn (BaumEva.addRandom m : M σ _) := by
  refine bind getGa fun ga k _ h => ?_
  have hd : RefsIn ga.population.dropLast k := h.population.sub fun _ => (List.dropLast_sublist _).mem
  refine bind sample fun e k1 hk1 he => ?_
  refine bind (resample (hd.mono hk1) ((hd.sub he).mono hk1)) fun e' k2 hk2 he' => ?_
  cases hl : ga.population.getLast? with
  | none => exact throwE
  | some r =>
    refine pure fun k3 hk3 => (he'.mono hk3).append ?_
    intro x hx
    simp at hx
    subst hx
    have := h.population x (List.mem_of_getLast? hl)
    omega

theorem frontPrefix {rs : List Nat} (h : RefsIn rs n) : Live n RefsIn (BaumEva.frontPrefix rs : M σ _) := by
  intro s hs hn
  refine ⟨hs, le_refl _, fun a ha => ?_⟩
  have ha : Except.ok (ε := PyErr) (rs.takeWhile fun r => (s.heap r).rank = some (.sc 1)) = .ok a := ha
  injection ha with ha
  subst ha
  exact fun r hr => lt_of_lt_of_le (h r ((List.takeWhile_sublist _).mem hr)) hn

theorem installPop {e : List Nat} (h : RefsIn e n) : Live n Any (BaumEva.installPop e : M σ Unit) :=
  modGa fun _ _ hk hg =>
    ⟨hg.children.append (h.mono hk), hg.2, hg.children.append (h.mono hk), hg.4, hg.5⟩

theorem chooseElites {tr : Transfer} {m : Nat} : Live n RefsIn (BaumEva.chooseElites tr m : M σ _) := by
  cases tr
  · exact addBest
  · exact addRandom

theorem ensureSorted [LinearOrder σ] : Live n Any (BaumEva.ensureSorted : M σ Unit) :=
  bind getGa fun _ _ _ _ => ite (fun _ => any) fun _ => sortByScore

theorem newGenExec [LinearOrder σ] {tr : Transfer} : Live n Any (BaumEva.newGenExec tr : M σ Unit) := by
  refine seq ensureSorted fun _ => bind getGa fun ga k _ h => ?_
  refine ite (fun _ => bind chooseElites fun _ _ _ he => installPop he) fun _ => ?_
  cases hl : ga.population.getLast? with
  | none => exact throwE
  | some r =>
    refine installPop fun x hx => ?_
    simp at hx
    subst hx
    exact h.population x (List.mem_of_getLast? hl)

theorem chooseFront {tr : Transfer} : Live n RefsIn (BaumEva.chooseFront tr : M σ _) := by
  refine bind getGa fun ga k _ h => ?_
  cases tr
  · exact frontPrefix h.population
  · exact addRandom

theorem multiNewGenExec {tr : Transfer} : Live n Any (BaumEva.multiNewGenExec tr : M σ Unit) :=
  seq ensurePhenotype fun _ => bind chooseFront fun _ _ _ he => installPop he

/-! ## Bookkeeping -/

theorem snapshot : Live n Any (BaumEva.snapshot : M σ Unit) := modifyS fun _ => ⟨rfl, rfl, rfl⟩

theorem recordScores : Live n Any (BaumEva.recordScores : M σ Unit) := by
  refine bind getGa fun ga _ _ _ => ?_
  cases ga.population.getLast? with
  | none => exact throwE
  | some rb =>
    cases ga.population[ga.population.length / 2]? with
    | none => exact throwE
    | some rm =>
      cases ga.population.head? with
      | none => exact throwE
      | some rw =>
        exact seq scoreOf fun _ => seq scoreOf fun _ => seq scoreOf fun _ =>
          modGa fun _ _ _ h => ⟨h.1, h.2, h.3, h.4, h.5⟩

theorem replaceBest {r : Nat} : Live n Any (BaumEva.replaceBest r : M σ Unit) :=
  seq getInd fun _ => bind alloc fun _ _ _ hc => modGa fun _ _ hk h =>
    ⟨h.1, h.2, h.3, h.4, lt_of_lt_of_le hc hk⟩

theorem decideBest [LinearOrder σ] {r : Nat} : Live n Any (BaumEva.decideBest r : M σ Unit) := by
  refine bind getGa fun ga _ _ _ => ?_
  rcases ga.best with _ | ⟨b, g⟩ | ⟨f, g⟩
  · exact replaceBest
  · exact seq scoreOf fun _ => seq scoreOf fun _ => ite
      (fun _ => seq replaceBest fun _ => modGa fun _ _ _ h => ⟨h.1, h.2, h.3, h.4, h.5⟩)
      fun _ => modGa fun _ _ _ h => ⟨h.1, h.2, h.3, h.4, h.5⟩
  · exact throwE

theorem gaUpdate [LinearOrder σ] : Live n Any (BaumEva.gaUpdate : M σ Unit) := by
  refine seq ensureSorted fun _ => seq recordScores fun _ => bind getGa fun ga _ _ _ => ?_
  cases ga.population.getLast? with
  | none => exact throwE
  | some r =>
    exact seq decideBest fun _ => seq (modGa fun _ _ _ h => ⟨h.1, h.2, h.3, h.4, h.5⟩) fun _ => snapshot

theorem initFront : Live n Any (BaumEva.initFront : M σ Unit) := by
  refine bind getGa fun ga _ _ _ => ?_
  cases ga.best with
  | none => exact modGa fun _ _ _ h => ⟨h.1, h.2, h.3, h.4, fun _ hr => by simp at hr⟩
  | some _ => exact any

theorem copyAll {rs : List Nat} : Live n RefsIn (BaumEva.copyAll rs : M σ _) :=
  mapEach (Q := fun r k => r < k) (fun _ _ _ h h' => lt_of_lt_of_le h' h) fun _ _ => seq getInd fun _ => alloc

theorem decideFront [DecidableEq σ] {front : List Nat} : Live n Any (BaumEva.decideFront front : M σ Unit) := by
  refine seq getS.weaken fun s => ?_
  rcases s.ga.best with _ | ⟨b, g⟩ | ⟨f, g⟩
  · exact throwE
  · exact throwE
  · exact ite (fun _ => modGa fun _ _ _ h => ⟨h.1, h.2, h.3, h.4, h.5⟩)
      fun _ => bind copyAll fun _ _ _ hc => modGa fun _ _ hk h => ⟨h.1, h.2, h.3, h.4, hc.mono hk⟩

theorem ensureRankSorted : Live n Any (BaumEva.ensureRankSorted : M σ Unit) :=
  bind getGa fun _ _ _ _ => ite (fun _ => any) fun _ => sortByRank

theorem multiUpdate [DecidableEq σ] : Live n Any (BaumEva.multiUpdate : M σ Unit) :=
  seq ensureRankSorted fun _ => bind getGa fun _ _ _ h => bind (frontPrefix h.population) fun front _ _ hf =>
    seq (modGa fun _ _ hk h => ⟨h.1, h.2, h.3, by
      intro f hm
      rcases List.mem_append.mp hm with hm | hm
      · exact h.4 f hm
      · simp at hm; subst hm; exact hf.mono hk, h.5⟩) fun _ => seq initFront fun _ => seq decideFront fun _ =>
      seq (modGa fun _ _ _ h => ⟨h.1, h.2, h.3, h.4, h.5⟩) fun _ => snapshot

/-! ## Whole runs -/

/-- All components of `ops`. -/
structure _root_.BaumEva.Ops.Lives (ops : Ops σ) : Prop where
  fitness : ∀ n, Live n Any ops.fitness
  update : ∀ n, Live n Any ops.update
  selection : ∀ n, Live n Any ops.selection
  crossover : ∀ n, Live n Any ops.crossover
  mutation : ∀ n, Live n Any ops.mutation
  newGen : ∀ n, Live n Any ops.newGen

variable {ops : Ops σ}

theorem generation (h : ops.Lives) : Live n Any (BaumEva.generation ops) :=
  seq (h.selection _) fun _ => seq (h.crossover _) fun _ => seq (h.mutation _) fun _ => seq (h.newGen _) fun _ =>
    seq (h.fitness _) fun _ => h.update _

theorem mainLoop (h : ops.Lives) : ∀ k, Live n Any (BaumEva.mainLoop ops k)
  | 0 => any
  | k + 1 => by
    refine seq (generation h) fun _ => seq getGa.weaken fun ga => ?_
    cases ga.earlyStop with
    | none => exact throwE
    | some e => exact ite (fun _ => any) fun _ => mainLoop h k

theorem evolve (h : ops.Lives) : Live n Any (BaumEva.evolve ops) :=
  seq (h.fitness _) fun _ => seq (h.update _) fun _ => seq getGa.weaken fun _ => mainLoop h _

theorem printBest : Live n Any (BaumEva.printBest : M σ Unit) := by
  refine bind getS fun s _ _ _ => ?_
  rcases s.ga.best with _ | ⟨b, g⟩ | ⟨f, _ | g⟩
  · exact throwE
  · exact any
  · exact throwE
  · exact ite (fun _ => any) fun _ => throwE

end Live

/-- Every `optimize` leaves no dangling reference, also when it raises. -/
theorem facade_clean (c : Cfg) (spec : PopSpec) (task : Task σ) {fitExec : Fit σ → M σ Unit} {update selection : M σ Unit}
    (cross : CrossOp) (mutOp : MutOp) {newGen : Transfer → M σ Unit}
    (hf : ∀ fit n, Live n Any (fitExec fit)) (hu : ∀ n, Live n Any update)
    (hs : ∀ n, Live n Any selection) (hn : ∀ tr n, Live n Any (newGen tr)) {s : St σ} (h : Clean s) :
    Tidy (facade c spec task fitExec update selection cross mutOp newGen s).2 := by
  have key : Live s.next Any (do
      newPopulation
      setParams spec c.numIndivid c.input
      let fit ← newFitness task
      newMutation mutOp c.mutationLvl
      let tr ← liftE (checkTransfer c.transfer)
      fill c.input
      evolve { fitness := fitExec fit, update := update, selection := selection, crossover := crossExec cross,
               mutation := mutExec mutOp, newGen := newGen tr }
      if c.isPrint then printBest else pure () : M σ Unit) :=
    Live.seq Live.newPopulation fun _ => Live.seq Live.setParams fun _ => Live.seq Live.newFitness fun fit =>
      Live.seq Live.newMutation fun _ => Live.seq Live.liftE fun tr => Live.seq Live.fill fun _ =>
        Live.seq (Live.evolve ⟨hf _, hu, hs, fun _ => Live.crossExec, fun _ => Live.mutExec, hn _⟩) fun _ =>
          Live.ite (fun _ => Live.printBest) fun _ => Live.any
  exact (key { s with
    ga := { attrs := { arith := c.arith }, numGenerations := c.numGenerations, childrenPercent := c.childrenPercent,
            earlyStop := some c.stop }
    snaps := [] } ⟨h, ⟨by intro r hr; simp at hr, by intro r hr; simp at hr, by intro r hr; simp at hr,
      by intro r hr; simp at hr, trivial⟩⟩ (le_refl _)).1

end
end BaumEva
