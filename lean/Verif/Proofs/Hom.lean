import Verif.Proofs.Monad
import Verif.Model.Population
/-!
# Runs inside a larger state

`Emb` describes how a state sits inside another one: there are `off` older individuals in the heap (with
contents `low`), older objective calls `pre`, and the tape (and the seed) has `more` draws after it.
`Hom E v m m'` says: `m'`, run in the larger state, does what `m` does in the small one, with references moved by
`off`; as long as `m` does not run out of draws, or no draws were added.  The lemmas of this file and of
`Proofs/HomRun.lean` show it for every function of the model.
-/
namespace BaumEva

/-- How a state sits inside a larger one. -/
structure Emb (σ : Type) where
  off : Nat
  low : Nat → Ind σ
  pre : List (List Val)
  more : List Nat

namespace Emb
variable {σ : Type} (E : Emb σ)

/-- A reference, in the larger state. -/
def ref (r : Nat) : Nat := r + E.off

/-- `best_solution`, in the larger state. -/
def best : Best → Best
  | .single r g => .single (E.ref r) g
  | .pareto f g => .pareto (f.map E.ref) g

/-- The storage object, in the larger state. -/
def ga (g : GaData σ) : GaData σ :=
  { g with
    population := g.population.map E.ref
    parents := g.parents.map E.ref
    children := g.children.map E.ref
    histFronts := g.histFronts.map (List.map E.ref)
    best := g.best.map E.best }

/-- The heap of the larger state. -/
def heap (h : Nat → Ind σ) : Nat → Ind σ := fun r => if r < E.off then E.low r else h (r - E.off)

/-- The larger state. -/
def st (s : St σ) : St σ :=
  { s with
    tape := s.tape ++ E.more
    seed := s.seed.map (· ++ E.more)
    heap := E.heap s.heap
    next := E.ref s.next
    ga := E.ga s.ga
    calls := E.pre ++ s.calls }

theorem ref_inj {a b : Nat} : E.ref a = E.ref b ↔ a = b := by simp [ref]

theorem ref_injective : Function.Injective E.ref := fun _ _ h => E.ref_inj.mp h

@[simp] theorem heap_ref (h : Nat → Ind σ) (r : Nat) : E.heap h (E.ref r) = h r := by
  simp [heap, ref]

@[simp] theorem upd_heap (h : Nat → Ind σ) (r : Nat) (x : Ind σ) :
    upd (E.heap h) (E.ref r) x = E.heap (upd h r x) := by
  funext y
  simp only [upd, heap, ref]
  by_cases hy : y < E.off
  · have : y ≠ r + E.off := by omega
    simp [hy, this]
  · by_cases h2 : y = r + E.off
    · subst h2; simp
    · have : y - E.off ≠ r := by omega
      simp [hy, h2, this]

@[simp] theorem st_tape (s : St σ) : (E.st s).tape = s.tape ++ E.more := rfl
@[simp] theorem st_seed (s : St σ) : (E.st s).seed = s.seed.map (· ++ E.more) := rfl
@[simp] theorem st_heap (s : St σ) : (E.st s).heap = E.heap s.heap := rfl
@[simp] theorem st_next (s : St σ) : (E.st s).next = E.ref s.next := rfl
@[simp] theorem st_ga (s : St σ) : (E.st s).ga = E.ga s.ga := rfl
@[simp] theorem st_mutLvl (s : St σ) : (E.st s).mutLvl = s.mutLvl := rfl
@[simp] theorem st_conds (s : St σ) : (E.st s).conds = s.conds := rfl
@[simp] theorem st_calls (s : St σ) : (E.st s).calls = E.pre ++ s.calls := rfl
@[simp] theorem st_snaps (s : St σ) : (E.st s).snaps = s.snaps := rfl
@[simp] theorem ga_population (g : GaData σ) : (E.ga g).population = g.population.map E.ref := rfl
@[simp] theorem ga_parents (g : GaData σ) : (E.ga g).parents = g.parents.map E.ref := rfl
@[simp] theorem ga_children (g : GaData σ) : (E.ga g).children = g.children.map E.ref := rfl
@[simp] theorem ga_histFronts (g : GaData σ) :
    (E.ga g).histFronts = g.histFronts.map (List.map E.ref) := rfl
@[simp] theorem ga_best (g : GaData σ) : (E.ga g).best = g.best.map E.best := rfl
@[simp] theorem ga_attrs (g : GaData σ) : (E.ga g).attrs = g.attrs := rfl
@[simp] theorem ga_numGenerations (g : GaData σ) : (E.ga g).numGenerations = g.numGenerations := rfl
@[simp] theorem ga_childrenPercent (g : GaData σ) : (E.ga g).childrenPercent = g.childrenPercent := rfl
@[simp] theorem ga_earlyStop (g : GaData σ) : (E.ga g).earlyStop = g.earlyStop := rfl
@[simp] theorem ga_idxGeneration (g : GaData σ) : (E.ga g).idxGeneration = g.idxGeneration := rfl
@[simp] theorem ga_noImprove (g : GaData σ) : (E.ga g).noImprove = g.noImprove := rfl
@[simp] theorem ga_histBest (g : GaData σ) : (E.ga g).histBest = g.histBest := rfl
@[simp] theorem best_single (r g : Nat) : E.best (.single r g) = .single (E.ref r) g := rfl
@[simp] theorem best_pareto (f : List Nat) (g : Option Nat) :
    E.best (.pareto f g) = .pareto (f.map E.ref) g := rfl

end Emb

section
variable {σ α β γ δ : Type} {E : Emb σ}

/-- `m'` in the larger state does what `m` does in the small one. -/
def Hom (E : Emb σ) (v : α → β) (m : M σ α) (m' : M σ β) : Prop :=
  ∀ s, (E.more = [] ∨ (m s).1 ≠ .error .exhausted) → m' (E.st s) = ((m s).1.map v, E.st (m s).2)

namespace Hom

theorem pure {v : α → β} {a : α} {b : β} (h : b = v a) :
    Hom E v (Pure.pure a : M σ α) (Pure.pure b) := by
  intro s _; subst h; rfl

theorem unit : Hom E (id : Unit → Unit) (Pure.pure () : M σ Unit) (Pure.pure ()) := pure rfl

theorem throwE {v : α → β} (e : PyErr) : Hom E v (BaumEva.throwE e : M σ α) (BaumEva.throwE e) :=
  fun _ _ => rfl

theorem bind {v : α → β} {w : γ → δ} {m : M σ α} {m' : M σ β} {f : α → M σ γ} {f' : β → M σ δ}
    (hm : Hom E v m m') (hf : ∀ a, Hom E w (f a) (f' (v a))) : Hom E w (m >>= f) (m' >>= f') := by
  intro s hs
  rw [bind_run] at hs
  rw [bind_run, bind_run]
  rcases hms : m s with ⟨r, s1⟩
  rw [hms] at hs
  cases r with
  | error e =>
    have := hm s (by rw [hms]; simpa using hs)
    rw [this, hms]; rfl
  | ok a =>
    have := hm s (by rw [hms]; right; simp)
    rw [this, hms]
    exact hf a s1 hs

theorem ite {v : α → β} {p p' : Prop} [Decidable p] [Decidable p'] {m n : M σ α} {m' n' : M σ β}
    (hp : p' ↔ p) (hm : p → Hom E v m m') (hn : ¬p → Hom E v n n') :
    Hom E v (if p then m else n) (if p' then m' else n') := by
  by_cases h : p
  · rw [if_pos h, if_pos (hp.mpr h)]; exact hm h
  · rw [if_neg h, if_neg (fun h' => h (hp.mp h'))]; exact hn h

theorem getS : Hom E E.st (BaumEva.getS : M σ (St σ)) BaumEva.getS := fun _ _ => rfl

theorem getGa : Hom E E.ga (BaumEva.getGa : M σ (GaData σ)) BaumEva.getGa := fun _ _ => rfl

theorem modifyS {f f' : St σ → St σ} (h : ∀ s, f' (E.st s) = E.st (f s)) :
    Hom E id (BaumEva.modifyS f) (BaumEva.modifyS f') := by
  intro s _
  simp [BaumEva.modifyS, h s, Except.map]

theorem modGa {f f' : GaData σ → GaData σ} (h : ∀ g, f' (E.ga g) = E.ga (f g)) :
    Hom E id (BaumEva.modGa f) (BaumEva.modGa f') := by
  intro s _
  simp only [BaumEva.modGa, Emb.st_ga, h s.ga, Except.map]
  rfl

theorem liftE {x : Except PyErr α} : Hom E id (BaumEva.liftE x : M σ α) (BaumEva.liftE x) := by
  intro s _
  cases x <;> rfl

theorem getInd (r : Nat) : Hom E id (BaumEva.getInd r : M σ (Ind σ)) (BaumEva.getInd (E.ref r)) := by
  intro s _
  simp [BaumEva.getInd, Except.map]

theorem modInd (r : Nat) (f : Ind σ → Ind σ) : Hom E id (BaumEva.modInd r f) (BaumEva.modInd (E.ref r) f) := by
  intro s _
  simp only [BaumEva.modInd, Emb.st_heap, Emb.heap_ref, Emb.upd_heap, Except.map]
  rfl

theorem alloc (x : Ind σ) : Hom E E.ref (BaumEva.alloc x) (BaumEva.alloc x) := by
  intro s _
  simp only [BaumEva.alloc, Emb.st_heap, Emb.st_next, Emb.upd_heap, Except.map]
  have : E.ref s.next + 1 = E.ref (s.next + 1) := by simp only [Emb.ref]; omega
  rw [this]; rfl

theorem genoOf (r : Nat) : Hom E id (BaumEva.genoOf r : M σ (List Val)) (BaumEva.genoOf (E.ref r)) := by
  intro s _
  simp only [BaumEva.genoOf, Emb.st_heap, Emb.heap_ref]
  split <;> rfl

theorem scoreOf (r : Nat) : Hom E id (BaumEva.scoreOf r : M σ σ) (BaumEva.scoreOf (E.ref r)) := by
  intro s _
  simp only [BaumEva.scoreOf, Emb.st_heap, Emb.heap_ref]
  split <;> rfl

theorem rankOf (r : Nat) : Hom E id (BaumEva.rankOf r : M σ ℚ) (BaumEva.rankOf (E.ref r)) := by
  intro s _
  simp only [BaumEva.rankOf, Emb.st_heap, Emb.heap_ref]
  split <;> rfl

theorem draw : Hom E id (BaumEva.draw : M σ Nat) BaumEva.draw := by
  intro s hs
  rcases s with ⟨tape, seed, heap, next, ga, lvl, conds, calls, snaps⟩
  cases tape with
  | nil =>
    rcases hs with hs | hs
    · simp [BaumEva.draw, hs, Emb.st, Except.map]
    · simp [BaumEva.draw] at hs
  | cons x t => simp [BaumEva.draw, Emb.st, Except.map]

theorem reseed : Hom E id (BaumEva.reseed : M σ Unit) BaumEva.reseed := by
  intro s _
  rcases s with ⟨tape, seed, heap, next, ga, lvl, conds, calls, snaps⟩
  cases seed <;> simp [BaumEva.reseed, Emb.st, Except.map]

theorem newPopulation : Hom E id (BaumEva.newPopulation : M σ Unit) BaumEva.newPopulation := reseed

theorem forEach {γ : Type} (v : α → γ) {f : α → M σ Unit} {f' : γ → M σ Unit} (hf : ∀ a, Hom E id (f a) (f' (v a))) :
    ∀ l, Hom E id (BaumEva.forEach l f) (BaumEva.forEach (l.map v) f')
  | [] => unit
  | x :: xs => bind (hf x) fun _ => forEach v hf xs

theorem forEach_id {f f' : α → M σ Unit} (hf : ∀ a, Hom E id (f a) (f' a)) (l : List α) :
    Hom E id (BaumEva.forEach l f) (BaumEva.forEach l f') := by
  simpa using forEach id hf l

theorem mapEach (v : α → γ) (w : β → δ) {f : α → M σ β} {f' : γ → M σ δ} (hf : ∀ a, Hom E w (f a) (f' (v a))) :
    ∀ l, Hom E (List.map w) (BaumEva.mapEach l f) (BaumEva.mapEach (l.map v) f')
  | [] => pure rfl
  | x :: xs => bind (hf x) fun _ => bind (mapEach v w hf xs) fun _ => pure rfl

/-- Change the reading of the result. -/
theorem cast {v w : α → β} {m : M σ α} {m' : M σ β} (h : Hom E v m m') (e : v = w) : Hom E w m m' := e ▸ h

theorem mapEach_id {f f' : α → M σ β} (hf : ∀ a, Hom E id (f a) (f' a)) (l : List α) :
    Hom E id (BaumEva.mapEach l f) (BaumEva.mapEach l f') := by
  have := mapEach id id hf l
  rw [List.map_id] at this
  exact this.cast (by funext l; simp)

theorem mapEach_ref {v : α → γ} {f : α → M σ β} {f' : γ → M σ β} (hf : ∀ a, Hom E id (f a) (f' (v a)))
    (l : List α) : Hom E id (BaumEva.mapEach l f) (BaumEva.mapEach (l.map v) f') :=
  (mapEach v id hf l).cast (by funext l; simp)

/-! ## The `random` module -/

theorem randint (a b : Int) : Hom E id (BaumEva.randint a b : M σ Int) (BaumEva.randint a b) :=
  ite Iff.rfl (fun _ => throwE _) fun _ => bind draw fun _ => pure rfl

theorem random01 : Hom E id (BaumEva.random01 : M σ ℚ) BaumEva.random01 := bind draw fun _ => pure rfl

theorem randrange (a b c : Int) : Hom E id (BaumEva.randrange a b c : M σ Int) (BaumEva.randrange a b c) :=
  ite Iff.rfl (fun _ => throwE _) fun _ => ite Iff.rfl (fun _ => throwE _) fun _ => bind draw fun _ => pure rfl

theorem choice (l : List α) : Hom E id (BaumEva.choice l : M σ α) (BaumEva.choice l) := by
  unfold BaumEva.choice
  refine ite Iff.rfl (fun _ => throwE _) fun _ => bind draw fun x => ?_
  dsimp only [id]
  cases l[x % l.length]? with
  | none => exact throwE _
  | some v => exact pure rfl

theorem sampleAux (v : α → β) :
    ∀ (k : Nat) (l : List α), Hom E (List.map v) (BaumEva.sampleAux k l) (BaumEva.sampleAux k (l.map v))
  | 0, _ => pure rfl
  | k + 1, l => by
    unfold BaumEva.sampleAux
    refine bind draw fun x => ?_
    simp only [id, List.length_map, List.getElem?_map]
    cases l[x % l.length]? with
    | none => exact throwE _
    | some y =>
      refine bind (v := List.map v) ?_ fun _ => pure rfl
      have := sampleAux v k (l.eraseIdx (x % l.length))
      rwa [← List.eraseIdx_map] at this

theorem sample (v : α → β) (l : List α) (k : Int) :
    Hom E (List.map v) (BaumEva.sample l k : M σ (List α)) (BaumEva.sample (l.map v) k) :=
  ite (by simp) (fun _ => throwE _) fun _ => sampleAux v _ l

theorem sample_id (l : List α) (k : Int) :
    Hom E id (BaumEva.sample l k : M σ (List α)) (BaumEva.sample l k) := by
  have := sample (E := E) id l k
  rw [List.map_id] at this
  exact this.cast (by funext l; simp)

end Hom
end
end BaumEva
