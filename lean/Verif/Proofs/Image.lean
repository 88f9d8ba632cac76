import Verif.Proofs.Monad
import Verif.Model.Population
/-!
# Runs of a transformed problem

`Ren` describes a transformation of everything a run works with: scores, stored objective values, gene values, the
population's `gens`, and the number of generations and the stop limit.  `Img R v m m'` says: `m'`, run in the
transformed state, does exactly what `m` does, with the result transformed by `v`; it is only asked for states whose
population has the `gens` that are transformed.  The lemmas of this file and of `Proofs/ImageRun.lean` show it for the
functions of the model.
-/
namespace BaumEva

/-- A transformation of a problem. -/
structure Ren (σ : Type) where
  /-- scores -/
  sc : σ → σ := id
  /-- stored objective values -/
  obj : Ret → Ret := id
  /-- gene values -/
  val : Val → Val := id
  /-- phenotypes, given the score of the individual -/
  seen : Option σ → List Val → List Val := fun _ g => g.map val
  /-- `gens` before -/
  source : PopSpec
  /-- `gens` after -/
  target : PopSpec
  /-- factor of the grid steps of binary genes -/
  scale : ℚ := 1
  /-- number of generations -/
  rounds : Nat → Nat := id
  /-- stop limit -/
  stop : Option Int → Option Int := id
  /-- the arithmetic of both runs -/
  arith : Arith := .exact

/-- What a transformation has to know about a population: its genes and its arithmetic. -/
def Attrs.tag (a : Attrs) : PopSpec × Arith := (a.spec, a.arith)

namespace Ren
variable {σ : Type} (R : Ren σ)

/-- A genotype or phenotype, transformed. -/
def geno (g : List Val) : List Val := g.map R.val

/-- An individual, transformed. -/
def ind (x : Ind σ) : Ind σ where
  genotype := x.genotype.map R.geno
  phenotype := x.phenotype.map (R.seen x.score)
  score := x.score.map R.sc
  objScore := x.objScore.map R.obj
  feasible := x.feasible
  idx := x.idx
  rank := x.rank

/-- The parameters of a binary gene, transformed. -/
def par (p : GeneParams) : GeneParams := { p with realStep := R.scale * p.realStep }

/-- The attributes of a population, transformed. -/
def attrs (a : Attrs) : Attrs where
  isSorted := a.isSorted
  isPhenotype := a.isPhenotype
  numIndivid := a.numIndivid
  spec := R.target
  params := a.params.map R.par
  idxBits := a.idxBits
  arith := a.arith

/-- The storage object, transformed. -/
def ga (g : GaData σ) : GaData σ where
  numGenerations := R.rounds g.numGenerations
  childrenPercent := g.childrenPercent
  earlyStop := R.stop g.earlyStop
  idxGeneration := g.idxGeneration
  noImprove := g.noImprove
  attrs := R.attrs g.attrs
  population := g.population
  parents := g.parents
  children := g.children
  histBest := g.histBest.map R.sc
  histMed := g.histMed.map R.sc
  histWorst := g.histWorst.map R.sc
  histFronts := g.histFronts
  best := g.best

/-- The heap, transformed. -/
def heap (h : Nat → Ind σ) : Nat → Ind σ := fun r => R.ind (h r)

/-- The state, transformed. -/
def st (s : St σ) : St σ where
  tape := s.tape
  seed := s.seed
  heap := R.heap s.heap
  next := s.next
  ga := R.ga s.ga
  mutLvl := s.mutLvl
  conds := s.conds
  calls := s.calls.map R.geno
  snaps := s.snaps.map (List.map R.ind)

@[simp] theorem upd_heap (h : Nat → Ind σ) (r : Nat) (x : Ind σ) :
    upd (R.heap h) r (R.ind x) = R.heap (upd h r x) := by
  funext y
  simp only [upd, heap]
  split <;> rfl

end Ren

section
variable {σ α β γ δ : Type} {R : Ren σ}

/-- `m'` on the transformed problem does what `m` does on the original one. -/
def Img (R : Ren σ) (v : α → β) (m : M σ α) (m' : M σ β) : Prop :=
  ∀ s, s.ga.attrs.tag = (R.source, R.arith) →
    m' (R.st s) = ((m s).1.map v, R.st (m s).2) ∧ (m s).2.ga.attrs.tag = (R.source, R.arith)

namespace Img

theorem pure {v : α → β} {a : α} {b : β} (h : b = v a) :
    Img R v (Pure.pure a : M σ α) (Pure.pure b) := by
  intro s hs; subst h; exact ⟨rfl, hs⟩

theorem unit : Img R (id : Unit → Unit) (Pure.pure () : M σ Unit) (Pure.pure ()) := pure rfl

theorem throwE {v : α → β} (e : PyErr) : Img R v (BaumEva.throwE e : M σ α) (BaumEva.throwE e) :=
  fun _ hs => ⟨rfl, hs⟩

theorem bind {v : α → β} {w : γ → δ} {m : M σ α} {m' : M σ β} {f : α → M σ γ} {f' : β → M σ δ}
    (hm : Img R v m m') (hf : ∀ a, Img R w (f a) (f' (v a))) : Img R w (m >>= f) (m' >>= f') := by
  intro s hs
  rw [bind_run, bind_run]
  obtain ⟨h1, h2⟩ := hm s hs
  rw [h1]
  rcases hms : m s with ⟨r, s1⟩
  rw [hms] at h2
  cases r with
  | error e => exact ⟨rfl, h2⟩
  | ok a => exact hf a s1 h2

/-- Sequencing, with what is known about the result of the first part. -/
theorem bind_of {v : α → β} {w : γ → δ} {m : M σ α} {m' : M σ β} {f : α → M σ γ} {f' : β → M σ δ} (P : α → Prop)
    (hm : Img R v m m') (hP : ∀ s a s', m s = (.ok a, s') → P a) (hf : ∀ a, P a → Img R w (f a) (f' (v a))) :
    Img R w (m >>= f) (m' >>= f') := by
  intro s hs
  rw [bind_run, bind_run]
  obtain ⟨h1, h2⟩ := hm s hs
  rw [h1]
  rcases hms : m s with ⟨r, s1⟩
  rw [hms] at h2
  cases r with
  | error e => exact ⟨rfl, h2⟩
  | ok a => exact hf a (hP _ _ _ hms) s1 h2

theorem ite {v : α → β} {p p' : Prop} [Decidable p] [Decidable p'] {m n : M σ α} {m' n' : M σ β}
    (hp : p' ↔ p) (hm : p → Img R v m m') (hn : ¬p → Img R v n n') :
    Img R v (if p then m else n) (if p' then m' else n') := by
  by_cases h : p
  · rw [if_pos h, if_pos (hp.mpr h)]; exact hm h
  · rw [if_neg h, if_neg (fun h' => h (hp.mp h'))]; exact hn h

/-- Reading the state, with what is known about it. -/
theorem getS_bind {w : γ → δ} {f : St σ → M σ γ} {f' : St σ → M σ δ}
    (hf : ∀ s, s.ga.attrs.tag = (R.source, R.arith) → Img R w (f s) (f' (R.st s))) :
    Img R w (BaumEva.getS >>= f) (BaumEva.getS >>= f') := by
  intro s hs
  exact hf s hs s hs

theorem getGa_bind {w : γ → δ} {f : GaData σ → M σ γ} {f' : GaData σ → M σ δ}
    (hf : ∀ g, g.attrs.tag = (R.source, R.arith) → Img R w (f g) (f' (R.ga g))) :
    Img R w (BaumEva.getGa >>= f) (BaumEva.getGa >>= f') := by
  intro s hs
  exact hf s.ga hs s hs

theorem modifyS {f f' : St σ → St σ} (h : ∀ s, f' (R.st s) = R.st (f s))
    (hI : ∀ s, (f s).ga.attrs.tag = s.ga.attrs.tag) :
    Img R id (BaumEva.modifyS f) (BaumEva.modifyS f') := by
  intro s hs
  exact ⟨by simp [BaumEva.modifyS, h s, Except.map], (hI s).trans hs⟩

theorem modGa {f f' : GaData σ → GaData σ} (h : ∀ g, f' (R.ga g) = R.ga (f g))
    (hI : ∀ g, (f g).attrs.tag = g.attrs.tag) :
    Img R id (BaumEva.modGa f) (BaumEva.modGa f') := by
  intro s hs
  refine ⟨?_, (hI s.ga).trans hs⟩
  simp only [BaumEva.modGa, Except.map]
  show (Except.ok (), { R.st s with ga := f' (R.ga s.ga) }) = _
  rw [h]; rfl

theorem liftE {v : α → β} {x : Except PyErr α} {y : Except PyErr β} (h : y = x.map v) :
    Img R v (BaumEva.liftE x : M σ α) (BaumEva.liftE y) := by
  intro s hs
  subst h
  cases x <;> exact ⟨rfl, hs⟩

theorem liftE_id {x : Except PyErr α} : Img R id (BaumEva.liftE x : M σ α) (BaumEva.liftE x) :=
  liftE (by cases x <;> rfl)

theorem getInd (r : Nat) : Img R R.ind (BaumEva.getInd r : M σ (Ind σ)) (BaumEva.getInd r) :=
  fun _ hs => ⟨rfl, hs⟩

theorem modInd (r : Nat) {f f' : Ind σ → Ind σ} (h : ∀ x, f' (R.ind x) = R.ind (f x)) :
    Img R id (BaumEva.modInd r f) (BaumEva.modInd r f') := by
  intro s hs
  refine ⟨?_, hs⟩
  simp only [BaumEva.modInd, Except.map]
  show (Except.ok (), { R.st s with heap := upd (R.heap s.heap) r (f' (R.ind (s.heap r))) }) = _
  rw [h, Ren.upd_heap]; rfl

theorem alloc {x y : Ind σ} (h : y = R.ind x) : Img R id (BaumEva.alloc x) (BaumEva.alloc y) := by
  intro s hs
  refine ⟨?_, hs⟩
  subst h
  simp only [BaumEva.alloc, Except.map]
  show (Except.ok s.next, { R.st s with heap := upd (R.heap s.heap) s.next (R.ind x), next := s.next + 1 }) = _
  rw [Ren.upd_heap]; rfl

theorem genoOf (r : Nat) : Img R R.geno (BaumEva.genoOf r : M σ (List Val)) (BaumEva.genoOf r) := by
  intro s hs
  unfold BaumEva.genoOf
  have h : ((R.st s).heap r).genotype = ((s.heap r).genotype).map R.geno := rfl
  rw [h]
  cases (s.heap r).genotype <;> exact ⟨rfl, hs⟩

theorem scoreOf (r : Nat) : Img R R.sc (BaumEva.scoreOf r : M σ σ) (BaumEva.scoreOf r) := by
  intro s hs
  unfold BaumEva.scoreOf
  have h : ((R.st s).heap r).score = ((s.heap r).score).map R.sc := rfl
  rw [h]
  cases (s.heap r).score <;> exact ⟨rfl, hs⟩

theorem rankOf (r : Nat) : Img R id (BaumEva.rankOf r : M σ ℚ) (BaumEva.rankOf r) := by
  intro s hs
  unfold BaumEva.rankOf
  have h : ((R.st s).heap r).rank = (s.heap r).rank := rfl
  rw [h]
  split <;> exact ⟨rfl, hs⟩

theorem draw : Img R id (BaumEva.draw : M σ Nat) BaumEva.draw := by
  intro s hs
  rcases s with ⟨tape, seed, heap, next, ga, lvl, conds, calls, snaps⟩
  cases tape <;> exact ⟨rfl, hs⟩

theorem reseed : Img R id (BaumEva.reseed : M σ Unit) BaumEva.reseed := by
  intro s hs
  rcases s with ⟨tape, seed, heap, next, ga, lvl, conds, calls, snaps⟩
  cases seed <;> exact ⟨rfl, hs⟩

theorem newPopulation : Img R id (BaumEva.newPopulation : M σ Unit) BaumEva.newPopulation := reseed

theorem forEach {γ : Type} (v : α → γ) {f : α → M σ Unit} {f' : γ → M σ Unit} (hf : ∀ a, Img R id (f a) (f' (v a))) :
    ∀ l, Img R id (BaumEva.forEach l f) (BaumEva.forEach (l.map v) f')
  | [] => unit
  | x :: xs => bind (hf x) fun _ => forEach v hf xs

theorem forEach_id {f f' : α → M σ Unit} (hf : ∀ a, Img R id (f a) (f' a)) (l : List α) :
    Img R id (BaumEva.forEach l f) (BaumEva.forEach l f') := by
  simpa using forEach id hf l

theorem mapEach (v : α → γ) (w : β → δ) {f : α → M σ β} {f' : γ → M σ δ} (hf : ∀ a, Img R w (f a) (f' (v a))) :
    ∀ l, Img R (List.map w) (BaumEva.mapEach l f) (BaumEva.mapEach (l.map v) f')
  | [] => pure rfl
  | x :: xs => bind (hf x) fun _ => bind (mapEach v w hf xs) fun _ => pure rfl

/-- Change the reading of the result. -/
theorem cast {v w : α → β} {m : M σ α} {m' : M σ β} (h : Img R v m m') (e : v = w) : Img R w m m' := e ▸ h

theorem mapEach_same (w : β → δ) {f : α → M σ β} {f' : α → M σ δ} (hf : ∀ a, Img R w (f a) (f' a)) (l : List α) :
    Img R (List.map w) (BaumEva.mapEach l f) (BaumEva.mapEach l f') := by
  have := mapEach id w hf l
  rwa [List.map_id] at this

/-! ## The `random` module -/

theorem randint (a b : Int) : Img R id (BaumEva.randint a b : M σ Int) (BaumEva.randint a b) :=
  ite Iff.rfl (fun _ => throwE _) fun _ => bind draw fun _ => pure rfl

theorem random01 : Img R id (BaumEva.random01 : M σ ℚ) BaumEva.random01 := bind draw fun _ => pure rfl

theorem choice (v : α → β) (l : List α) :
    Img R v (BaumEva.choice l : M σ α) (BaumEva.choice (l.map v)) := by
  unfold BaumEva.choice
  refine ite (by simp) (fun _ => throwE _) fun _ => bind draw fun x => ?_
  simp only [id, List.length_map, List.getElem?_map]
  cases l[x % l.length]? with
  | none => exact throwE _
  | some v => exact pure rfl

theorem choice_id (l : List α) : Img R id (BaumEva.choice l : M σ α) (BaumEva.choice l) := by
  have := choice (R := R) id l
  rwa [List.map_id] at this

theorem sampleAux (v : α → β) :
    ∀ (k : Nat) (l : List α), Img R (List.map v) (BaumEva.sampleAux k l) (BaumEva.sampleAux k (l.map v))
  | 0, _ => pure rfl
  | k + 1, l => by
    unfold BaumEva.sampleAux
    refine bind draw fun x => ?_
    simp only [id, List.length_map, List.getElem?_map]
    cases l[x % l.length]? with
    | none => exact throwE _
    | some y =>
      refine bind (v := List.map v) ?_ fun _ => pure rfl
      have := sampleAux v k (l.eraseIdx (x % l.length))
      rwa [← List.eraseIdx_map] at this

theorem sample (v : α → β) (l : List α) (k : Int) :
    Img R (List.map v) (BaumEva.sample l k : M σ (List α)) (BaumEva.sample (l.map v) k) :=
  ite (by simp) (fun _ => throwE _) fun _ => sampleAux v _ l

theorem sample_id (l : List α) (k : Int) :
    Img R id (BaumEva.sample l k : M σ (List α)) (BaumEva.sample l k) := by
  have := sample (R := R) id l k
  rw [List.map_id] at this
  exact this.cast (by funext l; simp)

end Img
end
end BaumEva
