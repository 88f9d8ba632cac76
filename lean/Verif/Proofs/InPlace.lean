import Verif.Model.InPlace
import Verif.Proofs.ImageRun
import Verif.Proofs.Facade
import Mathlib.Algebra.Group.Nat.Even
/-!
# Runs whose objective changes the list it is given
-/
namespace BaumEva
section
variable {σ α β : Type}

/-- An individual after its evaluation by an objective that turns the phenotype `p` into `left p`. -/
def Ind.spoil (left : List Val → List Val) (x : Ind σ) : Ind σ :=
  { x with phenotype := if x.score.isSome then x.phenotype.map left else x.phenotype }

/-- All evaluated individuals, in memory and in the recorded generations, have the changed phenotype. -/
def St.spoil (left : List Val → List Val) (s : St σ) : St σ :=
  { s with heap := fun r => (s.heap r).spoil left, snaps := s.snaps.map (List.map (Ind.spoil left)) }

/-- `m'` on the changed state behaves like `m`. -/
def Alike (F G : St σ → St σ) (m m' : M σ α) (s : St σ) : Prop :=
  (m' (F s)).1 = (m s).1 ∧ ∀ a s', m s = (.ok a, s') → m' (F s) = (.ok a, G s')

theorem Alike.bind {F G K : St σ → St σ} {m m' : M σ α} {f f' : α → M σ β} {s : St σ} (h : Alike F G m m' s)
    (hf : ∀ a s', m s = (.ok a, s') → Alike G K (f a) (f' a) s') : Alike F K (m >>= f) (m' >>= f') s := by
  rcases hms : m s with ⟨_ | a, s1⟩
  · have h1 := h.1
    rw [hms] at h1
    rcases hms' : m' (F s) with ⟨x, s2⟩
    rw [hms'] at h1
    obtain rfl : x = _ := h1
    refine ⟨by rw [bind_of_err hms, bind_of_err hms'], fun a s' e => ?_⟩
    rw [bind_of_err hms] at e
    cases e
  · have h1 := h.2 a s1 hms
    have h2 := hf a s1 hms
    unfold Alike
    rw [bind_of_ok hms, bind_of_ok h1]
    exact h2

theorem Alike.getGa {F G : St σ → St σ} {f f' : GaData σ → M σ α} {s : St σ} (hF : (F s).ga = s.ga)
    (h : Alike F G (f s.ga) (f' s.ga) s) : Alike F G (BaumEva.getGa >>= f) (BaumEva.getGa >>= f') s := by
  unfold Alike
  rw [bind_of_ok (getGa_run s), bind_of_ok (getGa_run (F s)), hF]
  exact h

theorem Alike.pure {F : St σ → St σ} (a : α) (s : St σ) : Alike F F (Pure.pure a) (Pure.pure a) s :=
  ⟨rfl, fun b s' e => by obtain ⟨rfl, rfl⟩ := pure_ok.mp e; rfl⟩

theorem Alike.throwE {F G : St σ → St σ} (e : PyErr) (s : St σ) : Alike F G (BaumEva.throwE e : M σ α) (BaumEva.throwE e) s :=
  ⟨rfl, fun b s' e => by cases e⟩

theorem Alike.forEach {F : St σ → St σ} {f f' : β → M σ Unit} (I : St σ → Prop) : ∀ (l : List β) (s : St σ), I s →
    (∀ x ∈ l, ∀ s, I s → Alike F F (f x) (f' x) s ∧ ∀ a s', f x s = (.ok a, s') → I s') →
    Alike F F (BaumEva.forEach l f) (BaumEva.forEach l f') s
  | [], s, _, _ => Alike.pure () s
  | x :: xs, s, hI, h => by
    rw [BaumEva.forEach, BaumEva.forEach]
    obtain ⟨h1, h2⟩ := h x List.mem_cons_self s hI
    exact h1.bind fun a s' e => Alike.forEach I xs s' (h2 a s' e) fun y hy => h y (List.mem_cons_of_mem _ hy)

/-! ## Cells changed one by one -/

/-- The state with every cell changed, by a function that depends on the cell. -/
def St.touch (H : Nat → Ind σ → Ind σ) (h : Ind σ → Ind σ) (s : St σ) : St σ :=
  { s with heap := fun r => H r (s.heap r), snaps := s.snaps.map (List.map h) }

/-- `m` neither reads nor writes what is changed. -/
def Loc (H : Nat → Ind σ → Ind σ) (h : Ind σ → Ind σ) (m : M σ α) : Prop :=
  ∀ s, m (s.touch H h) = ((m s).1, (m s).2.touch H h)

namespace Loc
variable {H : Nat → Ind σ → Ind σ} {h : Ind σ → Ind σ}

theorem bind {m : M σ α} {f : α → M σ β} (hm : Loc H h m) (hf : ∀ a, Loc H h (f a)) : Loc H h (m >>= f) := by
  intro s
  rw [bind_run, bind_run, hm s]
  rcases m s with ⟨_ | a, s1⟩
  · rfl
  · exact hf a s1

theorem pure (a : α) : Loc H h (Pure.pure a : M σ α) := fun _ => rfl
theorem throwE (e : PyErr) : Loc H h (BaumEva.throwE e : M σ α) := fun _ => rfl
theorem liftE (x : Except PyErr α) : Loc H h (BaumEva.liftE x : M σ α) := fun _ => by cases x <;> rfl

theorem getInd {r : Nat} (hr : H r = id) : Loc H h (BaumEva.getInd r : M σ (Ind σ)) := by
  intro s
  show (Except.ok (H r (s.heap r)), _) = _
  rw [hr]; rfl

theorem genoOf {r : Nat} (hr : H r = id) : Loc H h (BaumEva.genoOf r : M σ (List Val)) := by
  intro s
  unfold BaumEva.genoOf
  have e : (s.touch H h).heap r = s.heap r := by show H r (s.heap r) = _; rw [hr]; rfl
  rw [e]
  cases (s.heap r).genotype <;> rfl

theorem modInd {r : Nat} (hr : H r = id) (f : Ind σ → Ind σ) : Loc H h (BaumEva.modInd r f) := by
  intro s
  rw [modInd_run, modInd_run]
  have e : upd (s.touch H h).heap r (f ((s.touch H h).heap r)) = fun q => H q (upd s.heap r (f (s.heap r)) q) := by
    funext q
    show upd (fun r => H r (s.heap r)) r (f (H r (s.heap r))) q = _
    rw [hr]
    unfold upd
    split
    · rename_i hq; subst hq; rw [hr]; rfl
    · rfl
  rw [e]; rfl

theorem callObj (f : List Val → Except PyErr Ret) (g : List Val) : Loc H h (BaumEva.callObj f g : M σ Ret) :=
  bind (fun _ => rfl) fun _ => liftE _

theorem feasLoop {r : Nat} (hr : H r = id) : ∀ (cs : List Cond) (vs : List ℚ), Loc H h (BaumEva.feasLoop r cs vs : M σ Unit)
  | _, [] => by unfold BaumEva.feasLoop; exact pure ()
  | [], _ :: _ => throwE _
  | c :: cs, v :: vs => by
    unfold BaumEva.feasLoop
    refine bind ?_ fun _ => feasLoop hr cs vs
    unfold markFeas
    split
    · exact pure ()
    · exact modInd hr _

theorem evalCond {r : Nat} (hr : H r = id) (hfe : ∀ q x, (H q x).feasible = x.feasible) (fit : Fit σ) (vs : List ℚ) :
    Loc H h (BaumEva.evalCond fit r vs) := by
  refine bind (liftE _) fun pr => bind (modInd hr _) fun _ => bind (feasLoop hr _ _) fun _ => ?_
  intro s
  rw [bind_run, bind_run]
  have hb : bestArg (s.touch H h) = bestArg s := by
    unfold bestArg
    show (match s.ga.best with | none => _ | some (.single r _) => _ | some (.pareto _ _) => _) = _
    rcases s.ga.best with _ | ⟨b, g⟩ | ⟨f, g⟩
    · rfl
    · show BestArg.ind (H b (s.heap b)).feasible = _
      rw [hfe]
    · rfl
  simp only [getS]
  rw [hb]
  cases fit.task.penalty with
  | none => rfl
  | some p => exact liftE _ s

theorem evalInd {r : Nat} (hr : H r = id) (hfe : ∀ q x, (H q x).feasible = x.feasible) (fit : Fit σ) :
    Loc H h (BaumEva.evalInd fit r) := by
  refine bind (getInd hr) fun ind => ?_
  cases ind.score with
  | some _ => exact pure ()
  | none =>
    refine bind (genoOf hr) fun g => bind (bind (callObj _ _) fun _ => liftE _) fun v => bind ?_ fun pen =>
      bind (getInd hr) fun _ => bind (liftE _) fun _ => modInd hr _
    unfold evalValues
    split
    · rcases v with _ | (_ | vs)
      · exact throwE _
      · exact throwE _
      · exact evalCond hr hfe fit vs
    · exact bind (modInd hr _) fun _ => pure _

end Loc

/-! ## The evaluation of a binary population -/

variable (left : List Val → List Val)

theorem swapInd_iterate (n : Nat) : (swapInd^[n] : Ind σ → Ind σ) = id ∨ (swapInd^[n] : Ind σ → Ind σ) = swapInd := by
  have hi : Function.Involutive (swapInd : Ind σ → Ind σ) := fun _ => rfl
  rcases Nat.even_or_odd n with h | h
  · exact .inl (hi.iterate_even h)
  · exact .inr (hi.iterate_odd h)

/-- The change of a cell that was swapped `n` times. -/
def spoilAt (n : Nat) (x : Ind σ) : Ind σ := swapInd^[n] (Ind.spoil left (swapInd^[n] x))

theorem Ind.spoil_none {x : Ind σ} (hx : x.score = none) : x.spoil left = x := by
  cases x; simp only at hx; subst hx; rfl

theorem spoilAt_none {n : Nat} {x : Ind σ} (hx : x.score = none) : spoilAt left n x = x := by
  unfold spoilAt
  rcases swapInd_iterate (σ := σ) n with h | h
  · rw [h]; exact Ind.spoil_none left hx
  · rw [h, Ind.spoil_none left (x := swapInd x) hx]; rfl

theorem spoilAt_feasible (n : Nat) (x : Ind σ) : (spoilAt left n x).feasible = x.feasible := by
  unfold spoilAt
  rcases swapInd_iterate (σ := σ) n with h | h <;> rw [h] <;> rfl

theorem spoilAt_score (n : Nat) (x : Ind σ) : (spoilAt left n x).score = x.score := by
  unfold spoilAt
  rcases swapInd_iterate (σ := σ) n with h | h <;> rw [h] <;> rfl

theorem spoilAt_one {x : Ind σ} (hx : x.score.isSome) : spoilAt left 1 x = { x with genotype := x.genotype.map left } := by
  cases x
  simp only at hx
  simp [spoilAt, swapInd, Ind.spoil, hx]

/-- The state during the evaluation of the members `l`. -/
def St.spoilIn (l : List Nat) (s : St σ) : St σ := s.touch (fun r => spoilAt left (l.count r)) (Ind.spoil left)

theorem evalInPlace_alike (fit : Fit σ) (l : List Nat) {r : Nat} {s : St σ} (h : (s.heap r).score = none → l.count r = 1) :
    Alike (St.spoilIn left l) (St.spoilIn left l) (evalInd fit r) (evalIndInPlace left fit r) s := by
  have hsc : ((s.spoilIn left l).heap r).score = (s.heap r).score := spoilAt_score left _ _
  have hrun : evalIndInPlace left fit r (s.spoilIn left l) = (match (s.heap r).score with
      | some _ => Pure.pure ()
      | none => (evalInd fit r >>= fun _ => modInd r fun ind => { ind with genotype := ind.genotype.map left } : M σ Unit)) (s.spoilIn left l) := by
    unfold evalIndInPlace
    rw [bind_of_ok (getInd_run r _), hsc]
    cases (s.heap r).score <;> rfl
  cases hs : (s.heap r).score with
  | some v =>
    have he : evalInd fit r s = (.ok (), s) := by
      unfold evalInd
      rw [bind_of_ok (getInd_run r s), hs]; rfl
    unfold Alike
    rw [hrun, hs, he]
    refine ⟨rfl, fun a s' e => ?_⟩
    injection e with e1 e2
    injection e1 with e1
    subst e1 e2; rfl
  | none =>
    have hone := h hs
    let H' : Nat → Ind σ → Ind σ := fun q => if q = r then id else spoilAt left (l.count q)
    have hst : ∀ t : St σ, (t.heap r).score = none → t.spoilIn left l = t.touch H' (Ind.spoil left) := by
      intro t ht
      unfold St.spoilIn St.touch
      congr 1
      funext q
      by_cases hq : q = r
      · subst hq
        show spoilAt left _ (t.heap q) = _
        rw [spoilAt_none left ht]
        simp [H']
      · simp [H', hq]
    have hloc : Loc H' (Ind.spoil left) (evalInd fit r) := by
      refine Loc.evalInd (by simp [H']) (fun q x => ?_) fit
      by_cases hq : q = r
      · simp [H', hq]
      · simp only [H', hq, if_false]; exact spoilAt_feasible left _ _
    have hev := hloc s
    rw [← hst s hs] at hev
    unfold Alike
    rw [hrun, hs]
    rcases hms : evalInd fit r s with ⟨e | a, s1⟩
    · rw [hms] at hev
      simp only
      rw [bind_of_err hev]
      exact ⟨rfl, fun a s' e => by cases e⟩
    · rw [hms] at hev
      simp only
      rw [bind_of_ok hev, modInd_run]
      refine ⟨rfl, fun a' s' e => ?_⟩
      injection e with e1 e2
      subst e2
      injection e1 with e1
      have hsome : (s1.heap r).score.isSome := by
        rcases evalInd_ok hms with ⟨hx, _⟩ | ⟨_, g, b, ba, _, _, hto, hs1⟩
        · rw [hs] at hx; cases hx
        · rw [hs1]
          show (upd s.heap r b r).score.isSome
          rw [show upd s.heap r b r = b by simp [upd]]
          exact hto.scored.1
      have hheap : upd (s1.touch H' (Ind.spoil left)).heap r { (s1.touch H' (Ind.spoil left)).heap r with
          genotype := ((s1.touch H' (Ind.spoil left)).heap r).genotype.map left } = fun q => spoilAt left (l.count q) (s1.heap q) := by
        have h1 : ∀ q, (s1.touch H' (Ind.spoil left)).heap q = H' q (s1.heap q) := fun _ => rfl
        funext q
        by_cases hq : q = r
        · subst hq
          rw [h1, hone, spoilAt_one left hsome]
          simp [upd, H']
        · simp [upd, h1, H', hq]
      show (Except.ok (), ({ s1.touch H' (Ind.spoil left) with heap := _ } : St σ)) = _
      rw [hheap]; rfl

theorem getPhenotype_alike {s : St σ} (h : ∀ r ∈ s.ga.population, (s.heap r).score.isSome → (s.heap r).phenotype.isSome) :
    Alike (St.spoil left) (St.spoil left) getPhenotype getPhenotype s := by
  unfold getPhenotype
  refine Alike.getGa rfl (Alike.forEach (fun t => ∀ r ∈ s.ga.population, (t.heap r).score.isSome → (t.heap r).phenotype.isSome)
    _ _ h fun r hr t ht => ?_)
  have hph : ((t.spoil left).heap r).phenotype.isSome = (t.heap r).phenotype.isSome := by
    show (Ind.spoil left (t.heap r)).phenotype.isSome = _
    unfold Ind.spoil
    simp only
    split <;> cases (t.heap r).phenotype <;> rfl
  unfold Alike
  rw [bind_of_ok (getInd_run r t), bind_of_ok (getInd_run r _)]
  cases hp : (t.heap r).phenotype with
  | some p =>
    rw [hp] at hph
    obtain ⟨p', hp'⟩ := Option.isSome_iff_exists.mp hph
    rw [hp']
    refine ⟨⟨rfl, fun a s' e => ?_⟩, fun a s' e => ?_⟩
    · obtain ⟨rfl, rfl⟩ := pure_ok.mp e; rfl
    · obtain ⟨rfl, rfl⟩ := pure_ok.mp e; exact ht
  | none =>
    have hsc : (t.heap r).score = none := by
      cases hx : (t.heap r).score with
      | none => rfl
      | some v =>
        have := ht r hr (by rw [hx]; rfl)
        rw [hp] at this; cases this
    have hsame : (t.spoil left).heap r = t.heap r := Ind.spoil_none left hsc
    rw [hsame, hp]
    have hg : ∀ x, genoOf r t = (x, t) → genoOf r (t.spoil left) = (x, t.spoil left) := by
      intro x hx
      unfold genoOf at hx ⊢
      rw [hsame]
      cases hgg : (t.heap r).genotype with
      | none => rw [hgg] at hx; cases hx; rfl
      | some g => rw [hgg] at hx; cases hx; rfl
    cases hgg : (t.heap r).genotype with
    | none =>
      have e1 : genoOf r t = (.error .typeError, t) := by unfold genoOf; rw [hgg]
      simp only
      rw [bind_of_err e1, bind_of_err (hg _ e1)]
      exact ⟨⟨rfl, fun a s' e => by cases e⟩, fun a s' e => by cases e⟩
    | some g =>
      have e1 : genoOf r t = (.ok g, t) := by unfold genoOf; rw [hgg]
      simp only
      rw [bind_of_ok e1, bind_of_ok (hg _ e1)]
      cases hd : decodeIndivid s.ga.attrs g with
      | error e =>
        exact ⟨⟨rfl, fun a s' e => by cases e⟩, fun a s' e => by cases e⟩
      | ok p =>
        have e2 : ∀ x : St σ, (liftE (.ok p) : M σ (List Val)) x = (.ok p, x) := fun _ => rfl
        rw [bind_of_ok (e2 _), bind_of_ok (e2 _), modInd_run, modInd_run]
        refine ⟨⟨rfl, fun a s' e => ?_⟩, fun a s' e => ?_⟩
        · injection e with e1 e3
          injection e1 with e1
          subst e1 e3
          refine Prod.ext rfl ?_
          unfold St.spoil
          simp only
          congr 1
          funext q
          by_cases hq : q = r
          · subst hq
            simp only [upd, if_true]
            rw [Ind.spoil_none left hsc, Ind.spoil_none left (by exact hsc)]
          · simp [upd, hq]
        · injection e with e1 e3
          subst e3
          intro q hq hqs
          by_cases hqr : q = r
          · subst hqr; simp [upd]
          · simp only [upd, hqr, if_false] at hqs ⊢
            exact ht q hq hqs

theorem swapPop_in {s : St σ} : Alike (St.spoil left) (St.spoilIn left s.ga.population) swapPop swapPop s := by
  obtain ⟨s1, e1, e2, e3⟩ := swapPop_run s
  obtain ⟨t1, f1, f2, f3⟩ := swapPop_run (s.spoil left)
  refine ⟨by rw [e1, f1], fun a s' e => ?_⟩
  rw [e1] at e
  injection e with _ e
  subst e
  rw [f1]
  refine Prod.ext rfl ?_
  show t1 = s1.spoilIn left s.ga.population
  rw [f2, e2]
  unfold St.spoilIn St.touch
  show St.mk _ _ _ _ _ _ _ _ _ = St.mk _ _ _ _ _ _ _ _ _
  congr 1
  funext r
  have hh := f3 r
  rw [show (s.spoil left).ga.population = s.ga.population from rfl] at hh
  rw [hh]
  show _ = spoilAt left _ (s1.heap r)
  rw [e3]
  show swapInd^[_] (Ind.spoil left (s.heap r)) = _
  unfold spoilAt
  rcases swapInd_iterate (σ := σ) (s.ga.population.count r) with h | h <;> rw [h] <;> rfl

theorem swapPop_out {s : St σ} : Alike (St.spoilIn left s.ga.population) (St.spoil left) swapPop swapPop s := by
  obtain ⟨s1, e1, e2, e3⟩ := swapPop_run s
  obtain ⟨t1, f1, f2, f3⟩ := swapPop_run (s.spoilIn left s.ga.population)
  refine ⟨by rw [e1, f1], fun a s' e => ?_⟩
  rw [e1] at e
  injection e with _ e
  subst e
  rw [f1]
  refine Prod.ext rfl ?_
  show t1 = s1.spoil left
  rw [f2, e2]
  unfold St.spoil
  show St.mk _ _ _ _ _ _ _ _ _ = St.mk _ _ _ _ _ _ _ _ _
  congr 1
  funext r
  have hh := f3 r
  rw [show (s.spoilIn left s.ga.population).ga.population = s.ga.population from rfl] at hh
  rw [hh]
  show _ = Ind.spoil left (s1.heap r)
  rw [e3]
  show swapInd^[_] (spoilAt left _ (s.heap r)) = _
  unfold spoilAt
  rcases swapInd_iterate (σ := σ) (s.ga.population.count r) with h | h <;> rw [h] <;> rfl

/-- The evaluation of a binary population in which members without score occur once and members with score have been
decoded. -/
theorem baseFitness_alike (fit : Fit σ) {s : St σ} (hp : s.ga.attrs.isPhenotype = true)
    (hone : ∀ r ∈ s.ga.population, (s.heap r).score = none → s.ga.population.count r = 1)
    (hph : ∀ r ∈ s.ga.population, (s.heap r).score.isSome → (s.heap r).phenotype.isSome) :
    Alike (St.spoil left) (St.spoil left) (baseFitnessExec fit) (baseFitnessInPlace left fit) s := by
  unfold baseFitnessExec baseFitnessInPlace
  refine Alike.getGa rfl ?_
  simp only [hp, if_true]
  refine (getPhenotype_alike left hph).bind fun _ s1 h1 => ?_
  obtain ⟨a1, a2, a3⟩ := getPhenotype_ok h1
  have hga1 : s1.ga = s.ga := by obtain ⟨_, rfl⟩ := a1; rfl
  have hsc1 : ∀ r, (s1.heap r).score = (s.heap r).score := by
    intro r
    by_cases hr : r ∈ s.ga.population
    · rw [(a2 r hr).keeps]
    · rw [a3 r hr]
  have hin := swapPop_in left (s := s1)
  rw [hga1] at hin
  refine hin.bind fun _ s2 h2 => ?_
  obtain ⟨s2', b1, b2, b3⟩ := swapPop_run s1
  rw [h2] at b1
  injection b1 with _ b1
  subst b1
  have hga2 : s2.ga = s.ga := by rw [b2]; exact hga1
  have hsc2 : ∀ r, (s2.heap r).score = (s.heap r).score := by
    intro r
    rw [b3 r]
    rcases swapInd_iterate (σ := σ) (s1.ga.population.count r) with h | h <;> rw [h] <;> exact hsc1 r
  have hloop : Alike (St.spoilIn left s.ga.population) (St.spoilIn left s.ga.population)
      (BaumEva.forEach s.ga.population (evalInd fit)) (BaumEva.forEach s.ga.population (evalIndInPlace left fit)) s2 := by
    refine Alike.forEach (fun t => ∀ r ∈ s.ga.population, (t.heap r).score = none → s.ga.population.count r = 1) _ _
      (fun r hr hs => hone r hr (by rw [← hsc2]; exact hs)) fun r hr t ht => ⟨evalInPlace_alike left fit _ (ht r hr), ?_⟩
    intro a t' e
    rcases evalInd_ok e with ⟨_, rfl⟩ | ⟨_, g, b, ba, _, _, hto, rfl⟩
    · exact ht
    · intro q hq hqs
      by_cases hqr : q = r
      · subst hqr
        have := hto.scored.1
        simp only [upd, if_true] at hqs
        rw [hqs] at this; cases this
      · simp only [upd, hqr, if_false] at hqs
        exact ht q hq hqs
  refine hloop.bind fun _ s3 h3 => ?_
  have hout := swapPop_out left (s := s3)
  have hga3 : s3.ga = s.ga := by
    refine forEach_inv (fun t : St σ => t.ga = s.ga) (fun r _ t t' ht he => ?_) hga2 h3
    rcases evalInd_ok he with ⟨_, rfl⟩ | ⟨_, g, b, ba, _, _, hto, rfl⟩ <;> exact ht
  rw [hga3] at hout
  exact hout

end
end BaumEva
