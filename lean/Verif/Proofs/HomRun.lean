import Verif.Proofs.Hom
import Verif.Model.Run
/-!
# Runs inside a larger state: the components

`Hom` for every function of the model that works on the state.
-/
namespace BaumEva

theorem pyGet?_map {α β : Type} (v : α → β) (l : List α) (i : Int) :
    pyGet? (l.map v) i = (pyGet? l i).map v := by
  unfold pyGet?
  simp only [List.length_map, List.getElem?_map]
  split
  · rfl
  · split <;> rfl

theorem sortByKey_map {α β κ : Type} [LinearOrder κ] (v : α → β) (key : α → κ) (key' : β → κ)
    (hk : ∀ a, key' (v a) = key a) (l : List α) :
    sortByKey key' (l.map v) = (sortByKey key l).map v := by
  unfold sortByKey
  refine (List.map_insertionSort (r := fun a b => key a ≤ key b) (s := fun a b => key' a ≤ key' b) v l ?_).symm
  intro a _ b _
  simp [hk]

section
variable {σ : Type} {E : Emb σ}

namespace Hom

/-! ## Populations -/

theorem addDict (g : List Val) : Hom E id (BaumEva.addDict g : M σ Unit) (BaumEva.addDict g) :=
  bind (alloc _) fun r => modGa fun ga => by simp [Emb.ga]

theorem resetIdxFrom : ∀ (i : Nat) (rs : List Nat),
    Hom E id (BaumEva.resetIdxFrom i rs : M σ Unit) (BaumEva.resetIdxFrom i (rs.map E.ref))
  | _, [] => unit
  | i, r :: rs => bind (modInd r _) fun _ => resetIdxFrom (i + 1) rs

theorem resetIdx : Hom E id (BaumEva.resetIdx : M σ Unit) BaumEva.resetIdx :=
  bind getGa fun _ => resetIdxFrom 0 _

theorem getPhenotype : Hom E id (BaumEva.getPhenotype : M σ Unit) BaumEva.getPhenotype := by
  refine bind getGa fun ga => forEach E.ref (fun r => bind (getInd r) fun ind => ?_) _
  dsimp only [id]
  cases ind.phenotype with
  | some _ => exact unit
  | none => exact bind (genoOf r) fun g => bind liftE fun p => modInd r _

theorem ensurePhenotype : Hom E id (BaumEva.ensurePhenotype : M σ Unit) BaumEva.ensurePhenotype :=
  bind getGa fun _ => ite Iff.rfl (fun _ => getPhenotype) fun _ => unit

theorem swapPop : Hom E id (BaumEva.swapPop : M σ Unit) BaumEva.swapPop :=
  bind getGa fun _ => forEach E.ref (fun r => modInd r _) _

theorem genCatGene : ∀ g, Hom E id (BaumEva.genCatGene g : M σ Val) (BaumEva.genCatGene g)
  | .range _ _ _ => bind (randrange _ _ _) fun _ => pure rfl
  | .values _ => choice _
  | .other => throwE _

theorem genBinGene (gray : Bool) (p : GeneParams) :
    Hom E id (BaumEva.genBinGene gray p : M σ (List Val)) (BaumEva.genBinGene gray p) :=
  bind (randint _ _) fun _ => liftE

theorem generate (a : Attrs) : Hom E id (BaumEva.generate a : M σ (List Val)) (BaumEva.generate a) := by
  unfold BaumEva.generate
  cases a.spec with
  | cat gens => exact mapEach_id genCatGene _
  | orderCat a b k => exact bind (sample_id _ _) fun _ => pure rfl
  | binary gray gens => exact bind (mapEach_id (genBinGene gray) _) fun _ => pure rfl

theorem setParams (spec : PopSpec) (n : Nat) (input : Option (List (List Val))) :
    Hom E id (BaumEva.setParams spec n input : M σ Unit) (BaumEva.setParams spec n input) :=
  ite Iff.rfl (fun _ => throwE _) fun _ => modGa fun _ => rfl

theorem prepare : Hom E id (BaumEva.prepare : M σ Unit) BaumEva.prepare := by
  refine bind getGa fun ga => ?_
  simp only [Emb.ga_attrs]
  cases ga.attrs.spec with
  | binary gray gens => exact bind liftE fun r => modGa fun _ => rfl
  | cat _ => exact unit
  | orderCat _ _ _ => exact unit

theorem fill (input : Option (List (List Val))) :
    Hom E id (BaumEva.fill input : M σ Unit) (BaumEva.fill input) :=
  bind prepare fun _ => bind getGa fun _ =>
    bind (forEach_id (fun _ => bind liftE fun _ => addDict _) _) fun _ =>
    bind (forEach_id (fun _ => bind (generate _) fun _ => addDict _) _) fun _ =>
    ite Iff.rfl (fun _ => bind getPhenotype fun _ => resetIdx) fun _ => resetIdx

theorem isDuplicate (rs : List Nat) :
    Hom E id (BaumEva.isDuplicate rs : M σ Bool) (BaumEva.isDuplicate (rs.map E.ref)) :=
  bind (mapEach_ref genoOf _) fun _ => pure (by simp)

theorem sortByScore [LinearOrder σ] : Hom E id (BaumEva.sortByScore : M σ Unit) BaumEva.sortByScore := by
  refine bind getGa fun ga => bind (v := List.map (Prod.map id E.ref)) ?_ fun keyed => modGa fun g => ?_
  · refine mapEach E.ref (Prod.map id E.ref) (fun r => ?_) _
    refine bind (scoreOf r) fun v => ?_
    exact pure rfl
  · rw [sortByKey_map (Prod.map id E.ref) (fun p => p.1) _ (fun _ => rfl)]
    simp [Emb.ga, Function.comp_def]

theorem sortByRank : Hom E id (BaumEva.sortByRank : M σ Unit) BaumEva.sortByRank := by
  refine bind getGa fun ga => bind (v := List.map (Prod.map id E.ref)) ?_ fun keyed => modGa fun g => ?_
  · refine mapEach E.ref (Prod.map id E.ref) (fun r => ?_) _
    refine bind (rankOf r) fun v => ?_
    exact pure rfl
  · rw [sortByKey_map (Prod.map id E.ref) (fun p => p.1) _ (fun _ => rfl)]
    simp [Emb.ga, Function.comp_def]

/-! ## Fitness -/

theorem newFitness (t : Task σ) : Hom E id (BaumEva.newFitness t) (BaumEva.newFitness t) := by
  refine bind getS fun s => ?_
  simp only [Emb.st_conds]
  cases t.penalty with
  | none => exact pure rfl
  | some _ =>
    exact ite Iff.rfl (fun _ => pure rfl) fun _ => ite Iff.rfl (fun _ => pure rfl) fun _ =>
      ite Iff.rfl (fun _ => bind (modifyS fun _ => rfl) fun _ => pure rfl) fun _ => throwE _

theorem callObj (f : List Val → Except PyErr Ret) (g : List Val) :
    Hom E id (BaumEva.callObj f g : M σ Ret) (BaumEva.callObj f g) :=
  bind (modifyS fun s => by simp [Emb.st]) fun _ => liftE

theorem calcObj (fit : Fit σ) (g : List Val) : Hom E id (BaumEva.calcObj fit g) (BaumEva.calcObj fit g) :=
  bind (callObj _ _) fun _ => liftE

theorem feasLoop (r : Nat) : ∀ (cs : List Cond) (vs : List ℚ),
    Hom E id (BaumEva.feasLoop r cs vs : M σ Unit) (BaumEva.feasLoop (E.ref r) cs vs)
  | _, [] => by unfold BaumEva.feasLoop; exact unit
  | [], _ :: _ => throwE _
  | c :: cs, v :: vs =>
    bind (ite Iff.rfl (fun _ => unit) fun _ => modInd r _) fun _ => feasLoop r cs vs

theorem bestArg (s : St σ) : BaumEva.bestArg (E.st s) = BaumEva.bestArg s := by
  unfold BaumEva.bestArg
  simp only [Emb.st_ga, Emb.ga_best]
  rcases s.ga.best with _ | ⟨r, g⟩ | ⟨f, g⟩ <;> simp

theorem evalCond (fit : Fit σ) (r : Nat) (vs : List ℚ) :
    Hom E id (BaumEva.evalCond fit r vs) (BaumEva.evalCond fit (E.ref r) vs) := by
  refine bind liftE fun pr => bind (modInd r _) fun _ => bind (feasLoop r _ _) fun _ => bind getS fun s => ?_
  rw [bestArg]
  cases fit.task.penalty with
  | none => exact throwE _
  | some p => exact liftE

theorem evalValues (fit : Fit σ) (r : Nat) (v : Option Ret) :
    Hom E id (BaumEva.evalValues fit r v) (BaumEva.evalValues fit (E.ref r) v) := by
  refine ite Iff.rfl (fun _ => ?_) fun _ => bind (modInd r _) fun _ => pure rfl
  rcases v with _ | (_ | vs)
  · exact throwE _
  · exact throwE _
  · exact evalCond fit r vs

theorem evalInd (fit : Fit σ) (r : Nat) :
    Hom E id (BaumEva.evalInd fit r) (BaumEva.evalInd fit (E.ref r)) := by
  refine bind (getInd r) fun ind => ?_
  dsimp only [id]
  cases ind.score with
  | some _ => exact unit
  | none =>
    exact bind (genoOf r) fun g => bind (calcObj fit g) fun v => bind (evalValues fit r v) fun pen =>
      bind (getInd r) fun ind => bind liftE fun sc => modInd r _

theorem baseFitnessExec (fit : Fit σ) : Hom E id (BaumEva.baseFitnessExec fit) (BaumEva.baseFitnessExec fit) :=
  bind getGa fun _ => ite Iff.rfl
    (fun _ => bind getPhenotype fun _ => bind swapPop fun _ => bind (forEach E.ref (evalInd fit) _) fun _ => swapPop)
    fun _ => forEach E.ref (evalInd fit) _

theorem objVector (t : Task σ) (r : Nat) :
    Hom E id (BaumEva.objVector t r) (BaumEva.objVector t (E.ref r)) := by
  refine bind (getInd r) fun ind => ?_
  dsimp only [id]
  cases ind.phenotype with
  | none => exact throwE _
  | some p =>
    refine bind (callObj _ _) fun v => ?_
    cases v with
    | tup l => exact pure rfl
    | sc _ => exact throwE _

theorem rankPair (t : Task σ) (x y : Nat) :
    Hom E id (BaumEva.rankPair t x y) (BaumEva.rankPair t (E.ref x) (E.ref y)) := by
  refine bind (objVector t x) fun _ => bind (objVector t y) fun _ => bind liftE fun i => ?_
  rcases i with _ | (_ | _)
  · exact unit
  · exact modInd y _
  · exact modInd x _

theorem rankLoop (t : Task σ) : ∀ l, Hom E id (BaumEva.rankLoop t l) (BaumEva.rankLoop t (l.map E.ref))
  | [] => unit
  | x :: xs => bind (forEach E.ref (rankPair t x) xs) fun _ => rankLoop t xs

theorem assignRanks (t : Task σ) : Hom E id (BaumEva.assignRanks t) (BaumEva.assignRanks t) :=
  bind getGa fun _ => bind (forEach E.ref (fun r => modInd r _) _) fun _ => rankLoop t _

theorem multiFitnessExec (fit : Fit σ) :
    Hom E id (BaumEva.multiFitnessExec fit) (BaumEva.multiFitnessExec fit) :=
  bind ensurePhenotype fun _ => bind (assignRanks _) fun _ => baseFitnessExec fit

/-! ## Selections -/

theorem baseSelection : Hom E id (BaumEva.baseSelection : M σ Unit) BaumEva.baseSelection :=
  bind resetIdx fun _ => bind newPopulation fun _ => modGa fun _ => rfl

theorem addParent (r : Nat) : Hom E id (BaumEva.addParent r : M σ Unit) (BaumEva.addParent (E.ref r)) :=
  bind (getInd r) fun _ => bind (alloc _) fun _ => modGa fun _ => by simp [Emb.ga]

theorem popAt (i : Int) : Hom E E.ref (BaumEva.popAt i : M σ Nat) (BaumEva.popAt i) := by
  refine bind getGa fun ga => ?_
  rw [Emb.ga_population, pyGet?_map]
  cases pyGet? ga.population i with
  | none => exact throwE _
  | some r => exact pure rfl

section keyed
variable {κ : Type} [LinearOrder κ] (key : Ind σ → Except PyErr κ)

theorem getBestLoop : ∀ (is : List Nat) (b : Nat),
    Hom E E.ref (BaumEva.getBestLoop key b is) (BaumEva.getBestLoop key (E.ref b) is)
  | [], _ => pure rfl
  | i :: is, b => by
    refine bind (popAt _) fun r => bind (getInd r) fun x => bind (getInd b) fun y => bind liftE fun kx =>
      bind liftE fun kb => ?_
    have := getBestLoop is (if kb < kx then r else b)
    rw [apply_ite E.ref] at this
    exact this

theorem getBest : ∀ is, Hom E E.ref (BaumEva.getBest key is) (BaumEva.getBest key is)
  | [] => throwE _
  | _ :: is => bind (popAt _) fun r => getBestLoop key is r

theorem oneTournament (size : Int) :
    Hom E E.ref (BaumEva.oneTournament key size) (BaumEva.oneTournament key size) := by
  refine bind getGa fun ga => ?_
  rw [Emb.ga_population, List.length_map]
  exact bind (sample_id _ _) fun t => getBest key t

theorem secondParent (size : Int) (first : Nat) : ∀ f f' : Nat, f ≤ f' → (E.more = [] → f' = f) →
    Hom E E.ref (BaumEva.secondParent key size first f) (BaumEva.secondParent key size (E.ref first) f')
  | 0, f', _, h => by
    intro s hs
    rcases hs with hs | hs
    · rw [h hs]; rfl
    · exact absurd rfl hs
  | f + 1, 0, h, _ => by omega
  | f + 1, f' + 1, h, h2 =>
    bind (oneTournament key size) fun _ => bind (getInd _) fun _ => bind (getInd _) fun _ =>
      ite Iff.rfl (fun _ => pure rfl) fun _ =>
        secondParent size first f f' (by omega) (fun e => by have := h2 e; omega)

theorem tournamentPair (size : Int) :
    Hom E id (BaumEva.tournamentPair key size) (BaumEva.tournamentPair key size) :=
  bind (oneTournament key size) fun a => bind getS fun s =>
    bind (secondParent key size a _ _ (by simp) (fun e => by simp [e])) fun _ =>
      bind (addParent a) fun _ => addParent _

theorem tournament (size : Int) (m : Nat) :
    Hom E id (BaumEva.tournament key size m) (BaumEva.tournament key size m) :=
  bind getGa fun _ => forEach_id (fun _ => tournamentPair key size) _

end keyed

theorem checkTournament (size : Int) :
    Hom E id (BaumEva.checkTournament size : M σ Unit) (BaumEva.checkTournament size) :=
  bind getGa fun _ => ite Iff.rfl (fun _ => throwE _) fun _ => unit

theorem tournamentExec [LinearOrder σ] (size : Int) :
    Hom E id (BaumEva.tournamentExec size : M σ Unit) (BaumEva.tournamentExec size) :=
  bind (checkTournament size) fun _ => bind baseSelection fun _ => tournament _ size 1

theorem getIndex (sel : List ℚ) : Hom E id (BaumEva.getIndex sel : M σ Int) (BaumEva.getIndex sel) :=
  bind getGa fun _ => bind random01 fun _ => pure rfl

theorem secondIndex (sel : List ℚ) (first : Int) : ∀ f f' : Nat, f ≤ f' → (E.more = [] → f' = f) →
    Hom E id (BaumEva.secondIndex sel first f : M σ Int) (BaumEva.secondIndex sel first f')
  | 0, f', _, h => by
    intro s hs
    rcases hs with hs | hs
    · rw [h hs]; rfl
    · exact absurd rfl hs
  | f + 1, 0, h, _ => by omega
  | f + 1, f' + 1, h, h2 =>
    bind (getIndex sel) fun _ => ite Iff.rfl (fun _ => pure rfl) fun _ =>
        secondIndex sel first f f' (by omega) (fun e => by have := h2 e; omega)

theorem roulettePair (sel : List ℚ) :
    Hom E id (BaumEva.roulettePair sel : M σ Unit) (BaumEva.roulettePair sel) :=
  bind (getIndex sel) fun _ => bind getS fun _ =>
    bind (secondIndex sel _ _ _ (by simp) (fun e => by simp [e])) fun _ =>
      bind (popAt _) fun _ => bind (addParent _) fun _ => bind (popAt _) fun _ => addParent _

theorem roulette (sel : List ℚ) (m : Nat) :
    Hom E id (BaumEva.roulette sel m : M σ Unit) (BaumEva.roulette sel m) :=
  bind getGa fun _ => forEach_id (fun _ => roulettePair sel) _

theorem weights (w : Ind σ → Except PyErr ℚ) : Hom E id (BaumEva.weights w) (BaumEva.weights w) :=
  bind getGa fun _ => mapEach_ref (v := E.ref) (fun r => bind (getInd r) fun _ => liftE) _

theorem balancedWith {pre : M σ Unit} (h : Hom E id pre pre) (w : Ind σ → Except PyErr ℚ) (m : Nat) :
    Hom E id (BaumEva.balancedWith pre w m) (BaumEva.balancedWith pre w m) :=
  bind baseSelection fun _ => bind h fun _ => bind (weights w) fun _ => bind getGa fun _ => bind liftE fun _ => roulette _ m

theorem writeTies (f : ℚ → Ind σ → Ind σ) (a b : Int) (n : Nat) :
    Hom E id (BaumEva.writeTies f a b n) (BaumEva.writeTies f a b n) :=
  bind getGa fun _ => forEach_id (fun _ => bind (popAt _) fun r => modInd r _) _

theorem rankedStep (f : ℚ → Ind σ → Ind σ) (n idx : Nat) (sc prev : ℚ) (count : Nat) :
    Hom E id (BaumEva.rankedStep f n idx sc prev count) (BaumEva.rankedStep f n idx sc prev count) :=
  ite Iff.rfl
    (fun _ => ite Iff.rfl (fun _ => bind (writeTies f _ _ _) fun _ => pure rfl) fun _ => pure rfl)
    fun _ => ite Iff.rfl (fun _ => bind (writeTies f _ _ _) fun _ => pure rfl) fun _ => pure rfl

theorem rankedLoop (key : Ind σ → Except PyErr ℚ) (f : ℚ → Ind σ → Ind σ) (n : Nat) :
    ∀ k idx prev count,
      Hom E id (BaumEva.rankedLoop key f n k idx prev count) (BaumEva.rankedLoop key f n k idx prev count)
  | 0, _, _, _ => unit
  | k + 1, _, _, _ =>
    bind (popAt _) fun r => bind (modInd r _) fun _ => bind (getInd r) fun _ => bind liftE fun _ =>
      bind (rankedStep f _ _ _ _ _) fun _ => rankedLoop key f n k _ _ _

theorem assignRanked (key : Ind σ → Except PyErr ℚ) (f : ℚ → Ind σ → Ind σ) :
    Hom E id (BaumEva.assignRanked key f) (BaumEva.assignRanked key f) := by
  refine bind getGa fun ga => ?_
  rw [Emb.ga_population, List.length_map]
  exact rankedLoop key f _ _ _ _ _

theorem selExec {E : Emb ℚ} : ∀ sel, Hom E id (BaumEva.selExec sel) (BaumEva.selExec sel)
  | .tournament size => tournamentExec size
  | .balanced => balancedWith unit _ 1
  | .ranked => balancedWith (assignRanked _ _) _ 1

theorem vegaTournamentExec {E : Emb (List ℚ)} (m : Nat) (size : Int) :
    Hom E id (BaumEva.vegaTournamentExec m size) (BaumEva.vegaTournamentExec m size) :=
  bind (checkTournament size) fun _ => bind baseSelection fun _ => forEach_id (fun _ => tournament _ size m) _

theorem vegaSelExec {E : Emb (List ℚ)} (m : Nat) :
    ∀ sel, Hom E id (BaumEva.vegaSelExec m sel) (BaumEva.vegaSelExec m sel)
  | .tournament size => vegaTournamentExec m size
  | .balanced => forEach_id (fun _ => balancedWith unit _ m) _
  | .ranked => bind getGa fun _ => bind (forEach E.ref (fun r => modInd r _) _) fun _ =>
      forEach_id (fun _ => balancedWith (assignRanked _ _) _ m) _

/-! ## Crossovers -/

theorem segmentPoints (lo len : Nat) :
    Hom E id (BaumEva.segmentPoints lo len : M σ (Nat × Nat)) (BaumEva.segmentPoints lo len) := by
  refine bind (sample_id _ _) fun l => ?_
  dsimp only [id]
  rcases l with _ | ⟨i, _ | ⟨j, _ | ⟨k, l⟩⟩⟩
  · exact throwE _
  · exact throwE _
  · exact pure rfl
  · exact throwE _

theorem uniformLoop (p1 p2 : List Val) : ∀ i n,
    Hom E id (BaumEva.uniformLoop p1 p2 i n : M σ (List Val)) (BaumEva.uniformLoop p1 p2 i n)
  | _, 0 => by unfold BaumEva.uniformLoop; exact pure rfl
  | i, n + 1 => by
    unfold BaumEva.uniformLoop
    refine bind (randint _ _) fun coin => ?_
    dsimp only [id]
    cases (if coin = 1 then p1 else p2)[i]? with
    | none => exact throwE _
    | some v => exact bind (uniformLoop p1 p2 _ n) fun _ => pure rfl

theorem crossGeno (op : CrossOp) (len : Nat) (p1 p2 : List Val) :
    Hom E id (BaumEva.crossGeno op len p1 p2 : M σ _) (BaumEva.crossGeno op len p1 p2) := by
  cases op with
  | onePoint => exact bind (randint _ _) fun _ => pure rfl
  | twoPoint => exact bind (segmentPoints _ _) fun _ => pure rfl
  | uniform => exact bind (uniformLoop _ _ _ _) fun _ => pure rfl
  | order => exact bind (segmentPoints _ _) fun _ => pure rfl

theorem getChild (op : CrossOp) (len : Nat) (p1 p2 : List Val) :
    Hom E E.ref (BaumEva.getChild op len p1 p2 : M σ Nat) (BaumEva.getChild op len p1 p2) :=
  bind (crossGeno op len p1 p2) fun _ => bind (randint _ _) fun _ => alloc _

theorem crossPairs (op : CrossOp) (len : Nat) : ∀ l,
    Hom E id (BaumEva.crossPairs op len l : M σ Unit) (BaumEva.crossPairs op len (l.map E.ref))
  | [] => unit
  | [_] => throwE _
  | a :: b :: rest =>
    bind (genoOf a) fun _ => bind (genoOf b) fun _ => bind (getChild op len _ _) fun _ =>
      bind (modGa fun _ => by simp [Emb.ga]) fun _ => crossPairs op len rest

theorem crossExec (op : CrossOp) : Hom E id (BaumEva.crossExec op : M σ Unit) (BaumEva.crossExec op) := by
  refine bind getGa fun ga => ?_
  rw [Emb.ga_population]
  cases ga.population with
  | nil => exact throwE _
  | cons r0 rs =>
    exact bind (genoOf r0) fun _ => bind newPopulation fun _ => bind (modGa fun _ => rfl) fun _ =>
      crossPairs op _ _

/-! ## Mutations -/

theorem determinesMutation (lvl : MutLvl) :
    Hom E id (BaumEva.determinesMutation lvl : M σ Bool) (BaumEva.determinesMutation lvl) := by
  refine bind (randint _ _) fun d => ?_
  cases lvl with
  | float q => exact pure rfl
  | str _ => exact throwE _
  | other => exact throwE _

theorem mutateComb (op : MutOp) (g : List Val) :
    Hom E id (BaumEva.mutateComb op g : M σ (List Val)) (BaumEva.mutateComb op g) := by
  cases op with
  | inversion => exact bind (segmentPoints _ _) fun _ => pure rfl
  | movement =>
    refine bind (sample_id _ _) fun l => ?_
    dsimp only [id]
    rcases l with _ | ⟨i, _ | ⟨j, _ | ⟨k, l⟩⟩⟩
    · exact throwE _
    · exact throwE _
    · exact pure rfl
    · exact throwE _
  | swap =>
    refine bind (sample_id _ _) fun l => ?_
    dsimp only [id]
    rcases l with _ | ⟨i, _ | ⟨j, _ | ⟨k, l⟩⟩⟩
    · exact throwE _
    · exact throwE _
    · exact pure rfl
    · exact throwE _
  | shift => exact bind (randint _ _) fun _ => bind (randint _ _) fun _ => bind (choice _) fun _ => pure rfl
  | binString => exact pure rfl
  | categorical => exact pure rfl

theorem mutateBits (lvl : MutLvl) : ∀ l,
    Hom E id (BaumEva.mutateBits lvl l : M σ (List Val)) (BaumEva.mutateBits lvl l)
  | [] => pure rfl
  | _ :: xs => bind (determinesMutation lvl) fun _ => bind (mutateBits lvl xs) fun _ => pure rfl

theorem mutateCatGene (p : CatGene) (x : Val) :
    Hom E id (BaumEva.mutateCatGene p x : M σ Val) (BaumEva.mutateCatGene p x) := by
  cases p with
  | values l => exact ite Iff.rfl (fun _ => choice _) fun _ => pure rfl
  | range lo hi step =>
    exact ite Iff.rfl (fun _ => throwE _) fun _ => ite Iff.rfl (fun _ => choice _) fun _ => pure rfl
  | other => exact throwE _

theorem mutateCatAt (lvl : MutLvl) (pools : List CatGene) (x : Val) :
    Hom E id (BaumEva.mutateCatAt lvl pools x : M σ Val) (BaumEva.mutateCatAt lvl pools x) := by
  refine bind (determinesMutation lvl) fun m => ite Iff.rfl (fun _ => ?_) fun _ => pure rfl
  cases pools with
  | nil => exact throwE _
  | cons p _ => exact mutateCatGene p x

theorem mutateCat (lvl : MutLvl) : ∀ pools l,
    Hom E id (BaumEva.mutateCat lvl pools l : M σ (List Val)) (BaumEva.mutateCat lvl pools l)
  | _, [] => by unfold BaumEva.mutateCat; exact pure rfl
  | pools, x :: xs => by
    unfold BaumEva.mutateCat
    exact bind (mutateCatAt lvl pools x) fun _ => bind (mutateCat lvl pools.tail xs) fun _ => pure rfl

theorem mutateChild (op : MutOp) (r : Nat) :
    Hom E id (BaumEva.mutateChild op r : M σ Unit) (BaumEva.mutateChild op (E.ref r)) := by
  refine bind getS fun s => ?_
  cases op with
  | binString => exact bind (genoOf r) fun _ => bind (mutateBits _ _) fun _ => modInd r _
  | categorical =>
    refine bind (genoOf r) fun _ => ?_
    simp only [Emb.st_ga, Emb.ga_attrs]
    cases s.ga.attrs.spec with
    | cat pools => exact bind (mutateCat _ _ _) fun _ => modInd r _
    | orderCat _ _ _ => exact throwE _
    | binary _ _ => exact throwE _
  | _ =>
    refine bind (determinesMutation _) fun m => ?_
    dsimp only [id]
    exact ite Iff.rfl (fun _ => bind (genoOf r) fun _ => bind (mutateComb _ _) fun _ => modInd r _) fun _ => unit

theorem mutExec (op : MutOp) : Hom E id (BaumEva.mutExec op : M σ Unit) (BaumEva.mutExec op) := by
  refine bind getS fun s => ?_
  cases op with
  | binString =>
    simp only [Emb.st_ga, Emb.ga_attrs]
    cases s.ga.attrs.spec with
    | binary _ _ =>
      exact bind liftE fun _ => bind (modifyS fun _ => rfl) fun _ => forEach E.ref (mutateChild _) _
    | cat _ => exact throwE _
    | orderCat _ _ _ => exact throwE _
  | _ => exact forEach E.ref (mutateChild _) _

theorem newMutation (op : MutOp) (lvl : MutLvl) :
    Hom E id (BaumEva.newMutation op lvl : M σ Unit) (BaumEva.newMutation op lvl) :=
  bind liftE fun _ => modifyS fun _ => rfl

/-! ## Next generation -/

theorem lastN_map {α β : Type} (v : α → β) (l : List α) (k : Nat) : lastN (l.map v) k = (lastN l k).map v := by
  simp [lastN, List.map_drop]

theorem delDupRev_map {α : Type} [DecidableEq α] (v : Nat → Nat) : ∀ l : List (α × Nat),
    delDupRev (l.map (Prod.map id v)) = (delDupRev l).map (Prod.map id v)
  | [] => rfl
  | x :: xs => by
    simp only [List.map_cons, delDupRev, List.any_map, List.eraseP_map, Function.comp_def, Prod.map_fst, id]
    split
    · rfl
    · rw [delDupRev_map v xs]; rfl

theorem withGeno (rs : List Nat) :
    Hom E (List.map (Prod.map id E.ref)) (BaumEva.withGeno rs : M σ _) (BaumEva.withGeno (rs.map E.ref)) := by
  refine mapEach E.ref (Prod.map id E.ref) (fun r => ?_) _
  refine bind (genoOf r) fun g => ?_
  exact pure rfl

theorem addBest (n : Nat) : Hom E (List.map E.ref) (BaumEva.addBest n : M σ _) (BaumEva.addBest n) := by
  refine bind getGa fun ga => ?_
  simp only [Emb.ga_population, lastN_map]
  refine bind (isDuplicate _) fun dup => ite Iff.rfl (fun _ => ?_) fun _ => pure rfl
  refine bind (withGeno _) fun keyed => ?_
  simp only [← List.map_reverse, delDupRev_map, List.map_map, List.length_map]
  exact bind (sample _ _ _) fun _ => pure (by simp [Function.comp_def])

theorem resample (n : Nat) (pool : List Nat) : ∀ (k : Nat) (e : List Nat),
    Hom E (List.map E.ref) (BaumEva.resample pool n k e : M σ _)
      (BaumEva.resample (pool.map E.ref) n k (e.map E.ref))
  | 0, _ => pure rfl
  | k + 1, e => bind (isDuplicate e) fun _ =>
      ite Iff.rfl (fun _ => bind (sample _ _ _) fun _ => resample n pool k _) fun _ => pure rfl

theorem addRandom (n : Nat) : Hom E (List.map E.ref) (BaumEva.addRandom n : M σ _) (BaumEva.addRandom n) := by
  refine bind getGa fun ga => ?_
  simp only [Emb.ga_population, Emb.ga_children, ← List.map_dropLast, List.length_map, List.getLast?_map]
  refine bind (sample _ _ _) fun _ => bind (resample _ _ _ _) fun e => ?_
  cases ga.population.getLast? with
  | none => exact throwE _
  | some r => exact pure (by simp)

theorem frontPrefix (rs : List Nat) :
    Hom E (List.map E.ref) (BaumEva.frontPrefix rs : M σ _) (BaumEva.frontPrefix (rs.map E.ref)) := by
  intro s _
  simp [BaumEva.frontPrefix, Except.map, List.takeWhile_map, Function.comp_def]

theorem installPop (e : List Nat) :
    Hom E id (BaumEva.installPop e : M σ Unit) (BaumEva.installPop (e.map E.ref)) :=
  modGa fun _ => by simp [Emb.ga]

theorem chooseElites (tr : Transfer) (n : Nat) :
    Hom E (List.map E.ref) (BaumEva.chooseElites tr n : M σ _) (BaumEva.chooseElites tr n) := by
  cases tr
  · exact addBest n
  · exact addRandom n

theorem ensureSorted [LinearOrder σ] : Hom E id (BaumEva.ensureSorted : M σ Unit) BaumEva.ensureSorted :=
  bind getGa fun _ => ite Iff.rfl (fun _ => unit) fun _ => sortByScore

theorem newGenExec [LinearOrder σ] (tr : Transfer) :
    Hom E id (BaumEva.newGenExec tr : M σ Unit) (BaumEva.newGenExec tr) := by
  refine bind ensureSorted fun _ => bind getGa fun ga => ?_
  simp only [Emb.ga_population, Emb.ga_children, List.length_map, List.getLast?_map, Emb.ga_attrs]
  refine ite Iff.rfl (fun _ => bind (chooseElites _ _) fun _ => installPop _) fun _ => ?_
  cases ga.population.getLast? with
  | none => exact throwE _
  | some r => exact installPop [r]

theorem chooseFront (tr : Transfer) :
    Hom E (List.map E.ref) (BaumEva.chooseFront tr : M σ _) (BaumEva.chooseFront tr) := by
  refine bind getGa fun ga => ?_
  cases tr
  · exact frontPrefix _
  · exact addRandom 10

theorem multiNewGenExec (tr : Transfer) :
    Hom E id (BaumEva.multiNewGenExec tr : M σ Unit) (BaumEva.multiNewGenExec tr) :=
  bind ensurePhenotype fun _ => bind (chooseFront tr) fun _ => installPop _

/-! ## Bookkeeping -/

theorem snapshot : Hom E id (BaumEva.snapshot : M σ Unit) BaumEva.snapshot :=
  modifyS fun s => by simp [Emb.st, Function.comp_def]

theorem recordScores : Hom E id (BaumEva.recordScores : M σ Unit) BaumEva.recordScores := by
  refine bind getGa fun ga => ?_
  simp only [Emb.ga_population, List.getLast?_map, List.length_map, List.getElem?_map, List.head?_map]
  cases ga.population.getLast? with
  | none => exact throwE _
  | some rb =>
    cases ga.population[ga.population.length / 2]? with
    | none => exact throwE _
    | some rm =>
      cases ga.population.head? with
      | none => exact throwE _
      | some rw =>
        exact bind (scoreOf rb) fun _ => bind (scoreOf rm) fun _ => bind (scoreOf rw) fun _ =>
          modGa fun _ => rfl

theorem replaceBest (r : Nat) : Hom E id (BaumEva.replaceBest r : M σ Unit) (BaumEva.replaceBest (E.ref r)) :=
  bind (getInd r) fun _ => bind (alloc _) fun _ => modGa fun _ => rfl

theorem decideBest [LinearOrder σ] (r : Nat) :
    Hom E id (BaumEva.decideBest r : M σ Unit) (BaumEva.decideBest (E.ref r)) := by
  refine bind getGa fun ga => ?_
  rw [Emb.ga_best]
  rcases ga.best with _ | ⟨b, g⟩ | ⟨f, g⟩
  · exact replaceBest r
  · exact bind (scoreOf b) fun _ => bind (scoreOf r) fun _ => ite Iff.rfl
      (fun _ => bind (replaceBest r) fun _ => modGa fun _ => rfl) fun _ => modGa fun _ => rfl
  · exact throwE _

theorem gaUpdate [LinearOrder σ] : Hom E id (BaumEva.gaUpdate : M σ Unit) BaumEva.gaUpdate := by
  refine bind ensureSorted fun _ => bind recordScores fun _ => bind getGa fun ga => ?_
  simp only [Emb.ga_population, List.getLast?_map]
  cases ga.population.getLast? with
  | none => exact throwE _
  | some r => exact bind (decideBest r) fun _ => bind (modGa fun _ => rfl) fun _ => snapshot

theorem initFront : Hom E id (BaumEva.initFront : M σ Unit) BaumEva.initFront := by
  refine bind getGa fun ga => ?_
  rw [Emb.ga_best]
  cases ga.best with
  | none => exact modGa fun _ => rfl
  | some _ => exact unit

theorem copyAll (rs : List Nat) :
    Hom E (List.map E.ref) (BaumEva.copyAll rs : M σ _) (BaumEva.copyAll (rs.map E.ref)) :=
  mapEach E.ref E.ref (fun r => bind (getInd r) fun _ => alloc _) _

theorem decideFront [DecidableEq σ] (front : List Nat) :
    Hom E id (BaumEva.decideFront front : M σ Unit) (BaumEva.decideFront (front.map E.ref)) := by
  refine bind getS fun s => ?_
  simp only [Emb.st_ga, Emb.ga_best, Emb.st_heap]
  rcases s.ga.best with _ | ⟨b, g⟩ | ⟨f, g⟩
  · exact throwE _
  · exact throwE _
  · exact ite (by simp [Function.comp_def]) (fun _ => modGa fun _ => rfl)
      fun _ => bind (copyAll front) fun _ => modGa fun _ => rfl

theorem ensureRankSorted : Hom E id (BaumEva.ensureRankSorted : M σ Unit) BaumEva.ensureRankSorted :=
  bind getGa fun _ => ite Iff.rfl (fun _ => unit) fun _ => sortByRank

theorem multiUpdate [DecidableEq σ] : Hom E id (BaumEva.multiUpdate : M σ Unit) BaumEva.multiUpdate :=
  bind ensureRankSorted fun _ => bind getGa fun _ => bind (frontPrefix _) fun _ =>
    bind (modGa fun _ => by simp [Emb.ga]) fun _ => bind initFront fun _ => bind (decideFront _) fun _ =>
      bind (modGa fun _ => rfl) fun _ => snapshot

/-! ## Whole runs -/

/-- All components of `ops`. -/
structure _root_.BaumEva.Ops.Homs (E : Emb σ) (ops : Ops σ) : Prop where
  fitness : Hom E id ops.fitness ops.fitness
  update : Hom E id ops.update ops.update
  selection : Hom E id ops.selection ops.selection
  crossover : Hom E id ops.crossover ops.crossover
  mutation : Hom E id ops.mutation ops.mutation
  newGen : Hom E id ops.newGen ops.newGen

variable {ops : Ops σ}

theorem generation (h : ops.Homs E) : Hom E id (BaumEva.generation ops) (BaumEva.generation ops) :=
  bind h.selection fun _ => bind h.crossover fun _ => bind h.mutation fun _ => bind h.newGen fun _ =>
    bind h.fitness fun _ => h.update

theorem mainLoop (h : ops.Homs E) : ∀ n, Hom E id (BaumEva.mainLoop ops n) (BaumEva.mainLoop ops n)
  | 0 => unit
  | n + 1 => by
    refine bind (generation h) fun _ => bind getGa fun ga => ?_
    simp only [Emb.ga_earlyStop, Emb.ga_noImprove]
    cases ga.earlyStop with
    | none => exact throwE _
    | some e => exact ite Iff.rfl (fun _ => unit) fun _ => mainLoop h n

theorem evolve (h : ops.Homs E) : Hom E id (BaumEva.evolve ops) (BaumEva.evolve ops) :=
  bind h.fitness fun _ => bind h.update fun _ => bind getGa fun _ => mainLoop h _

theorem printBest : Hom E id (BaumEva.printBest : M σ Unit) BaumEva.printBest := by
  refine bind getS fun s => ?_
  simp only [Emb.st_ga, Emb.ga_best, Emb.st_heap]
  rcases s.ga.best with _ | ⟨b, g⟩ | ⟨f, _ | g⟩
  · exact throwE _
  · exact unit
  · exact throwE _
  · exact ite (by simp) (fun _ => unit) fun _ => throwE _

theorem newGaData (n : Nat) (cp : ℚ) (e : Option Int) (ar : Arith) :
    Hom E id (BaumEva.newGaData n cp e ar : M σ Unit) (BaumEva.newGaData n cp e ar) := modifyS fun _ => rfl

theorem facade (c : Cfg) (spec : PopSpec) (task : Task σ) {fitExec : Fit σ → M σ Unit} {update selection : M σ Unit}
    (cross : CrossOp) (mutOp : MutOp) {newGen : Transfer → M σ Unit}
    (hf : ∀ fit, Hom E id (fitExec fit) (fitExec fit)) (hu : Hom E id update update)
    (hs : Hom E id selection selection) (hn : ∀ tr, Hom E id (newGen tr) (newGen tr)) :
    Hom E id (BaumEva.facade c spec task fitExec update selection cross mutOp newGen)
      (BaumEva.facade c spec task fitExec update selection cross mutOp newGen) :=
  bind (newGaData _ _ _ _) fun _ => bind newPopulation fun _ => bind (setParams _ _ _) fun _ =>
    bind (newFitness _) fun _ => bind (newMutation _ _) fun _ => bind liftE fun _ => bind (fill _) fun _ =>
      bind (evolve ⟨hf _, hu, hs, crossExec _, mutExec _, hn _⟩) fun _ =>
        ite Iff.rfl (fun _ => printBest) fun _ => unit

end Hom
end
end BaumEva
