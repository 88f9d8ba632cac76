import Verif.Model.Py
import Mathlib.Data.Nat.Digits.Defs
/-!
# Populations

Models `baumeva/ga/populations/*.py`.
-/
namespace BaumEva

/-! ## Bit budget (binary_population.py:39-49) -/

/-- The loop `while (2 ** n - 1) < num_points: n += 1` (binary_population.py:45-47) with explicit fuel. -/
def bitsLoop (k : Int) : Nat → Nat → Nat
  | 0, n => n
  | f + 1, n => if (2 : Int) ^ n - 1 < k then bitsLoop k f (n + 1) else n

/-- `get_real_number_of_points` (binary_population.py:40-49).  The fuel `num_points` never stops the
loop early (`2 ** n - 1 ≥ n`; proved as `bitsLoop_spec`). -/
def realNumberOfPoints (k : Int) : Nat × Nat :=
  let n := bitsLoop k k.toNat 0
  (n, 2 ^ n - 1)

/-! ## Index coding -/

/-- A character of `bin(value)` as gene value. -/
def digitVal (d : Nat) : Val := if d = 0 then bit0 else bit1

/-- `bin(value)[2:]` for `value ≥ 0`, most significant digit first (binary_population.py:71). -/
def binStr (v : Nat) : List Val :=
  if v = 0 then [bit0] else ((Nat.digits 2 v).reverse).map digitVal

/-- `BinaryPopulation.index_to_binary` (binary_population.py:66-76). -/
def indexToBinary (v n : Nat) : Except PyErr (List Val) :=
  if n < (binStr v).length then .error .exception
  else if (binStr v).length < n then .ok (List.replicate (n - (binStr v).length) bit0 ++ binStr v)
  else .ok (binStr v)

/-- `get_gray_value` (binary_gray_population.py:6-12). -/
def grayValue (v : Nat) : Nat := v ^^^ (v >>> 1)

/-- The loop of `get_index_from_gray` (binary_gray_population.py:21-25) with explicit fuel. -/
def grayLoop : Nat → Nat → Nat → Nat
  | 0, real, _ => real
  | f + 1, real, g => if 0 < g then grayLoop f (real ^^^ g) (g >>> 1) else real

/-- `get_index_from_gray` (binary_gray_population.py:14-25).  The fuel `gray_value` never stops the loop
early, because the value at least halves (proved as `grayLoop_fuel`). -/
def indexFromGray (g : Nat) : Nat := grayLoop g 0 g

/-- `index_to_binary` as dispatched on the class (binary_population.py:66, binary_gray_population.py:27-34). -/
def encodeIndex (gray : Bool) (v n : Nat) : Except PyErr (List Val) :=
  indexToBinary (if gray then grayValue v else v) n

/-- `int(s, 2)` where `s` is the join of one-character symbols: empty or non-binary strings raise
`ValueError` (binary_population.py:115).  Simplification: symbols are single characters, so joining and
slicing the string is slicing the list. -/
def binToNatAux : List Val → Nat → Except PyErr Nat
  | [], acc => .ok acc
  | x :: xs, acc =>
    if x = bit0 then binToNatAux xs (2 * acc)
    else if x = bit1 then binToNatAux xs (2 * acc + 1)
    else .error .valueError

@[inherit_doc binToNatAux]
def binToNat (l : List Val) : Except PyErr Nat :=
  if l.isEmpty then .error .valueError else binToNatAux l 0

/-- Index of a grid point from its symbols (binary_population.py:115; binary_gray_population.py:45-46). -/
def decodeIndex (gray : Bool) (l : List Val) : Except PyErr Nat := do
  let v ← binToNat l
  pure (if gray then indexFromGray v else v)

/-! ## Gene parameters -/

/-- One iteration of `get_gens_params` (binary_population.py:57-62). -/
def geneParams (g : BinGene) : Except PyErr GeneParams :=
  let genRange := |g.hi - g.lo|
  if g.step = 0 then .error .zeroDivision
  else
    let numPoints := pyInt (genRange / g.step)
    let r := realNumberOfPoints numPoints
    if (2 : ℚ) ^ r.1 - 1 = 0 then .error .zeroDivision
    else .ok { numBits := r.1, realNumPoints := r.2, realStep := genRange / ((2 : ℚ) ^ r.1 - 1) }

/-- `get_gens_params` (binary_population.py:51-63): the parameters of all genes and the running bit
offsets `idx_bits` (starting with the given last offset). -/
def gensParams : List BinGene → Nat → Except PyErr (List GeneParams × List Nat)
  | [], _ => .ok ([], [])
  | g :: gs, off => do
    let p ← geneParams g
    let r ← gensParams gs (off + p.numBits)
    pure (p :: r.1, (off + p.numBits) :: r.2)

/-! ## Coding of individuals -/

/-- The loop of `float_individ_to_binary` (binary_population.py:97-102).  `step_idx` is never negative
because out-of-range genes were rejected, so `.toNat` is exact. -/
def encodeGenes (gray : Bool) : List BinGene → List GeneParams → List Val → Except PyErr (List Val)
  | g :: gs, p :: ps, x :: xs =>
    match x with
    | .str _ => .error .typeError
    | .num q =>
      if q < g.lo ∨ g.hi < q then .error .exception
      else do
        let b ← encodeIndex gray (pyRound ((q - g.lo) / p.realStep)).toNat p.numBits
        let rest ← encodeGenes gray gs ps xs
        pure (b ++ rest)
  | _, _, _ => .ok []

/-- `float_individ_to_binary` (binary_population.py:88-104). -/
def encodeIndivid (gray : Bool) (gens : List BinGene) (ps : List GeneParams) (xs : List Val) :
    Except PyErr (List Val) :=
  if xs.length ≠ gens.length then .error .exception else encodeGenes gray gens ps xs

/-- Python slice `l[a:b]` for `0 ≤ a ≤ b`. -/
def slice {α : Type} (l : List α) (a b : Nat) : List α := (l.drop a).take (b - a)

/-- The loop of `binary_individ_to_float` (binary_population.py:114-117; binary_gray_population.py:44-48)
over the genes and the consecutive entries of `idx_bits`. -/
def decodeGenes (gray : Bool) (geno : List Val) :
    List BinGene → List GeneParams → List Nat → Except PyErr (List Val)
  | g :: gs, p :: ps, a :: b :: offs => do
    let i ← decodeIndex gray (slice geno a b)
    let rest ← decodeGenes gray geno gs ps (b :: offs)
    pure (.num (g.lo + (i : ℚ) * p.realStep) :: rest)
  | [], _, _ => .ok []
  | _, _, _ => .error .indexError

/-! ## The same in the arithmetic of the interpreter -/

section
variable (rnd : ℚ → ℚ)

/-- One iteration of `get_gens_params` (binary_population.py:57-62). -/
def geneParamsR (g : BinGene) : Except PyErr GeneParams :=
  let genRange := |rnd (g.hi - g.lo)|
  if g.step = 0 then .error .zeroDivision
  else
    let numPoints := pyInt (rnd (genRange / g.step))
    let r := realNumberOfPoints numPoints
    if (2 : ℚ) ^ r.1 - 1 = 0 then .error .zeroDivision
    else .ok { numBits := r.1, realNumPoints := r.2, realStep := rnd (genRange / rnd ((2 : ℚ) ^ r.1 - 1)) }

/-- `get_gens_params` (binary_population.py:51-63), as `gensParams`. -/
def gensParamsR : List BinGene → Nat → Except PyErr (List GeneParams × List Nat)
  | [], _ => .ok ([], [])
  | g :: gs, off => do
    let p ← geneParamsR rnd g
    let r ← gensParamsR gs (off + p.numBits)
    pure (p :: r.1, (off + p.numBits) :: r.2)

/-- `point = gen[0] + index_point * real_step` (binary_population.py:116, binary_gray_population.py:47). -/
def pointR (g : BinGene) (p : GeneParams) (i : Nat) : ℚ := rnd (g.lo + rnd (rnd i * p.realStep))

/-- `step_idx = round((gen_value - gen[0]) / real_step)` (binary_population.py:101). -/
def stepIdxR (g : BinGene) (p : GeneParams) (q : ℚ) : Int := pyRound (rnd (rnd (q - g.lo) / p.realStep))

/-- The loop of `float_individ_to_binary` (binary_population.py:97-102), as `encodeGenes`. -/
def encodeGenesR (gray : Bool) : List BinGene → List GeneParams → List Val → Except PyErr (List Val)
  | g :: gs, p :: ps, x :: xs =>
    match x with
    | .str _ => .error .typeError
    | .num q =>
      if q < g.lo ∨ g.hi < q then .error .exception
      else do
        let b ← encodeIndex gray (stepIdxR rnd g p q).toNat p.numBits
        let rest ← encodeGenesR gray gs ps xs
        pure (b ++ rest)
  | _, _, _ => .ok []

/-- `float_individ_to_binary` (binary_population.py:88-104). -/
def encodeIndividR (gray : Bool) (gens : List BinGene) (ps : List GeneParams) (xs : List Val) :
    Except PyErr (List Val) :=
  if xs.length ≠ gens.length then .error .exception else encodeGenesR rnd gray gens ps xs

/-- The loop of `binary_individ_to_float` (binary_population.py:114-117; binary_gray_population.py:44-48), as
`decodeGenes`. -/
def decodeGenesR (gray : Bool) (geno : List Val) :
    List BinGene → List GeneParams → List Nat → Except PyErr (List Val)
  | g :: gs, p :: ps, a :: b :: offs => do
    let i ← decodeIndex gray (slice geno a b)
    let rest ← decodeGenesR gray geno gs ps (b :: offs)
    pure (.num (pointR rnd g p i) :: rest)
  | [], _, _ => .ok []
  | _, _, _ => .error .indexError

end

/-- `binary_individ_to_float` (binary_population.py:106-118, binary_gray_population.py:36-49); only binary
populations have it (`AttributeError` otherwise). -/
def decodeIndivid (at_ : Attrs) (geno : List Val) : Except PyErr (List Val) :=
  match at_.spec with
  | .binary gray gens => decodeGenesR at_.arith.rnd gray geno gens at_.params at_.idxBits
  | _ => .error .attributeError

/-! ## Effects on the population object -/

section
variable {σ : Type}

/-- `add_dict` (base_population.py:58-67): append a new individual with `feasible = True`. -/
def addDict (geno : List Val) : M σ Unit := do
  let r ← alloc { genotype := some geno }
  modGa fun ga => { ga with population := ga.population ++ [r] }

/-- The loop of `reset_idx_individ` (base_population.py:75-78). -/
def resetIdxFrom : Nat → List Nat → M σ Unit
  | _, [] => pure ()
  | i, r :: rs => do
    modInd r fun ind => { ind with idx := some i }
    resetIdxFrom (i + 1) rs

/-- `reset_idx_individ` (base_population.py:69-78). -/
def resetIdx : M σ Unit := do
  let ga ← getGa
  resetIdxFrom 0 ga.population

/-- `get_phenotype` (binary_population.py:120-127). -/
def getPhenotype : M σ Unit := do
  let ga ← getGa
  forEach ga.population fun r => do
    let ind ← getInd r
    match ind.phenotype with
    | some _ => pure ()
    | none => do
      let g ← genoOf r
      let p ← liftE (decodeIndivid ga.attrs g)
      modInd r fun ind => { ind with phenotype := some p }

/-- `if population.is_phenotype: population.get_phenotype()` (multi_new_generation.py:36-37,
multi_fitness.py:141-142). -/
def ensurePhenotype : M σ Unit := do
  let ga ← getGa
  if ga.attrs.isPhenotype then getPhenotype else pure ()

/-- `swap` (binary_population.py:151-157). -/
def swapPop : M σ Unit := do
  let ga ← getGa
  forEach ga.population fun r =>
    modInd r fun ind => { ind with genotype := ind.phenotype, phenotype := ind.genotype }

/-- `CatPopulation.get_generated_individ` for one gene (cat_population.py:37-43). -/
def genCatGene : CatGene → M σ Val
  | .range lo hi step => do
    let v ← randrange lo (hi + 1) step
    pure (.num v)
  | .values l => choice l
  | .other => throwE .exception

/-- `BinaryPopulation.get_generated_individ` for one gene (binary_population.py:84-85). -/
def genBinGene (gray : Bool) (p : GeneParams) : M σ (List Val) := do
  let v ← randint 0 p.realNumPoints
  liftE (encodeIndex gray v.toNat p.numBits)

/-- `get_generated_individ`, dispatched on the class (cat_population.py:30-44,
order_cat_population.py:12-21, binary_population.py:78-86). -/
def generate (at_ : Attrs) : M σ (List Val) :=
  match at_.spec with
  | .cat gens => mapEach gens genCatGene
  | .orderCat a b k => do
    let l ← sample (pyRange a (b + 1) 1) k
    pure (l.map fun i : Int => Val.num (i : ℚ))
  | .binary gray _ => do
    let parts ← mapEach at_.params (genBinGene gray)
    pure parts.flatten

/-- Genotype of an input individual: `list(individ)` (cat_population.py:54) or its encoding
(binary_population.py:139). -/
def adopt (at_ : Attrs) (x : List Val) : Except PyErr (List Val) :=
  match at_.spec with
  | .binary gray gens => encodeIndividR at_.arith.rnd gray gens at_.params x
  | _ => .ok x

/-- `BasePopulation.__init__` (base_population.py:18-21): creating any population object seeds `random`. -/
def newPopulation : M σ Unit := reseed

/-- `is_phenotype` of the class (base_population.py:12, binary_population.py:33). -/
def PopSpec.hasPhenotype : PopSpec → Bool
  | .binary _ _ => true
  | _ => false

/-- `set_params` (cat_population.py:12-28, binary_population.py:16-37).  `input = none` and `input = some []`
are both falsy. -/
def setParams (spec : PopSpec) (n : Nat) (input : Option (List (List Val))) : M σ Unit := do
  if n < (input.getD []).length then throwE .exception
  else modGa fun ga => { ga with
    population := []
    attrs := { arith := ga.attrs.arith, numIndivid := n, spec := spec,
               isPhenotype := spec.hasPhenotype } }

/-- The binary part of `fill`: `self.get_gens_params()` (binary_population.py:135).  Simplification: when a gene
raises, Python keeps the parameters of the genes before it in the population object, which is not used any further. -/
def prepare : M σ Unit := do
  let ga ← getGa
  match ga.attrs.spec with
  | .binary _ gens => do
    let r ← liftE (gensParamsR ga.attrs.arith.rnd gens 0)
    modGa fun ga => { ga with attrs := { ga.attrs with params := r.1, idxBits := 0 :: r.2 } }
  | _ => pure ()

/-- `fill` on a fresh population (cat_population.py:46-62, binary_population.py:129-149).
Simplification: `fill` is modelled on a population on which it was not called before. -/
def fill (input : Option (List (List Val))) : M σ Unit := do
  prepare
  let ga ← getGa
  forEach (input.getD []) fun x => do
    let g ← liftE (adopt ga.attrs x)
    addDict g
  forEach (List.range (ga.attrs.numIndivid - (input.getD []).length)) fun _ => do
    let g ← generate ga.attrs
    addDict g
  if ga.attrs.isPhenotype then getPhenotype else pure ()
  resetIdx

/-- The sequence `population.set_params(...); population.fill()` on a fresh population object
(collector_ga.py:58-59). -/
def createPopulation (spec : PopSpec) (n : Nat) (input : Option (List (List Val))) : M σ Unit := do
  setParams spec n input
  fill input

/-- `is_duplicate` on a list of individuals (base_population.py:101-114): fewer different genotypes than
individuals.  Gene values are hashable. -/
def isDuplicate (rs : List Nat) : M σ Bool := do
  let gs ← mapEach rs genoOf
  pure (decide (gs.dedup.length < rs.length))

/-- Scores of listed individuals; comparing `None` raises `TypeError`. -/
def scoreOf (r : Nat) : M σ σ := fun s =>
  match (s.heap r).score with
  | some v => (.ok v, s)
  | none => (.error .typeError, s)

/-- `sort_by_dict('score')` (base_population.py:45-56): stable ascending sort, sets `is_sorted`.
Simplification: a missing score raises `TypeError` also for a one-element population; a sort that raises leaves the
list as it was (Python may leave it partly sorted). -/
def sortByScore [LinearOrder σ] : M σ Unit := do
  let ga ← getGa
  let keyed ← mapEach ga.population fun r => do
    let v ← scoreOf r
    pure (v, r)
  modGa fun ga => { ga with
    population := (sortByKey (fun p : σ × Nat => p.1) keyed).map Prod.snd
    attrs := { ga.attrs with isSorted := true } }

/-- The scalar `'rank'` of an individual, used as a sort key or number; lists and `None` raise `TypeError`
when compared with numbers. -/
def rankOf (r : Nat) : M σ ℚ := fun s =>
  match (s.heap r).rank with
  | some (.sc q) => (.ok q, s)
  | _ => (.error .typeError, s)

/-- `sort_by_dict('rank')` (base_population.py:45-56): does *not* set `is_sorted`. -/
def sortByRank : M σ Unit := do
  let ga ← getGa
  let keyed ← mapEach ga.population fun r => do
    let v ← rankOf r
    pure (v, r)
  modGa fun ga => { ga with
    population := (sortByKey (fun p : ℚ × Nat => p.1) keyed).map Prod.snd }

end
end BaumEva
