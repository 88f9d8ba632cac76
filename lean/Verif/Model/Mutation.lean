import Verif.Model.Population
import Verif.Model.Crossover
/-!
# Mutations

Models `baumeva/ga/mutations/*.py`.
-/
namespace BaumEva

/-- The mutation classes (mutations/__init__.py). -/
inductive MutOp
  | inversion | movement | shift | swap | binString | categorical
deriving DecidableEq

/-! ## Pure rearrangements -/

/-- `InversionMutation.get_mutation` for `i ≤ j` (inversion_mutation.py:22-27). -/
def inversion {α : Type} (i j : Nat) (g : List α) : List α :=
  g.take i ++ (slice g i (j + 1)).reverse ++ g.drop (j + 1)

/-- `MovementMutation.get_mutation` (movement_mutation.py:19-20): `pop(i)` then `insert(j, z)`. -/
def movement {α : Type} (i j : Nat) (g : List α) : List α :=
  match g[i]? with
  | none => g
  | some z => (g.eraseIdx i).insertIdx j z

/-- `SwapMutation.get_mutation` (swap_mutation.py:20-21). -/
def swapGenes {α : Type} (i j : Nat) (g : List α) : List α :=
  match g[i]?, g[j]? with
  | some a, some b => (g.set i b).set j a
  | _, _ => g

/-- `ShiftMutation.get_mutation` (shift_mutation.py:23-27): the chain `[s, e)` is cut out and inserted at `i`
of the remaining list. -/
def shiftGenes {α : Type} (s e i : Nat) (g : List α) : List α :=
  let chain := slice g s e
  let rest := g.take s ++ g.drop e
  rest.take i ++ chain ++ rest.drop i

/-! ## Level -/

/-- `check_mutation` (base_combinatory_mutation.py:25-43; bin_string_mutation.py:19-37;
categorical_mutation.py:18-36).  `CategoricalMutation` has no attribute `mutation_map`, so every string raises
`AttributeError`. -/
def checkMutation (op : MutOp) (lvl : MutLvl) : Except PyErr MutLvl :=
  match lvl with
  | .str s =>
    match op with
    | .categorical => .error .attributeError
    | .binString =>
      if s = "weak" ∨ s = "normal" ∨ s = "strong" then .ok (.str s) else .error .exception
    | _ =>
      if s = "weak" then .ok (.float (3 / 100))
      else if s = "normal" then .ok (.float (1 / 10))
      else if s = "strong" then .ok (.float (3 / 10))
      else .error .exception
  | .float q => if q < 0 ∨ 1 < q then .error .exception else .ok (.float q)
  | .other => .error .exception

/-- `update_mutation_lvl` of `BinStringMutation` (bin_string_mutation.py:39-51); `len_bin_str = 0` divides by
zero. -/
def updateMutLvl (lvl : MutLvl) (len : Nat) : Except PyErr MutLvl :=
  match lvl with
  | .str s =>
    if len = 0 then .error .zeroDivision
    else if s = "weak" then .ok (.float (3 / 10 / len))
    else if s = "normal" then .ok (.float (1 / len))
    else .ok (.float (3 / len))
  | l => .ok l

/-- `update_mutation_lvl` in the arithmetic of the interpreter (bin_string_mutation.py:39-51): the literal `0.3` is
rounded too. -/
def updateMutLvlR (rnd : ℚ → ℚ) (lvl : MutLvl) (len : Nat) : Except PyErr MutLvl :=
  match lvl with
  | .str s =>
    if len = 0 then .error .zeroDivision
    else if s = "weak" then .ok (.float (rnd (rnd (3 / 10) / len)))
    else if s = "normal" then .ok (.float (rnd (1 / len)))
    else .ok (.float (rnd (3 / len)))
  | l => .ok l

/-- `rnd_samples` (base_mutation.py:19). -/
def rndSamples : Nat := 1000

/-- A level as a machine number.  Levels the user gives are machine numbers already; the literals `0.03`, `0.1`, `0.3` of
`mutation_map` (base_combinatory_mutation.py:9-12) are not. -/
def MutLvl.stored (ar : Arith) : MutLvl → MutLvl
  | .float q => .float (ar.rnd q)
  | l => l

/-- The level for which `determinesMutation` makes the comparison the interpreter makes: there the product
`mutation_lvl * rnd_samples` is rounded (base_combinatory_mutation.py:51, bin_string_mutation.py:59,
categorical_mutation.py:59). -/
def MutLvl.effective (ar : Arith) : MutLvl → MutLvl
  | .float q => .float (ar.rnd (q * rndSamples) / rndSamples)
  | l => l

section
variable {σ : Type}

/-- `determines_mutation` (base_combinatory_mutation.py:45-54 and its copies in bin_string_mutation.py:53-62,
categorical_mutation.py:53-62).  A level that is still a string cannot be multiplied by an int and compared
(`TypeError`). -/
def determinesMutation (lvl : MutLvl) : M σ Bool := do
  let d ← randint 0 ((rndSamples : Int) - 1)
  match lvl with
  | .float q => pure (decide ((d : ℚ) ≤ q * rndSamples))
  | _ => throwE .typeError

/-- `get_mutation` of the four combinatorial classes on a genotype
(inversion_mutation.py:19-27, movement_mutation.py:18-20, shift_mutation.py:19-27, swap_mutation.py:19-21).
`binString`/`categorical` are handled separately. -/
def mutateComb (op : MutOp) (g : List Val) : M σ (List Val) :=
  match op with
  | .inversion => do
    let ij ← segmentPoints 0 g.length
    pure (inversion ij.1 ij.2 g)
  | .movement => do
    let l ← sample (List.range g.length) 2
    match l with
    | [i, j] => pure (movement i j g)
    | _ => throwE .indexError
  | .swap => do
    let l ← sample (List.range g.length) 2
    match l with
    | [i, j] => pure (swapGenes i j g)
    | _ => throwE .indexError
  | .shift => do
    let chain ← randint 1 ((g.length : Int) - 2)
    let s ← randint 0 ((g.length : Int) - chain)
    let e := s + chain
    let i ← choice ((List.range (g.length - chain.toNat + 1)).filter fun x => x ≠ s.toNat)
    pure (shiftGenes s.toNat e.toNat i g)
  | _ => pure g

/-- `BinStringMutation.get_mutation` on a genotype (bin_string_mutation.py:71-77). -/
def mutateBits (lvl : MutLvl) : List Val → M σ (List Val)
  | [] => pure []
  | x :: xs => do
    let m ← determinesMutation lvl
    let y := if m then (if x = bit0 then bit1 else bit0) else x
    let ys ← mutateBits lvl xs
    pure (y :: ys)

/-- Replacement of one gene in `CategoricalMutation.get_mutation` (categorical_mutation.py:75-85). -/
def mutateCatGene (pool : CatGene) (x : Val) : M σ Val :=
  match pool with
  | .values l =>
    if 1 < l.length then choice (l.filter fun y => y ≠ x) else pure x
  | .range lo hi step =>
    if step = 0 then throwE .valueError
    else
      let l : List Val := (pyRange lo (hi + 1) step).map fun (i : Int) => .num i
      if 1 < l.length then choice (l.filter fun y => y ≠ x) else pure x
  | .other => throwE .typeError

/-- One pass of the loop body of `CategoricalMutation.get_mutation` (categorical_mutation.py:73-85) for the gene
`x` whose pool is the head of `pools`; a genotype longer than the gene pool raises `IndexError` when its extra
genes mutate. -/
def mutateCatAt (lvl : MutLvl) (pools : List CatGene) (x : Val) : M σ Val := do
  let m ← determinesMutation lvl
  if m then
    match pools with
    | [] => throwE .indexError
    | p :: _ => mutateCatGene p x
  else pure x

/-- The loop of `CategoricalMutation.get_mutation` (categorical_mutation.py:72-85). -/
def mutateCat (lvl : MutLvl) : List CatGene → List Val → M σ (List Val)
  | _, [] => pure []
  | pools, x :: xs => do
    let y ← mutateCatAt lvl pools x
    let ys ← mutateCat lvl pools.tail xs
    pure (y :: ys)

/-- Mutation of one child (base_combinatory_mutation.py:73-76, bin_string_mutation.py:87-88,
categorical_mutation.py:94-95).  Simplification: the in-place loops write the genotype back at the end, so an
exception inside a loop leaves the genotype of that child as it was (Python would keep the genes mutated so
far); and `CategoricalMutation` on a population that is not categorical raises at once instead of at its first
mutating gene. -/
def mutateChild (op : MutOp) (r : Nat) : M σ Unit := do
  let s ← getS
  match op with
  | .binString => do
    let g ← genoOf r
    let g' ← mutateBits (s.mutLvl.effective s.ga.attrs.arith) g
    modInd r fun ind => { ind with genotype := some g' }
  | .categorical => do
    let g ← genoOf r
    match s.ga.attrs.spec with
    | .cat pools => do
      let g' ← mutateCat (s.mutLvl.effective s.ga.attrs.arith) pools g
      modInd r fun ind => { ind with genotype := some g' }
    | _ => throwE .typeError
  | _ => do
    let m ← determinesMutation (s.mutLvl.effective s.ga.attrs.arith)
    if m then do
      let g ← genoOf r
      let g' ← mutateComb op g
      modInd r fun ind => { ind with genotype := some g' }
    else pure ()

/-- `execute` of the mutation classes (base_combinatory_mutation.py:66-76, bin_string_mutation.py:79-88,
categorical_mutation.py:87-95).  Only binary populations have `idx_bits` (`AttributeError` otherwise). -/
def mutExec (op : MutOp) : M σ Unit := do
  let s ← getS
  match op with
  | .binString =>
    match s.ga.attrs.spec with
    | .binary _ _ => do
      let lvl ← liftE (updateMutLvlR s.ga.attrs.arith.rnd s.mutLvl (s.ga.attrs.idxBits.getLastD 0))
      modifyS fun s => { s with mutLvl := lvl }
      forEach s.ga.children (mutateChild op)
    | _ => throwE .attributeError
  | _ => forEach s.ga.children (mutateChild op)

/-- Construction of a mutation object (`__init__`: base_combinatory_mutation.py:14-23,
bin_string_mutation.py:9-17, categorical_mutation.py:8-16). -/
def newMutation (op : MutOp) (lvl : MutLvl) : M σ Unit := do
  let l ← liftE (checkMutation op lvl)
  let ga ← getGa
  modifyS fun s => { s with mutLvl := l.stored ga.attrs.arith }

end
end BaumEva
