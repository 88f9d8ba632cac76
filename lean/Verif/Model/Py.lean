import Mathlib.Algebra.Order.Field.Rat
import Mathlib.Data.List.Sort
import Mathlib.Data.Rat.Floor
import Mathlib.Data.Int.Log
/-!
# The Python runtime the library uses

Errors, values, individuals, the heap, the random tape and the state/exception monad in which the
library is modelled.  Nothing in this file is specific to one operator.
-/
namespace BaumEva

/-- Python exceptions that the modelled code can raise.
`exception` is a plain `raise Exception(...)`; `user n` is raised by the user's objective function.
`exhausted` is not a Python exception: it says that the (finite) random tape was used up, i.e. this
run is still executing when the given draws end. -/
inductive PyErr
  | exception | valueError | indexError | keyError | typeError | zeroDivision | attributeError
  | unboundLocal
  | user (code : Nat)
  | exhausted
deriving DecidableEq, Repr

/-- Gene values: numbers (exact rationals, simplification of Python int/float) and strings. -/
inductive Val
  | num (q : ℚ)
  | str (s : String)
deriving DecidableEq

/-- The characters `'0'` and `'1'` of binary genotypes (binary_population.py:82, 86). -/
def bit0 : Val := .str "0"
@[inherit_doc bit0] def bit1 : Val := .str "1"

/-- What an objective function returns: one number or a tuple/list of numbers
(base_fitness.py:18-19, `Union[int, float, tuple]`). -/
inductive Ret
  | sc (q : ℚ)
  | tup (l : List ℚ)
deriving DecidableEq

/-- The `'rank'` entry of an individual: a number (multi_fitness.py:126, ranked_selection.py:32) or a list
(vega_ranked_selection.py:53). -/
inductive Rank
  | sc (q : ℚ)
  | vec (l : List ℚ)
deriving DecidableEq

/-- The dictionary of one individual (keys of base_population.py:58-67, 77; cat_population.py:54;
binary_population.py:139; multi_fitness.py:126).  A missing key and the value `None` are both `none`. -/
structure Ind (σ : Type) where
  genotype  : Option (List Val) := none
  phenotype : Option (List Val) := none
  score     : Option σ := none
  objScore  : Option Ret := none
  feasible  : Bool := true
  idx       : Option Nat := none
  rank      : Option Rank := none
deriving DecidableEq

/-- `gens` entry of a categorical population (cat_population.py:38-43): a tuple `(start, end, step)`,
a list of values, or something else (which raises). -/
inductive CatGene
  | range (lo hi step : Int)
  | values (l : List Val)
  | other

/-- `gens` entry `(start, end, step)` of a binary population (binary_population.py:21-22). -/
structure BinGene where
  lo : ℚ
  hi : ℚ
  step : ℚ

/-- Class of the population together with its `gens`
(cat_population.py, order_cat_population.py, binary_population.py, binary_gray_population.py). -/
inductive PopSpec
  | cat (gens : List CatGene)
  | orderCat (a b k : Int)
  | binary (gray : Bool) (gens : List BinGene)

/-- `num_bits[i]`, `real_num_points[i]`, `real_step[i]` of a binary gene (binary_population.py:11-14). -/
structure GeneParams where
  numBits : Nat
  realNumPoints : Nat
  realStep : ℚ
deriving DecidableEq

/-- The arithmetic of the interpreter: `rnd` is applied to the exact result of every floating point operation. -/
structure Arith where
  rnd : ℚ → ℚ

/-- Exact rational arithmetic. -/
def Arith.exact : Arith := ⟨fun q => q⟩

/-- The instance attributes (`__dict__`) of a population (base_population.py:11-16,
binary_population.py:11-14).  `children.__dict__ = population.__dict__` (new_generation.py:93) makes the
children share the attributes of the population, and the attributes of `parents`/`children` are never
read before that, so one copy is kept in `GaData`.  `arith` is not an attribute: it is the arithmetic of the
interpreter, which no operation changes. -/
structure Attrs where
  arith : Arith := .exact
  isSorted : Bool := false
  isPhenotype : Bool := false
  numIndivid : Nat := 0
  spec : PopSpec := .cat []
  params : List GeneParams := []
  idxBits : List Nat := [0]

/-- `best_solution`: for `GaData` a dictionary object with the keys of an individual plus `'idx_generation'`
(ga_data.py:76-77), for `MultiGaData` the dictionary `{'pareto_set': .., 'idx_generation': ..}`
(multi_ga_data.py:54-58).  Individuals are references into the heap; `deepcopy` allocates them. -/
inductive Best
  | single (ref : Nat) (gen : Nat)
  | pareto (front : List Nat) (gen : Option Nat)
deriving DecidableEq

/-- `GaData` / `MultiGaData` (ga_data.py:24-48).  `population`, `parents`, `children` are lists of
references to individuals.  `historical_best` of `GaData` is `histBest`; `MultiGaData` appends lists of
(live) individuals to it, which is `histFronts`. -/
structure GaData (σ : Type) where
  numGenerations : Nat := 0
  childrenPercent : ℚ := 0
  earlyStop : Option Int := none
  idxGeneration : Nat := 0
  noImprove : Nat := 0
  attrs : Attrs := {}
  population : List Nat := []
  parents : List Nat := []
  children : List Nat := []
  histBest : List σ := []
  histMed : List σ := []
  histWorst : List σ := []
  histFronts : List (List Nat) := []
  best : Option Best := none

/-- `mutation_lvl`: a string, a float or a value of another type (base_mutation.py:18). -/
inductive MutLvl
  | str (s : String)
  | float (q : ℚ)
  | other
deriving DecidableEq

/-- Entries of `conditions` (base_fitness.py:35-43). -/
inductive Cond
  | optimize | le | ne
  | other (s : String)
deriving DecidableEq

/-- The program state.  `tape` are the future raw draws of `random`; `seed` is `generator.rnd_seed`
(global_generator.py), represented by the draws that seed produces.  `calls` and `snaps` are ghost
traces: arguments of objective calls, and contents of the population after each `update`. -/
structure St (σ : Type) where
  tape : List Nat := []
  seed : Option (List Nat) := none
  heap : Nat → Ind σ := fun _ => {}
  next : Nat := 0
  ga : GaData σ := {}
  mutLvl : MutLvl := .other
  conds : Option (List Cond) := none
  calls : List (List Val) := []
  snaps : List (List (Ind σ)) := []

/-- State + exception monad; an exception keeps the state at the point where it was raised. -/
def M (σ α : Type) : Type := St σ → Except PyErr α × St σ

namespace M
variable {σ α β : Type}

protected def pure (a : α) : M σ α := fun s => (.ok a, s)

protected def bind (m : M σ α) (f : α → M σ β) : M σ β := fun s =>
  match m s with
  | (.ok a, s') => f a s'
  | (.error e, s') => (.error e, s')

instance : Monad (M σ) where
  pure := M.pure
  bind := M.bind

end M

section prims
variable {σ α : Type}

/-- `raise`. -/
def throwE (e : PyErr) : M σ α := fun s => (.error e, s)

def getS : M σ (St σ) := fun s => (.ok s, s)

def modifyS (f : St σ → St σ) : M σ Unit := fun s => (.ok (), f s)

/-- Lift a pure computation that may raise. -/
def liftE : Except PyErr α → M σ α
  | .ok a => fun s => (.ok a, s)
  | .error e => fun s => (.error e, s)

/-- `for x in l: f(x)`. -/
def forEach : List α → (α → M σ Unit) → M σ Unit
  | [], _ => pure ()
  | x :: xs, f => do f x; forEach xs f

/-- `[f(x) for x in l]`, evaluated left to right. -/
def mapEach {β : Type} : List α → (α → M σ β) → M σ (List β)
  | [], _ => pure []
  | x :: xs, f => do
    let y ← f x
    let ys ← mapEach xs f
    pure (y :: ys)

/-- `[f() for _ in range(n)]`, evaluated left to right. -/
def replicateM' : Nat → M σ α → M σ (List α)
  | 0, _ => pure []
  | n + 1, m => do
    let y ← m
    let ys ← replicateM' n m
    pure (y :: ys)

/-! ## Heap -/

/-- Read an individual. -/
def getInd (r : Nat) : M σ (Ind σ) := fun s => (.ok (s.heap r), s)

/-- Overwrite one heap cell. -/
def upd (h : Nat → Ind σ) (r : Nat) (v : Ind σ) : Nat → Ind σ := fun x => if x = r then v else h x

/-- Write fields of an individual. -/
def modInd (r : Nat) (f : Ind σ → Ind σ) : M σ Unit := fun s =>
  (.ok (), { s with heap := upd s.heap r (f (s.heap r)) })

/-- Create a new dictionary object; used for literals, `dict.fromkeys` and `deepcopy`. -/
def alloc (v : Ind σ) : M σ Nat := fun s =>
  (.ok s.next, { s with heap := upd s.heap s.next v, next := s.next + 1 })

/-- `individ['genotype']`, used as a list: `None` raises `TypeError`. -/
def genoOf (r : Nat) : M σ (List Val) := fun s =>
  match (s.heap r).genotype with
  | some g => (.ok g, s)
  | none => (.error .typeError, s)

/-- Modify the `GaData` object. -/
def modGa (f : GaData σ → GaData σ) : M σ Unit := fun s => (.ok (), { s with ga := f s.ga })

def getGa : M σ (GaData σ) := fun s => (.ok s.ga, s)

/-! ## The `random` module -/

/-- One raw draw. -/
def draw : M σ Nat := fun s =>
  match s.tape with
  | [] => (.error .exhausted, s)
  | x :: t => (.ok x, { s with tape := t })

/-- `random.seed(generator.rnd_seed)` (base_population.py:20-21): with a seed set the tape restarts at the
draws of that seed; `seed(None)` uses system entropy, i.e. the arbitrary tape simply goes on. -/
def reseed : M σ Unit := fun s =>
  match s.seed with
  | none => (.ok (), s)
  | some t => (.ok (), { s with tape := t })

/-- `random.randint(a, b)`. -/
def randint (a b : Int) : M σ Int :=
  if b < a then throwE .valueError
  else do
    let x ← draw
    pure (a + (x : Int) % (b - a + 1))

/-- `len(range(start, stop, step))` for `step ≠ 0`. -/
def rangeLen (start stop step : Int) : Int :=
  if 0 < step then (stop - start + step - 1).fdiv step
  else (stop - start + step + 1).fdiv step

/-- `list(range(start, stop, step))` for `step ≠ 0`. -/
def pyRange (start stop step : Int) : List Int :=
  (List.range (rangeLen start stop step).toNat).map fun (i : Nat) => start + step * (i : Int)

/-- `random.randrange(start, stop, step)`. -/
def randrange (start stop step : Int) : M σ Int :=
  if step = 0 then throwE .valueError
  else if rangeLen start stop step ≤ 0 then throwE .valueError
  else do
    let x ← draw
    pure (start + step * ((x : Int) % rangeLen start stop step))

/-- `random.choice(seq)`. -/
def choice (l : List α) : M σ α := do
  if l.isEmpty then throwE .indexError
  else do
    let x ← draw
    match l[x % l.length]? with
    | some v => pure v
    | none => throwE .indexError

/-- Selection without replacement of `k` elements. -/
def sampleAux : Nat → List α → M σ (List α)
  | 0, _ => pure []
  | k + 1, l => do
    let x ← draw
    match l[x % l.length]? with
    | some v => do
      let rest ← sampleAux k (l.eraseIdx (x % l.length))
      pure (v :: rest)
    | none => throwE .indexError

/-- `random.sample(population, k)`. -/
def sample (l : List α) (k : Int) : M σ (List α) :=
  if k < 0 ∨ (l.length : Int) < k then throwE .valueError
  else sampleAux k.toNat l

/-- `random.random()`: a multiple of `2^-53` in `[0, 1)`. -/
def random01 : M σ ℚ := do
  let x ← draw
  pure (((x % 2 ^ 53 : Nat) : ℚ) / ((2 ^ 53 : Nat) : ℚ))

/-! ## Python list helpers -/

/-- `l[i]` with Python's negative indices; `none` stands for `IndexError`. -/
def pyGet? (l : List α) (i : Int) : Option α :=
  if 0 ≤ i then l[i.toNat]?
  else if 0 ≤ (l.length : Int) + i then l[((l.length : Int) + i).toNat]?
  else none

/-- `l[-k:]` for `k ≥ 1`. -/
def lastN (l : List α) (k : Nat) : List α := l.drop (l.length - k)

/-- Stable sort by a key (`list.sort(key=...)`). -/
def sortByKey {κ : Type} [LinearOrder κ] (key : α → κ) (l : List α) : List α :=
  l.insertionSort (fun a b => key a ≤ key b)

/-- `int(x)` of a non-integer number: truncation toward zero. -/
def pyInt (q : ℚ) : Int := if 0 ≤ q then ⌊q⌋ else ⌈q⌉

/-- `round(x)`: nearest integer, ties to even. -/
def pyRound (q : ℚ) : Int :=
  if q - ⌊q⌋ < 1 / 2 then ⌊q⌋
  else if 1 / 2 < q - ⌊q⌋ then ⌊q⌋ + 1
  else if ⌊q⌋ % 2 = 0 then ⌊q⌋ else ⌊q⌋ + 1

end prims

/-- Rounding to binary64: 53 significant bits, to nearest, ties to even.  Simplification: no overflow, no subnormal
numbers, no NaN (the exponent range is unbounded). -/
def fl (q : ℚ) : ℚ :=
  if q = 0 then 0 else (pyRound (q / 2 ^ (Int.log 2 |q| - 52)) : ℚ) * 2 ^ (Int.log 2 |q| - 52)

/-- IEEE binary64 arithmetic, i.e. Python's `float`.  Simplification: every number is a float (Python integers of
magnitude up to `2^53` behave the same). -/
def Arith.binary64 : Arith := ⟨fl⟩

end BaumEva
