import Verif.Model.Population
/-!
# Crossovers

Models `baumeva/ga/crossovers/*.py`.  The pure functions take the drawn cut points as arguments; the monadic
functions draw them.
-/
namespace BaumEva

/-- `OnePointCrossover.crossover` with cut `c` (one_point_crossover.py:22-23). -/
def onePoint {α : Type} (c : Nat) (p1 p2 : List α) : List α × List α :=
  (p1.take c ++ p2.drop c, p2.take c ++ p1.drop c)

/-- `TwoPointCrossover.crossover` with cuts `c ≤ d` (two_point_crossover.py:23-26). -/
def twoPoint {α : Type} (c d : Nat) (p1 p2 : List α) : List α × List α :=
  (p1.take c ++ slice p2 c d ++ p1.drop d, p2.take c ++ slice p1 c d ++ p2.drop d)

/-- One child of `OrderCrossover.crossover` (order_crossover.py:35-37): the segment of `own`, filled up with
the genes of `other` that are not in the segment. -/
def orderChild {α : Type} [DecidableEq α] (len c d : Nat) (own other : List α) : List α :=
  let rightSide := len - d
  let leftSide := c
  let segment := slice own c d
  let newGens := other.filter fun x => x ∉ segment
  slice newGens rightSide (rightSide + leftSide) ++ segment ++ newGens.take rightSide

/-- Both children of `OrderCrossover.crossover` (order_crossover.py:31-43). -/
def orderCross {α : Type} [DecidableEq α] (len c d : Nat) (p1 p2 : List α) : List α × List α :=
  (orderChild len c d p1 p2, orderChild len c d p2 p1)

/-- The crossover classes (crossovers/__init__.py). -/
inductive CrossOp
  | onePoint | twoPoint | uniform | order
deriving DecidableEq

section
variable {σ : Type}

/-- `idx_segment = sample(range(1, len), 2); idx_segment.sort()` (two_point_crossover.py:21-22,
order_crossover.py:26-28). -/
def segmentPoints (lo len : Nat) : M σ (Nat × Nat) := do
  let l ← sample ((List.range len).drop lo) 2
  match l with
  | [i, j] => pure (min i j, max i j)
  | _ => throwE .indexError

/-- The loop of `UniformCrossover.crossover` (uniform_crossover.py:22-28) for the loci `i, i+1, ..` (`n` of
them); indexing past the end of a parent raises `IndexError`. -/
def uniformLoop (p1 p2 : List Val) : Nat → Nat → M σ (List Val)
  | _, 0 => pure []
  | i, n + 1 => do
    let coin ← randint 1 2
    let src := if coin = 1 then p1 else p2
    match src[i]? with
    | none => throwE .indexError
    | some v => do
      let rest ← uniformLoop p1 p2 (i + 1) n
      pure (v :: rest)

/-- `crossover(parent_1, parent_2, ..)` of the four classes; returns both genotypes.
(one_point_crossover.py:20-24, two_point_crossover.py:20-27, uniform_crossover.py:20-32,
order_crossover.py:30-43.)  `len` is `self.len_individ`. -/
def crossGeno (op : CrossOp) (len : Nat) (p1 p2 : List Val) : M σ (List Val × List Val) :=
  match op with
  | .onePoint => do
    let c ← randint 1 ((len : Int) - 1)
    pure (onePoint c.toNat p1 p2)
  | .twoPoint => do
    let cd ← segmentPoints 1 len
    pure (twoPoint cd.1 cd.2 p1 p2)
  | .uniform => do
    let g ← uniformLoop p1 p2 0 len
    pure (g, g)
  | .order => do
    let cd ← segmentPoints 1 len
    pure (orderCross len cd.1 cd.2 p1 p2)

/-- `get_children` with `num_offsprings = 1` (base_crossover.py:29-51): a coin keeps one of the two children.
The child is a new dictionary with all keys of `population[0]` set to `None` and `feasible = True`
(`get_empty_individ`, base_population.py:88-99).  Simplification: the discarded child is not allocated, and
`num_offsprings` has its default. -/
def getChild (op : CrossOp) (len : Nat) (p1 p2 : List Val) : M σ Nat := do
  let cs ← crossGeno op len p1 p2
  let coin ← randint 1 2
  alloc { genotype := some (if coin = 1 then cs.1 else cs.2) }

/-- The loop of `BaseCrossover.execute` (base_crossover.py:61-66). -/
def crossPairs (op : CrossOp) (len : Nat) : List Nat → M σ Unit
  | [] => pure ()
  | [_] => throwE .indexError
  | a :: b :: rest => do
    let p1 ← genoOf a
    let p2 ← genoOf b
    let c ← getChild op len p1 p2
    modGa fun ga => { ga with children := ga.children ++ [c] }
    crossPairs op len rest

/-- `execute` (one_point_crossover.py:26-34 and its siblings; base_crossover.py:53-66).  `get_empty_copy()`
creates a population object and thereby re-seeds (base_population.py:18-21). -/
def crossExec (op : CrossOp) : M σ Unit := do
  let ga ← getGa
  match ga.population with
  | [] => throwE .indexError
  | r0 :: _ => do
    let g0 ← genoOf r0
    newPopulation
    modGa fun ga => { ga with children := [] }
    crossPairs op g0.length ga.parents

end
end BaumEva
