import Verif.Model.Mutation
/-!
# Two children per pair

Crossover objects whose attribute `num_offsprings` (base_crossover.py:15) the user has set to 2, and mutation of their children.
-/
namespace BaumEva
variable {σ : Type}

/-- `get_children` with `num_offsprings` other than 1 (base_crossover.py:39-42, 50-51): both children, no coin. -/
def getBoth (op : CrossOp) (len : Nat) (p1 p2 : List Val) : M σ (Nat × Nat) := do
  let cs ← crossGeno op len p1 p2
  let a ← alloc { genotype := some cs.1 }
  let b ← alloc { genotype := some cs.2 }
  pure (a, b)

/-- The loop of `BaseCrossover.execute` (base_crossover.py:61-66). -/
def crossPairsBoth (op : CrossOp) (len : Nat) : List Nat → M σ Unit
  | [] => pure ()
  | [_] => throwE .indexError
  | a :: b :: rest => do
    let p1 ← genoOf a
    let p2 ← genoOf b
    let c ← getBoth op len p1 p2
    modGa fun ga => { ga with children := ga.children ++ [c.1, c.2] }
    crossPairsBoth op len rest

/-- `execute` (one_point_crossover.py:26-34 and its siblings; base_crossover.py:53-66). -/
def crossBoth (op : CrossOp) : M σ Unit := do
  let ga ← getGa
  match ga.population with
  | [] => throwE .indexError
  | r0 :: _ => do
    let g0 ← genoOf r0
    newPopulation
    modGa fun ga => { ga with children := [] }
    crossPairsBoth op g0.length ga.parents

/-- `b` sees what was written into the list it shares with `a`. -/
def sync (a b : Nat) : M σ Unit := do
  let x ← getInd a
  modInd b fun ind => { ind with genotype := x.genotype }

/-- The mutation loop (bin_string_mutation.py:87-88 and its siblings) over children that share their genotypes in pairs:
`UniformCrossover` stores one list in both children (uniform_crossover.py:29-30), and all mutations but `InversionMutation` write
into that list (bin_string_mutation.py:74-77, categorical_mutation.py:77, 82-83, movement_mutation.py:19-20, swap_mutation.py:20-21,
shift_mutation.py:24-27). -/
def mutTwins (mop : MutOp) : List Nat → M σ Unit
  | [] => pure ()
  | [a] => mutateChild mop a
  | a :: b :: rest => do
    mutateChild mop a
    sync a b
    mutateChild mop b
    sync b a
    mutTwins mop rest

/-- `mutation.execute` after `crossBoth cop`.  `InversionMutation` stores a new list (inversion_mutation.py:27), so it does not
matter there that the old one is shared. -/
def mutBoth (cop : CrossOp) (mop : MutOp) : M σ Unit :=
  if cop = .uniform ∧ mop ≠ .inversion then do
    let s ← getS
    match mop with
    | .binString =>
      match s.ga.attrs.spec with
      | .binary _ _ => do
        let lvl ← liftE (updateMutLvlR s.ga.attrs.arith.rnd s.mutLvl (s.ga.attrs.idxBits.getLastD 0))
        modifyS fun s => { s with mutLvl := lvl }
        mutTwins mop s.ga.children
      | _ => throwE .attributeError
    | _ => mutTwins mop s.ga.children
  else mutExec mop

end BaumEva
