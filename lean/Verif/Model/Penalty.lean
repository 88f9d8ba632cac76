import Verif.Model.Py
/-!
# Penalties

Models `baumeva/ga/penalties/*.py`.  The arithmetic of the interpreter is a parameter: `ar.rnd` is applied to the result of every
operation.
-/
namespace BaumEva

/-- Interval `(lo, hi)` of a static penalty; `none` stands for `-inf` / `inf`
(static_penalty.py:19-28). -/
structure Interval where
  lo : Option ℚ
  hi : Option ℚ

/-- `val[0] < v < val[1]` (static_penalty.py:50, 59). -/
def Interval.contains (i : Interval) (v : ℚ) : Bool :=
  (match i.lo with | none => true | some a => decide (a < v)) &&
  (match i.hi with | none => true | some b => decide (v < b))

/-- An exponent (`alpha`, `betta`), given by what `x ** e` is in the interpreter.  Simplification: `x ** e` raises nothing and is a
real number (so no negative exponent for `0`, no fractional one for a negative `c`). -/
structure Exponent where
  pow : Arith → ℚ → ℚ

/-- A natural exponent: the exact power is rounded once.  Simplification: the C library's `pow` may err by more than that. -/
def Exponent.nat (n : Nat) : Exponent := ⟨fun ar x => ar.rnd (x ^ n)⟩

instance (n : Nat) : OfNat Exponent n := ⟨.nat n⟩

/-- The parameters of the penalty classes (dynamic_penalty.py:6-14, adaptive_penalty.py:6-19,
static_penalty.py:6-35); `custom` is a user-defined subclass of `BasePenalty`. -/
inductive PenImpl
  | dynamic (delta c : ℚ) (alpha betta : Exponent)
  | adaptive (delta betta1 betta2 : ℚ) (betta : Exponent)
  | static (eqI : List (Nat × List Interval)) (eqR : List (Nat × List ℚ))
      (ineqI : List (Nat × List Interval)) (ineqR : List (Nat × List ℚ))
  | custom (f : List Cond → List ℚ → Except PyErr ℚ)

/-- A penalty object: the name of its class (base_penalty.py:17-23) and its implementation.  The name decides
which arguments it gets (base_fitness.py:84-91), so a user subclass with another name is another `Penalty`. -/
structure Penalty where
  name : String
  impl : PenImpl

/-- The constructors of the library classes (dynamic_penalty.py:6-14, adaptive_penalty.py:6-26,
static_penalty.py:6-40) with the checks they make. -/
def newAdaptive (delta b1 b2 : ℚ) (betta : Exponent) : Except PyErr Penalty :=
  if b1 ≤ 1 then .error .exception
  else if b2 ≤ 1 then .error .exception
  else if b1 = b2 then .error .exception
  else .ok ⟨"AdaptivePenalty", .adaptive delta b1 b2 betta⟩

@[inherit_doc newAdaptive]
def newDynamic (delta c : ℚ) (alpha betta : Exponent) : Penalty := ⟨"DynamicPenalty", .dynamic delta c alpha betta⟩

@[inherit_doc newAdaptive]
def newStatic (eqI : List (Nat × List Interval)) (eqR : List (Nat × List ℚ))
    (ineqI : List (Nat × List Interval)) (ineqR : List (Nat × List ℚ)) : Except PyErr Penalty :=
  if eqR.length ≠ eqI.length then .error .exception
  else if ineqR.length ≠ ineqI.length then .error .exception
  else .ok ⟨"StaticPenalty", .static eqI eqR ineqI ineqR⟩

/-- The loop of `get_sum_conditional_func` of the dynamic and adaptive classes
(dynamic_penalty.py:18-25, adaptive_penalty.py:30-37), accumulating `sum_conditional`. -/
def sumCond (ar : Arith) (power : Exponent) : List Cond → List ℚ → ℚ → Except PyErr ℚ
  | [], _, acc => .ok acc
  | .ne :: cs, v :: vs, acc => sumCond ar power cs vs (ar.rnd (acc + power.pow ar |v|))
  | .le :: cs, v :: vs, acc => sumCond ar power cs vs (ar.rnd (acc + power.pow ar (max 0 v)))
  | .optimize :: _, _ :: _, _ => .error .exception
  | .other _ :: _, _ :: _, _ => .error .exception
  | _ :: _, [], _ => .error .indexError

/-- The inner loop of `StaticPenalty` over the intervals of one constraint (static_penalty.py:49-53, 58-62):
every interval has to contain the value, otherwise the method raises; the coefficient is always taken from
`equality_r_coef`. `res` is the Python variable of the same name (`none` = not assigned yet). -/
def staticIntervals (ar : Arith) (coef : Option (List ℚ)) (v mag : ℚ) :
    List Interval → Nat → Option ℚ → Except PyErr (Option ℚ)
  | [], _, res => .ok res
  | iv :: ivs, k, _ =>
    if iv.contains v then
      match coef with
      | none => .error .keyError
      | some cs =>
        match cs[k]? with
        | none => .error .indexError
        | some c => staticIntervals ar coef v mag ivs (k + 1) (some (ar.rnd (c * mag)))
    else .error .exception

/-- `StaticPenalty.get_sum_conditional_func` (static_penalty.py:42-65) from constraint `i` on. -/
def staticSum (ar : Arith) (eqI ineqI : List (Nat × List Interval)) (eqR : List (Nat × List ℚ)) :
    List Cond → List ℚ → Nat → ℚ → Option ℚ → Except PyErr ℚ
  | [], _, _, acc, _ => .ok acc
  | _ :: _, [], _, _, _ => .error .indexError
  | c :: cs, v :: vs, i, acc, res =>
    match c with
    | .ne =>
      if v ≠ 0 then staticSum ar eqI ineqI eqR cs vs (i + 1) acc (some 0)
      else
        match eqI.lookup i with
        | none => .error .keyError
        | some ivs =>
          match staticIntervals ar (eqR.lookup i) v |v| ivs 0 res with
          | .error e => .error e
          | .ok none => .error .unboundLocal
          | .ok (some x) => staticSum ar eqI ineqI eqR cs vs (i + 1) (ar.rnd (acc + ar.rnd (x ^ 2))) (some x)
    | .le =>
      if v ≤ 0 then staticSum ar eqI ineqI eqR cs vs (i + 1) acc (some 0)
      else
        match ineqI.lookup i with
        | none => .error .keyError
        | some ivs =>
          match staticIntervals ar (eqR.lookup i) v (max 0 v) ivs 0 res with
          | .error e => .error e
          | .ok none => .error .unboundLocal
          | .ok (some x) => staticSum ar eqI ineqI eqR cs vs (i + 1) (ar.rnd (acc + ar.rnd (x ^ 2))) (some x)
    | _ => .error .exception

/-- What `best_individ["feasible"]` can be applied to: nothing passed, `None`, an individual, or the dictionary
of `MultiGaData`, which has no key `feasible`. -/
inductive BestArg
  | notPassed | none | ind (feasible : Bool) | pareto
deriving DecidableEq

/-- `execute` of the penalty classes (base_penalty.py:37-50, dynamic_penalty.py:27-39,
adaptive_penalty.py:39-63, static_penalty.py:67-79).  `iter = none` means that `iter_generation` is not
passed.  A custom penalty ignores both (the fitness passes neither, base_fitness.py:91). -/
def PenImpl.execute (ar : Arith) (p : PenImpl) (conds : List Cond) (values : List ℚ) (iter : Option Nat)
    (best : BestArg) : Except PyErr ℚ :=
  match p with
  | .dynamic delta c alpha betta =>
    if best ≠ .notPassed then .error .typeError
    else if conds.length ≠ values.length then .error .exception
    else do
      let s ← sumCond ar betta conds values 0
      pure (ar.rnd (ar.rnd (delta * alpha.pow ar (ar.rnd (c * ((iter.getD 0 : Nat) : ℚ)))) * s))
  | .adaptive delta b1 b2 betta =>
    if best = .notPassed then .error .typeError
    else if conds.length ≠ values.length then .error .exception
    else do
      let s ← sumCond ar betta conds values 0
      if iter.getD 0 ≠ 0 then
        match best with
        | .ind true => pure (ar.rnd (ar.rnd (delta * ar.rnd (ar.rnd (1 / b1) * 10)) * s))
        | .ind false => pure (ar.rnd (ar.rnd (delta * ar.rnd (b2 * 10)) * s))
        | .pareto => .error .keyError
        | _ => .error .typeError
      else pure (ar.rnd (ar.rnd (delta * 0) * s))
  | .static eqI eqR ineqI _ =>
    if conds.length ≠ values.length then .error .exception
    else staticSum ar eqI ineqI eqR conds values 0 0 none
  | .custom f => f conds values

/-- `get_penalty_value` (base_fitness.py:76-91): dispatch on the class name. -/
def Penalty.value (ar : Arith) (p : Penalty) (conds : List Cond) (values : List ℚ) (idxGeneration : Nat)
    (best : BestArg) : Except PyErr ℚ :=
  if p.name = "DynamicPenalty" then p.impl.execute ar conds values (some idxGeneration) .notPassed
  else if p.name = "AdaptivePenalty" then p.impl.execute ar conds values (some idxGeneration) best
  else p.impl.execute ar conds values none .notPassed

end BaumEva
