import Verif.Spec.Run
import Verif.Model.NewGeneration
/-!
# Specification vocabulary for components the user has written

What a selection, crossover, mutation, replacement or fitness class of the user may and must do.  Nothing is said about how it is
done, or about randomness, genotypes and other objects.
-/
namespace BaumEva.Spec
open BaumEva
variable {σ : Type}

/-- What evaluation may and must do: only individuals of the population change; afterwards all have a score; those that had one keep
it. -/
structure Evaluates (s s' : St σ) : Prop where
  ga : s'.ga = s.ga
  snaps : s'.snaps = s.snaps
  next : s.next ≤ s'.next
  others : ∀ r, r < s.next → r ∉ s.ga.population → s'.heap r = s.heap r
  kept : ∀ r v, r ∈ s.ga.population → (s.heap r).score = some v → (s'.heap r).score = some v
  done : ∀ r ∈ s.ga.population, (s'.heap r).score.isSome

/-- No object without a score is in the population twice. -/
def Distinct (s : St σ) : Prop := (s.ga.population.filter fun r => (s.heap r).score.isNone).Nodup

/-- What selection, crossover and mutation together may do: fill `parents` and `children`, the latter with different objects that
exist; the individuals of the population keep their scores; `best_solution` is not touched and not made a child. -/
structure Breeds (s s' : St σ) : Prop where
  ga : s'.ga = { s.ga with parents := s'.ga.parents, children := s'.ga.children }
  snaps : s'.snaps = s.snaps
  next : s.next ≤ s'.next
  alive : ∀ r ∈ s'.ga.children, r < s'.next
  distinct : s'.ga.children.Nodup
  kept : ∀ r ∈ s.ga.population, (s'.heap r).score = (s.heap r).score
  best : ∀ b g, s.ga.best = some (.single b g) → s'.heap b = s.heap b ∧ b ∉ s'.ga.children

/-- What selection, crossover, mutation and replacement together may do: make a new population, not marked as sorted, of objects that
exist, none without a score twice; `best_solution` is not touched and not made a member. -/
structure Installs (s s' : St σ) : Prop where
  ga : s'.ga = { s.ga with parents := s'.ga.parents, children := s'.ga.children, population := s'.ga.population, attrs := s'.ga.attrs }
  unsorted : s'.ga.attrs.isSorted = false
  snaps : s'.snaps = s.snaps
  next : s.next ≤ s'.next
  alive : ∀ r ∈ s'.ga.population, r < s'.next
  distinct : Distinct s'
  best : ∀ b g, s.ga.best = some (.single b g) → s'.heap b = s.heap b ∧ b ∉ s'.ga.population

/-- And what they must do: the new population has a member with the score of the last of the old one. -/
structure Replaces (s s' : St σ) : Prop extends Installs s s' where
  elite : ∀ r, s.ga.population.getLast? = some r → ∃ x ∈ s'.ga.population, (s'.heap x).score = (s.heap r).score

/-- The state between two generations: the individuals of the population exist, have scores and are sorted by them; `best_solution`
exists and is not one of them. -/
structure Between [LinearOrder σ] (s : St σ) : Prop where
  alive : ∀ r ∈ s.ga.population, r < s.next
  scored : ∀ r ∈ s.ga.population, (s.heap r).score.isSome
  asc : s.ga.population.Pairwise fun x y => ∀ a b, (s.heap x).score = some a → (s.heap y).score = some b → a ≤ b
  sorted : s.ga.attrs.isSorted = true
  best : ∀ b g, s.ga.best = some (.single b g) → b < s.next ∧ b ∉ s.ga.population

end BaumEva.Spec
