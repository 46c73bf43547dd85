import Mathlib.Data.List.Permutation
import Mathlib.Data.Rat.Defs
import Mathlib.Algebra.BigOperators.Group.List.Basic
import Mathlib.Order.Basic
import Mathlib.Order.BoundedOrder.Basic

/-!
# Specification vocabulary for the genetic algorithm
-/

namespace CatLearn.Spec

/-- A well formed individual: `d` genes, each 0 or 1. -/
def WellFormed (d : Nat) (ind : List Nat) : Prop := ind.length = d ∧ ∀ g ∈ ind, g = 0 ∨ g = 1

/-- `p` is strictly better than `q` in every objective. -/
def StrictlyDominates {F : Type} [LinearOrder F] (p q : List F) : Prop :=
  List.length p = List.length q ∧ ∀ i (hp : i < p.length) (hq : i < q.length), q[i] < p[i]

/-- Generation `t` of a history of best values is a record: better than everything before it (and
better than "no value at all"). -/
def Record {F : Type} [LinearOrder F] [OrderBot F] (bests : List F) (t : Nat) : Prop :=
  ∃ h : t < bests.length, ⊥ < bests[t] ∧ ∀ u (hu : u < t), bests[u] < bests[t]

/-- All the lists of `n` draws whose values are multiples of `1 / M` in [0, 1).  With `M = 2 ^ 53`
these are the equally likely outcomes of `n` calls of `random.random`. -/
def gridDraws (M : Nat) : Nat → List (List Rat)
  | 0 => [[]]
  | n + 1 => (List.range M).flatMap fun k : Nat => (gridDraws M n).map fun l => ((k : Rat) / M) :: l

/-- The number of outcomes, a shuffle of `n` positions and `n` draws, for which `p` holds. -/
def countOutcomes (n M : Nat) (p : List Nat → List Rat → Bool) : Nat :=
  ((List.range n).permutations.map fun order => (gridDraws M n).countP (p order)).sum

end CatLearn.Spec
