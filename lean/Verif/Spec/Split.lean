/-!
# Specification of data splits

Written without reference to the models.
-/

namespace CatLearn.Spec

/-- The sizes of all pieces differ by at most one. -/
def Balanced {α : Type _} (folds : List (List α)) : Prop :=
  ∀ a ∈ folds, ∀ b ∈ folds, a.length ≤ b.length + 1

/-- `folds` is a division of `l` in `k` pieces that loses and duplicates nothing. -/
def PartitionOf {α : Type _} (folds : List (List α)) (l : List α) (k : Nat) : Prop :=
  folds.length = k ∧ folds.flatten.Perm l

/-- Piecewise pairing of feature folds with target folds: same number of folds and, in every fold,
as many targets as rows. -/
def Paired {α τ : Type _} (fs : List (List α)) (ts : List (List τ)) : Prop :=
  fs.map List.length = ts.map List.length

end CatLearn.Spec
