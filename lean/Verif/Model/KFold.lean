import Verif.Model.Py

/-!
# Model of `catlearn/cross_validation/k_fold_cv.py`
-/

namespace CatLearn.KFold

open CatLearn

/-- `k_fold(features, targets, nsplit, fix_size)` with targets given,
`catlearn/cross_validation/k_fold_cv.py` L7-59.

A feature row is an abstract value of type `α`, a target one of type `τ`; the row of the concatenated
array `X` (L32-35) is the pair.  `np.concatenate(..., axis=1)` raises `ValueError` when the numbers
of rows differ.  `shuf` is `np.random.shuffle` along axis 0 (L40).  Simplification: `nsplit` and
`fix_size` are natural numbers (negative ones are not modelled). -/
def kFold {α τ : Type} (shuf : List (α × τ) → List (α × τ)) (features : List α) (targets : List τ)
    (nsplit : Nat) (fixSize : Option Nat) : Except PyErr (List (List α) × List (List τ)) := do
  if features.length ≠ targets.length then throw .value          -- L33-34
  let X := shuf (features.zip targets)                            -- L33-40
  let X ← match fixSize with                                      -- L42-47
    | none => pure X
    | some s => if X.length ≥ nsplit * s then pure (X.take (nsplit * s)) else throw .assertion
  let folds ← arraySplit X nsplit                                 -- L50
  pure (folds.map (·.map Prod.fst), folds.map (·.map Prod.snd))   -- L54-59

/-- `k_fold(features, None, nsplit, fix_size)`, `k_fold_cv.py` L7-64.  Here `X = features` (L37) is
the caller's own array and the shuffle on L40 is in place, so the new contents of the caller's array
are returned as the first component (also when a later step raises). -/
def kFoldNoTargets {α : Type} (shuf : List α → List α) (features : List α)
    (nsplit : Nat) (fixSize : Option Nat) : List α × Except PyErr (List (List α)) :=
  let X := shuf features                                          -- L37-40, in place
  (X, do
    let X ← match fixSize with                                    -- L42-47
      | none => pure X
      | some s => if X.length ≥ nsplit * s then pure (X.take (nsplit * s)) else throw .assertion
    arraySplit X nsplit)                                          -- L50, L61-64

end CatLearn.KFold
