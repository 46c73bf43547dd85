import Verif.Model.Py
import Mathlib.Analysis.Real.Sqrt

/-!
# Model of `catlearn/preprocess/clean_data.py`

Matrices are lists of rows.  A numpy array knows its number of columns `d` also when it has no rows,
so `d` is passed along.
-/

namespace CatLearn.Clean

open CatLearn

/-- Positions of `True` in a boolean array. -/
def truePos (mask : List Bool) : List Nat :=
  (List.range mask.length).filter fun j => mask[j]?.getD false

/-- Boolean indexing `l[mask]` (lengths equal; numpy raises IndexError otherwise, see the callers). -/
def boolIndex {α : Type} (mask : List Bool) (l : List α) : List α :=
  (truePos mask).filterMap fun j => l[j]?

/-- `np.median` of a non-empty list (of an empty one numpy returns nan; here 0, never used by the
theorems). -/
noncomputable def median (l : List ℝ) : ℝ :=
  let s := sortAsc id l
  if l.length % 2 = 1 then (s[l.length / 2]?).getD 0
  else ((s[l.length / 2 - 1]?).getD 0 + (s[l.length / 2]?).getD 0) / 2

/-- The `constraint` argument of `remove_outliers`; `other` is any other value. -/
inductive Constraint where
  | high | low | none | other
  deriving DecidableEq

/-- Result of `remove_outliers`. -/
structure Outliers (α : Type) where
  mad : ℝ
  targets : List ℝ
  features : List α

open Classical in
/-- `remove_outliers(features, targets, con, dev, constraint)`, `preprocess/clean_data.py` L8-51.  A
feature row is an abstract value.  `np.ma.masked_less(x, v).mask` is the boolean array `x < v` (when
it is all False numpy returns the scalar False, and indexing with it gives an empty array: the same
as here).  Different numbers of rows and targets are found only when something is indexed; simplified: numpy raises nothing
then if the scalar False is the index (no target below the upper bound), here they are an IndexError in any case.  `dev` is not
used by the code. -/
noncomputable def removeOutliers {α : Type} (features : List α) (targets : List ℝ) (con _dev : ℝ)
    (c : Constraint) : Except PyErr (Outliers α) :=
  if c ≠ .other ∧ features.length ≠ targets.length then .error .index else
  let med := median targets                                               -- L35
  let mad := con * median (targets.map fun t => |t - med|)                -- L37
  let r1 : List ℝ × List α :=
    if c = .high ∨ c = .none then                                         -- L39-42
      let m := targets.map fun t => decide (t < med + mad)
      (boolIndex m targets, boolIndex m features)
    else (targets, features)
  let r2 : List ℝ × List α :=
    if c = .low ∨ c = .none then                                          -- L44-47
      let m := r1.1.map fun t => decide (t > med - mad)
      (boolIndex m r1.1, boolIndex m r1.2)
    else r1
  .ok ⟨mad, r2.1, r2.2⟩

/-- Result of the column cleaning functions. -/
structure Cleaned (V L : Type) where
  index : List Bool
  train : List (List V)
  test : Option (List (List V))
  targets : Option (List V)
  labels : Option (List L)

/-- Column `j` of a matrix. -/
def column {V : Type} (X : List (List V)) (j : Nat) : List V := X.filterMap fun r => r[j]?

/-- Applying a column selection to train, test and labels (`clean_data.py` L83-89 and L208-214); a test
matrix or label list of another width makes numpy raise IndexError. -/
def selectColumns {V L : Type} (d : Nat) (index : List Bool) (train : List (List V))
    (test : Option (List (List V))) (labels : Option (List L)) : Except PyErr (Cleaned V L) := do
  let test' ← match test with
    | none => pure none
    | some t => if t.all (fun r => r.length == d) then pure (some (t.map (boolIndex index)))
                else throw .index
  let labels' ← match labels with
    | none => pure none
    | some l => if l.length = d then pure (some (boolIndex index l)) else throw .index
  pure ⟨index, train.map (boolIndex index), test', none, labels'⟩

/-- `np.nanstd` of a column, `none` is nan: in the entries, and as the result when there is no number at
all.  (Infinite entries are not modelled here.) -/
noncomputable def nanStd (col : List (Option ℝ)) : Option ℝ :=
  let v := col.filterMap id
  if v.length = 0 then none else
    let mean := v.sum / v.length
    some (Real.sqrt ((v.map fun x => (x - mean) ^ 2).sum / v.length))

open Classical in
/-- `np.isclose(0, s)` with the default tolerances: `|0 - s| <= 1e-8 + 1e-5*|s|`; False for nan. -/
noncomputable def isCloseZero : Option ℝ → Bool
  | none => false
  | some s => decide (|0 - s| ≤ 1e-8 + 1e-5 * |s|)

/-- `clean_variance(train, test, labels, mask)`, `preprocess/clean_data.py` L54-91.  `mask` is not used
by the code. -/
noncomputable def cleanVariance {L : Type} (d : Nat) (train : List (List (Option ℝ)))
    (test : Option (List (List (Option ℝ)))) (labels : Option (List L)) (_mask : Option (List Nat)) :
    Except PyErr (Cleaned (Option ℝ) L) :=
  let index := (List.range d).map fun j => !isCloseZero (nanStd (column train j))   -- L76-80
  selectColumns d index train test labels

open Classical in
/-- `clean_skewness(train, test, labels, mask, skewness)`, `preprocess/clean_data.py` L181-216.  `skew` is
`scipy.stats.skew` of a column (nan is `none`, and `nan < x` is False); `mask` is not used. -/
noncomputable def cleanSkewness {V L : Type} (skew : List V → Option ℝ) (d : Nat)
    (train : List (List V)) (test : Option (List (List V))) (labels : Option (List L))
    (_mask : Option (List Nat)) (skewness : ℝ) : Except PyErr (Cleaned V L) :=
  let index := (List.range d).map fun j =>
    match skew (column train j) with
    | none => false
    | some s => decide (|s| < skewness)                                            -- L201-205
  selectColumns d index train test labels

/-- Rows with a finite target, `clean_data.py` L139-143. -/
def finiteRows {V : Type} (train : List (List (Option V))) (targets : Option (List (Option V))) :
    Except PyErr (List (List (Option V)) × Option (List (Option V))) :=
  match targets with
  | none => .ok (train, none)
  | some t =>
    if train.length ≠ t.length then .error .index else
    .ok (boolIndex (t.map Option.isSome) train, some (boolIndex (t.map Option.isSome) t))

/-- Columns that are finite in every row, `clean_data.py` L158, and the masked ones, L163-164.  Negative
mask entries are not modelled. -/
def finiteCols {V : Type} (d : Nat) (train : List (List (Option V))) (mask : Option (List Nat)) :
    Except PyErr (List Bool) :=
  let index := (List.range d).map fun j => train.all fun r => (r[j]?).any Option.isSome
  match mask with
  | none => .ok index
  | some m => if m.all (· < d) then .ok (m.foldl (fun ix j => ix.set j true) index)
              else .error .index

/-- `clean_infinite(train, test, targets, labels, mask)`, `preprocess/clean_data.py` L94-178, for the
default `max_impute_fraction = 0` (imputation by scikit-learn is not modelled).  An entry is `some x`
or `none` for nan/inf.  `clean['index']` and `bool_test` are the same array (L160-164), so masked
columns are part of the index. -/
def cleanInfinite {V L : Type} (d : Nat) (train : List (List (Option V)))
    (test : Option (List (List (Option V)))) (targets : Option (List (Option V)))
    (labels : Option (List L)) (mask : Option (List Nat)) : Except PyErr (Cleaned (Option V) L) := do
  let rows ← finiteRows train targets                                              -- L139-143
  let index ← finiteCols d rows.1 mask                                             -- L158-164
  let test' ← match test with                                                      -- L169-172
    | none => pure none
    | some t => if t.all (fun r => r.length == d) then pure (some (t.map (boolIndex index)))
                else throw .assertion
  let labels' ← match labels with                                                  -- L173-176
    | none => pure none
    | some l => if l.length = d then pure (some (boolIndex index l)) else throw .assertion
  pure ⟨index, rows.1.map (boolIndex index), test', rows.2, labels'⟩

end CatLearn.Clean
