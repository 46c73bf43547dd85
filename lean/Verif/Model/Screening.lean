import Verif.Model.Py
import Mathlib.Data.Real.Basic

/-!
# Model of `catlearn/preprocess/feature_elimination.py` (class `FeatureScreening`), of
`RegressionFit.feature_select` in `catlearn/regression/scikit_wrapper.py` and of `catlearn_pca` in
`catlearn/preprocess/feature_extraction.py`

A feature matrix is the list of its columns.  Step sizes are natural numbers.
-/

namespace CatLearn.Screen

open CatLearn

/-- A column of a matrix. -/
abbrev Col := List ℝ

/-- The external functions: the three correlation coefficients of `scipy.stats`, `np.allclose(d, d[0])`
and the coefficients fitted by scikit-learn (one per column; a Lasso line search that finds no penalty
with enough coefficients raises NameError instead and is not modelled). -/
structure Ext where
  pearsonr : Col → Col → ℝ
  spearmanr : Col → Col → ℝ
  kendalltau : Col → Col → ℝ
  isConst : Col → Bool
  coef : List Col → Col → List ℝ

/-- One pass of the loop in `_get_correlation`, L263-272: the conditions as written. -/
noncomputable def corrOf (x : Ext) (correlation : String) (target d : Col) : Option ℝ :=
  if x.isConst d then some 0
  else if correlation ≠ "pearson" then some (x.pearsonr d target)
  else if correlation ≠ "spearman" then some (x.spearmanr d target)
  else if correlation ≠ "kendall" then some (x.kendalltau d target)
  else none

/-- `_get_correlation`, L247-274. -/
noncomputable def getCorrelation (x : Ext) (correlation : String) (target : Col) (cols : List Col) : List ℝ :=
  cols.filterMap (corrOf x correlation target)

/-- `zip(*sorted(zip(np.abs(v), range(len(v))), key=…, reverse=True))`, second row: the positions in
stable order of decreasing absolute value (feature_elimination.py L116-118, scikit_wrapper.py L71-74). -/
noncomputable def orderByAbs (v : List ℝ) : List Nat :=
  sortDesc (fun i => |v.getD i 0|) (List.range v.length)

/-- `np.delete(m, idx, axis=1)` for valid indices. -/
def deleteCols {V : Type} (cols : List V) (idx : List Nat) : List V :=
  (cols.zipIdx.filter fun p => !idx.contains p.2).map Prod.fst

/-- `_random_extend` and `_set_index`, L225-245 and L380-396: `fresh r` are the `r` random columns.
Returns the matrix and the indices of the random columns.  `int(f * 0.1)` is `f / 10`. -/
def setIndex (randomCheck : Bool) (fresh : Nat → List Col) (cols : List Col) :
    Except PyErr (List Col × List Nat) :=
  if randomCheck then
    let r := cols.length / 10
    if r = 0 then .error .assertion
    else .ok (cols ++ fresh r, List.range' cols.length r)
  else .ok (cols, [])

/-- The result of `screen`. -/
structure Screened where
  index : List Nat
  correlation : List ℝ
  size : Nat

/-- Body of `screen` after `_set_index`, L111-131; `n` is the number of data.  With no columns
`sort_list[1]` raises IndexError. -/
noncomputable def screenCore (x : Ext) (correlation : String) (target : Col) (n : Nat) (cols : List Col)
    (randf : List Nat) : Except PyErr Screened :=
  if cols = [] then .error .index
  else
    let corr := getCorrelation x correlation target cols
    let index := orderByAbs corr
    let findMin := randf.map fun i => index.idxOf i
    .ok ⟨index, index.map fun i => |corr.getD i 0|, findMin.foldl min n⟩

/-- `screen`, L87-131. -/
noncomputable def screen (x : Ext) (correlation : String) (randomCheck : Bool) (fresh : Nat → List Col)
    (target : Col) (n : Nat) (cols : List Col) : Except PyErr Screened := do
  let (cols', randf) ← setIndex randomCheck fresh cols
  screenCore x correlation target n cols' randf

/-- The result of `_reduce_matrix`. -/
structure Reduced where
  accepted : List Nat
  rejected : List Nat
  matrix : List Col

/-- Body of `_reduce_matrix` after `_set_index`, L324-335. -/
def reduceCore (cols : List Col) (order : List Nat) (size : Nat) : Except PyErr Reduced :=
  if cols.length ≠ order.length then .error .assertion
  else
    let m := deleteCols cols (order.drop size)
    if m.length ≠ (order.take size).length then .error .assertion
    else .ok ⟨order.take size, order.drop size, m⟩

/-- `_reduce_matrix`, L308-335. -/
def reduceMatrix (randomCheck : Bool) (fresh : Nat → List Col) (cols : List Col) (order : List Nat)
    (size : Nat) : Except PyErr Reduced := do
  let (cols', _) ← setIndex randomCheck fresh cols
  reduceCore cols' order size

/-- `_regression_ordering` L337-359 and `RegressionFit.feature_select` (scikit_wrapper.py L39-79): the
`size` positions with the largest absolute coefficients, and the rest. -/
noncomputable def featureSelect (coeff : List ℝ) (size : Nat) : Except PyErr (List Nat × List Nat) :=
  if coeff = [] then .error .index
  else .ok ((orderByAbs coeff).take size, (orderByAbs coeff).drop size)

/-- The loop L204-208: translate positions until a random feature is met. -/
def sisAccept (acc randf : List Nat) : List Nat → Bool × List Nat
  | [] => (true, [])
  | i :: is =>
    if acc.getD i 0 ∈ randf then (false, [])
    else
      let (c, rest) := sisAccept acc randf is
      (c, acc.getD i 0 :: rest)

/-- The loop L209-211: `accepted.append(rejected[i]); del rejected[i]`, positions in decreasing order. -/
def popAll : List Nat → List Nat → List Nat → List Nat × List Nat
  | accepted, rejected, [] => (accepted, rejected)
  | accepted, rejected, i :: is => popAll (accepted ++ [rejected.getD i 0]) (rejected.eraseIdx i) is

/-- What `_iterator` leaves behind: `not_converged`, the two lists it updates in place, and the two
matrices. -/
structure Iter where
  notConverged : Bool
  accepted : List Nat
  rejected : List Nat
  train : List Col
  reduced : List Col

/-- The last part of `_iterator`, L203-223. -/
def iteratorEnd (acc regr accepted rejected randf : List Nat) (keep : List Col) : Except PyErr Iter :=
  let (c, sis) := sisAccept acc randf regr
  let (accepted', rejected') := popAll accepted rejected (sortDesc id sis)
  let train := deleteCols keep (accepted' ++ randf)
  let reduced := deleteCols keep (rejected' ++ randf)
  if train.length ≠ rejected'.length then .error .assertion
  else if reduced.length ≠ accepted'.length then .error .assertion
  else .ok ⟨c, accepted', rejected', train, reduced⟩

/-- `_iterator`, L188-223 (called with `random_check` already set to False). -/
noncomputable def iterator (x : Ext) (correlation : String) (target : Col) (n : Nat) (features : List Col)
    (size step : Nat) (accepted rejected randf : List Nat) (keep : List Col) : Except PyErr Iter := do
  let sc ← screenCore x correlation target n features []
  let rs ← reduceCore features sc.index size
  let (regr, _) ← featureSelect (x.coef rs.matrix target) step
  iteratorEnd rs.accepted regr accepted rejected randf keep

/-- Dot product of two columns. -/
noncomputable def dot (a b : Col) : ℝ := (List.zipWith (· * ·) a b).sum

/-- One assignment in `_get_response`, L374-375: `(d - np.dot(a, np.dot(d, a))) / (n ** 2)` with `n` the norm
of `a`. -/
noncomputable def respOne (d a : Col) : Col :=
  List.zipWith (fun di ai => (di - ai * dot d a) / dot a a) d a

/-- `_get_response`, L361-378: the inner loop overwrites `r`, so the last accepted column counts; with no
accepted column `r` is unbound. -/
noncomputable def getResponse (train reduced : List Col) : Except PyErr (List Col) :=
  match reduced.getLast? with
  | some a => .ok (train.map fun d => respOne d a)
  | none => if train = [] then .ok [] else .error .name

/-- The while loop of `iterative_screen`, L172-186; `none` if the fuel does not suffice. -/
noncomputable def loop (x : Ext) (correlation : String) (target : Col) (n size : Nat) (randf : List Nat)
    (keep : List Col) : Nat → Nat → Iter → Option (Except PyErr (List Nat × Nat))
  | 0, _, _ => none
  | fuel + 1, step, it =>
    if it.reduced.length < size ∧ it.notConverged = true then
      let step' := if size - it.reduced.length < step then size - it.reduced.length else step
      match getResponse it.train it.reduced with
      | .error e => some (.error e)
      | .ok resp =>
        match iterator x correlation target n resp size step' it.accepted it.rejected randf keep with
        | .error e => some (.error e)
        | .ok it' => loop x correlation target n size randf keep fuel step' it'
    else some (.ok (it.accepted ++ it.rejected, it.accepted.length))

/-- `_dimension_check`, L276-306, for a given step (the default `round(n / log(n))` is a parameter
`defaultStep`). -/
def dimensionCheck (iterative : Bool) (defaultStep : Nat) (n f : Nat) (size step : Option Nat) :
    Except PyErr (Nat × Nat) :=
  let size := size.getD n
  if iterative then
    if ¬ f > 2 * size then .error .assertion
    else
      let step := step.getD defaultStep
      if ¬ step < size then .error .assertion else .ok (size, step)
  else if ¬ f > size then .error .assertion
  else .ok (size, step.getD 0)

/-- `iterative_screen`, L133-186. -/
noncomputable def iterativeScreen (x : Ext) (correlation : String) (iterative randomCheck : Bool)
    (fresh : Nat → List Col) (defaultStep : Nat) (fuel : Nat) (target : Col) (n : Nat) (cols : List Col)
    (size step : Option Nat) : Option (Except PyErr (List Nat × Nat)) :=
  match dimensionCheck iterative defaultStep n cols.length size step with
  | .error e => some (.error e)
  | .ok (size, step) =>
    match setIndex randomCheck fresh cols with
    | .error e => some (.error e)
    | .ok (keep, randf) =>
      match iterator x correlation target n keep size step [] (List.range cols.length) randf keep with
      | .error e => some (.error e)
      | .ok it => loop x correlation target n size randf keep fuel step it

/-- `iterative_screen` as a method: the result and the value of `self.random_check` afterwards.  The method
sets it to False (L167) once the checks and `_set_index` have passed, and never restores it. -/
noncomputable def iterativeScreenObj (x : Ext) (correlation : String) (iterative randomCheck : Bool)
    (fresh : Nat → List Col) (defaultStep : Nat) (fuel : Nat) (target : Col) (n : Nat) (cols : List Col)
    (size step : Option Nat) : Option (Except PyErr (List Nat × Nat)) × Bool :=
  (iterativeScreen x correlation iterative randomCheck fresh defaultStep fuel target n cols size step,
    match dimensionCheck iterative defaultStep n cols.length size step, setIndex randomCheck fresh cols with
    | .ok _, .ok _ => false
    | _, _ => randomCheck)

/-- `eliminate_features` with `iterative=False` and no precomputed order, L70-85: the argument `size` is
overwritten by the size found by `screen`. -/
noncomputable def eliminateOnce (x : Ext) (correlation : String) (randomCheck : Bool)
    (fresh fresh1 fresh2 : Nat → List Col) (target : Col) (n : Nat) (train test : List Col)
    (_size : Option Nat) : Except PyErr (List Col × List Col × List Nat × Nat) := do
  let sc ← screen x correlation randomCheck fresh target n train
  let a ← reduceMatrix randomCheck fresh1 train sc.index sc.size
  let b ← reduceMatrix randomCheck fresh2 test sc.index sc.size
  .ok (a.matrix, b.matrix, sc.index, sc.size)

/-! ### Principal components (`feature_extraction.py` L102-148) -/

/-- `l[i]`, raising IndexError. -/
def pyGet {V : Type} (l : List V) (i : Nat) : Except PyErr V :=
  match l[i]? with
  | some v => .ok v
  | none => .error .index

/-- The projection matrix built in L135-140 from the list `u` of singular vectors (in the order in which
`np.linalg.svd` returns them), as a list of columns.  Asking for more vectors than there are raises
IndexError. -/
def projection {V : Type} (u : List V) (components : Nat) : Except PyErr (List V) :=
  if components = 0 then .error .assertion
  else do
    let first ← pyGet u 0
    let rest ← (List.range (components - 1)).mapM (pyGet u)
    .ok (first :: rest)

/-- `data['variance']`, L132: percentages of the singular values. -/
noncomputable def variance (s : List ℝ) : List ℝ := (sortDesc id s).map fun i => i / s.sum * 100

end CatLearn.Screen
