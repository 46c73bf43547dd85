import Verif.Model.Clean

/-!
# Imputation of missing values: `clean_infinite` with `max_impute_fraction > 0`

catlearn/preprocess/clean_data.py L94-178.  `SimpleImputer` of scikit-learn is modelled by what its documentation says for the
strategies 'mean', 'median' and 'most_frequent': infinite values and arrays without rows or columns are refused with ValueError, columns
without any number are left out, every other nan is replaced by the statistic of its column of the training data.
-/

namespace CatLearn.Impute

open CatLearn CatLearn.Clean

/-- An entry of a matrix: a number, nan or an infinity. -/
inductive Cell where
  | fin (x : ℝ)
  | nan
  | inf

/-- The number, if there is one: `np.isfinite`. -/
def Cell.num : Cell → Option ℝ
  | .fin x => some x
  | _ => none

def Cell.isInf : Cell → Bool
  | .inf => true
  | _ => false

/-- A nan is replaced by `x`. -/
def Cell.fill (x : ℝ) : Cell → Cell
  | .nan => .fin x
  | c => c

/-- The numbers in column `j`. -/
def known (X : List (List Cell)) (j : ℕ) : List ℝ := (column X j).filterMap Cell.num

open Classical in
/-- `to_impute`, L151-152; without rows the fraction is nan, which is not smaller than anything. -/
noncomputable def toImpute (f : ℝ) (train : List (List Cell)) (j : ℕ) : Bool :=
  decide (train ≠ [] ∧ 1 - ((known train j).length : ℝ) / train.length ≤ f)

/-- `X[:, to_impute] = impute.transform(X[:, to_impute])`, L153 and L155, for the imputer fitted to `train`.  If columns were left out
the assignment raises ValueError, unless a single column remains, which numpy then copies to all selected ones. -/
noncomputable def transform (stat : List ℝ → ℝ) (sel : ℕ → Bool) (d : ℕ) (train X : List (List Cell)) :
    Except PyErr (List (List Cell)) :=
  let cols := (List.range d).filter sel
  if X = [] ∨ cols = [] then .error .value
  else if X.any fun r => cols.any fun j => r[j]?.any Cell.isInf then .error .value
  else
    let good := cols.filter fun j => !(known train j).isEmpty
    if good.length = cols.length then
      .ok (X.map fun r => r.mapIdx fun j c => if sel j then c.fill (stat (known train j)) else c)
    else
      match good with
      | [g] => .ok (X.map fun r => r.mapIdx fun j c => if sel j then (r.getD g .nan).fill (stat (known train g)) else c)
      | _ => .error .value

/-- The rows with a finite target, L139-143. -/
def targetRows (train : List (List Cell)) (targets : Option (List Cell)) :
    Except PyErr (List (List Cell) × Option (List Cell)) :=
  match targets with
  | none => .ok (train, none)
  | some t =>
    if train.length ≠ t.length then .error .index
    else .ok (boolIndex (t.map fun c => c.num.isSome) train, some (boolIndex (t.map fun c => c.num.isSome) t))

/-- The imputation, L149-155: both matrices afterwards. -/
noncomputable def imputeBoth (stat : List ℝ → ℝ) (f : ℝ) (d : ℕ) (train : List (List Cell)) (test : Option (List (List Cell))) :
    Except PyErr (List (List Cell) × Option (List (List Cell))) :=
  match transform stat (toImpute f train) d train train with
  | .error e => .error e
  | .ok train' =>
    match test with
    | none => .ok (train', none)
    | some t =>
      if !t.all (fun r => r.length == d) then .error .index              -- boolean index of another length
      else
        match transform stat (toImpute f train) d train t with
        | .error e => .error e
        | .ok t' => .ok (train', some t')

/-- The selection of columns, L157-178, as in `Clean.cleanInfinite`; nan and infinite entries of the results are `none`. -/
def finish {L : Type} (d : ℕ) (train : List (List Cell)) (test : Option (List (List Cell))) (targets : Option (List Cell))
    (labels : Option (List L)) (mask : Option (List ℕ)) : Except PyErr (Cleaned (Option ℝ) L) :=
  (cleanInfinite d (train.map fun r => r.map Cell.num) (test.map fun t => t.map fun r => r.map Cell.num) none labels mask).map
    fun c => { c with targets := targets.map fun t => t.map Cell.num }

open Classical in
/-- `clean_infinite(train, test, targets, labels, mask, max_impute_fraction, strategy)`, L94-178: the result, and the test matrix of the
caller afterwards.  With `aliased` the test matrix is an array of floats, which `np.asarray` (L146) does not copy, so that L155 writes to
it; the training matrix is copied (L137). -/
noncomputable def cleanImpute {L : Type} (stat : List ℝ → ℝ) (f : ℝ) (d : ℕ) (train : List (List Cell))
    (test : Option (List (List Cell))) (targets : Option (List Cell)) (labels : Option (List L)) (mask : Option (List ℕ))
    (aliased : Bool) : Except PyErr (Cleaned (Option ℝ) L) × Option (List (List Cell)) :=
  match targetRows train targets with
  | .error e => (.error e, test)
  | .ok (rows, t) =>
    if 0 < f then
      match imputeBoth stat f d rows test with
      | .error e => (.error e, test)
      | .ok (train', test') => (finish d train' test' t labels mask, if aliased then test' else test)
    else (finish d rows test t labels mask, test)

end CatLearn.Impute
