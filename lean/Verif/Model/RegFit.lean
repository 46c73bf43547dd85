import Verif.Model.Screening
import Verif.Model.Errors

/-!
# Model of `RegressionFit`, catlearn/regression/scikit_wrapper.py

The estimators of scikit-learn are given: the coefficients and predictions of the cross-validated models and the coefficients of
`Lasso` for every penalty.  The penalties of the line search (`np.geomspace(max_alpha, min_alpha, steps)`, L130-131) are given as a
list; it does not exist for `steps=None`.
-/

namespace CatLearn.RegFit

open CatLearn CatLearn.Screen CatLearn.Err

/-- The argument `method` (L13); `other` is any string without a branch in `_get_coefficients`. -/
inductive Method where
  | ridge | elastic | lasso | other
  deriving DecidableEq

/-- What scikit-learn computes from the data of the object. -/
structure Sklearn where
  /-- `coef_` of `RidgeCV`, `ElasticNetCV`, `LassoCV` (L99, L115, L147) -/
  coef : Method → List ℝ
  /-- `model.predict(self.test_matrix)` (L104, L120, L152) -/
  pred : Method → List ℝ
  /-- `coef_` of `Lasso(alpha)` (L137-140) -/
  lasso : ℝ → List ℝ

/-- The data and the arguments (L13-37, L39-62). -/
structure Args where
  method : Method
  predict : Bool
  testTarget : List ℝ
  size : Option ℕ
  lineSearch : Bool
  alphas : Option (List ℝ)

/-- An entry of the dictionary of `get_error`, a `defaultdict(list)` (cost_function.py L44): a number, or the empty list it makes up for
a missing key. -/
inductive Entry where
  | value (x : ℝ)
  | emptyList

/-- The entries of `get_error` that are numbers (cost_function.py L50-61). -/
def scalarEntries (e : Errors) : List (String × ℝ) :=
  [("signed_mean", e.signedMean), ("signed_median", e.signedMedian), ("rmse_average", e.rmseAverage),
    ("absolute_average", e.absoluteAverage)]

/-- `error[key]` for a key that is not one of the lists. -/
def entry (e : Errors) (key : String) : Entry :=
  match (scalarEntries e).lookup key with
  | some x => .value x
  | none => .emptyList

/-- `get_error(prediction=data, target=self.test_target)['average']` if `predict` is set, else `None` (L102-106, L118-122, L150-154). -/
noncomputable def predictionError (s : Sklearn) (a : Args) (m : Method) : Except PyErr (Option Entry) :=
  if a.predict then
    match getError (s.pred m) a.testTarget with
    | .error e => .error e
    | .ok e => .ok (some (entry e "average"))
  else .ok none

/-- The number of coefficients that are not zero (L141). -/
noncomputable def nonzero (c : List ℝ) : ℕ := c.length - (c.filter fun x => decide (x = 0)).length

/-- The loop over the penalties, L136-144: the first model with at least `size` features.  Comparing with `None` raises TypeError; if
no penalty will do, `coeff` is unbound at L156. -/
noncomputable def lineSearch (s : Sklearn) (size : Option ℕ) : List ℝ → Except PyErr (List ℝ)
  | [] => .error .name
  | α :: αs =>
    match size with
    | none => .error .type
    | some n => if nonzero (s.lasso α) ≥ n then .ok (s.lasso α) else lineSearch s size αs

/-- `_get_coefficients`, `_ridge`, `_elast` and `_lasso`, L81-156. -/
noncomputable def coefficients (s : Sklearn) (a : Args) : Except PyErr (List ℝ × Option Entry) :=
  match a.method with
  | .other => .error .name
  | .lasso =>
    if a.lineSearch then
      match a.alphas with
      | none => .error .type
      | some l =>
        match lineSearch s a.size l with
        | .error e => .error e
        | .ok c => .ok (c, none)
    else
      match predictionError s a .lasso with
      | .error e => .error e
      | .ok p => .ok (s.coef .lasso, p)
  | m =>
    match predictionError s a m with
    | .error e => .error e
    | .ok p => .ok (s.coef m, p)

/-- The result of `feature_select`. -/
structure Selected where
  coeff : List ℝ
  prediction : Option Entry
  accepted : List ℕ
  rejected : List ℕ

/-- `feature_select`, L39-79.  Slicing with `None` takes the whole list, for `[:None]` and for `[None:]`. -/
noncomputable def featureSelect (s : Sklearn) (a : Args) : Except PyErr Selected :=
  match coefficients s a with
  | .error e => .error e
  | .ok (c, p) =>
    if c = [] then .error .index
    else
      match a.size with
      | none => .ok ⟨c, p, orderByAbs c, orderByAbs c⟩
      | some n => .ok ⟨c, p, (orderByAbs c).take n, (orderByAbs c).drop n⟩

end CatLearn.RegFit
