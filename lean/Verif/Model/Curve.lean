import Verif.Model.Py
import Verif.Model.Ridge
import Mathlib.Analysis.Real.Sqrt

/-!
The statistics of the learning curve, the feature selection with lasso and the bookkeeping of the coefficients:
`catlearn/learning_curve/data_process.py`, `feature_selection.py`, `placeholder.py` and `hierarchy` in
`learning_curve.py`.
-/

namespace CatLearn.Curve

/-! ### `get_statistic` and `average_nested` -/

/-- The loop of `get_statistic`, data_process.py L180-192, over the pairs (size, error); `k` is the size that opened the
current group `cur`.  The two lists of lists the code keeps are one list of lists of pairs here. -/
def groups : Nat → List (Nat × ℝ) → List (Nat × ℝ) → List (List (Nat × ℝ))
  | _, cur, [] => [cur]                                               -- L191-192
  | k, cur, x :: rest =>
    if x.1 > k + 1 then cur :: groups x.1 [x] rest                    -- L182-187
    else groups k (cur ++ [x]) rest                                   -- L188-190

/-- The groups `get_statistic` averages over, L179-193: the first group is deleted. -/
def statGroups (xs : List (Nat × ℝ)) : List (List (Nat × ℝ)) := (groups 0 [] xs).drop 1

/-- One point of the curve: mean error, mean size and corrected standard deviation (none is nan). -/
structure Point where
  error : ℝ
  size : ℝ
  std : Option ℝ

/-- One pass of the loop of `average_nested`, data_process.py L209-217.  Errors computed by `prediction_error` are numpy
floats, for which 0/0 is nan; for python floats it is a `ZeroDivisionError`. -/
noncomputable def point (numpy : Bool) (g : List (Nat × ℝ)) : Except PyErr Point :=
  if g = [] then .error .zeroDiv
  else
    let n : ℝ := g.length
    let mx := (g.map fun x => (x.1 : ℝ)).sum / n                      -- L210
    let my := (g.map fun x => x.2).sum / n                            -- L211
    let summa := (g.map fun x => (x.2 - my) ^ 2).sum                  -- L212-214
    if g.length = 1 then (if numpy then .ok ⟨my, mx, none⟩ else .error .zeroDiv)
    else .ok ⟨my, mx, some (Real.sqrt (summa / (n - 1)))⟩             -- L216

/-- `get_statistic`, data_process.py L169-196. -/
noncomputable def getStatistic (numpy : Bool) (xs : List (Nat × ℝ)) : Except PyErr (List Point) :=
  (statGroups xs).mapM (point numpy)

/-! ### Selection of features with lasso -/

/-- `interval_modifier`, feature_selection.py L103-130, on the list of alphas; the number of features at each alpha is
`count`, so that `feat_vec` is the image of `alpha_vec`.  The result is the new list, `splits` and `int_expand`. -/
noncomputable def intervalModifier (count : ℝ → Nat) (alphas : List ℝ) (feat splits intExpand : Nat) :
    Except PyErr (List ℝ × Nat × Nat) :=
  match alphas.findIdx? fun a => decide (count a > feat) with         -- L123
  | none => .error .index
  | some index =>
    .ok (if index > 2 then alphas.drop (index - 3) else alphas,       -- L124-126
      if index < 4 then 2 * splits else splits,                       -- L127-128
      if index < 4 then intExpand + 1 else intExpand)                 -- L129

/-- `alpha_finder`, feature_selection.py L82-101: the first alpha with exactly `feat` features. -/
noncomputable def alphaFinder (count : ℝ → Nat) (alphas : List ℝ) (feat : Nat) : Option ℝ :=
  alphas.find? fun a => decide (count a = feat)

/-- The while loop of `selection`, feature_selection.py L38-56, for one number of features, with a bound on the number
of passes: none if the loop has not ended by then.  The result is the alpha found (none if the search was given up) and
the list of alphas kept for the next number of features. -/
noncomputable def search (count : ℝ → Nat) (feat : Nat) :
    Nat → List ℝ → Nat → Nat → Option (Except PyErr (Option ℝ × List ℝ))
  | 0, _, _, _ => none
  | fuel + 1, alphas, splits, intExpand =>
    match alphaFinder count alphas feat with                          -- L39-40
    | some a => some (.ok (some a, alphas))                           -- L41-45
    | none =>
      if intExpand < 1 then                                           -- L47
        match intervalModifier count alphas feat splits intExpand with  -- L48-51
        | .error e => some (.error e)
        | .ok (al, sp, ie) =>
          match al with
          | [] => some (.error .index)
          | u :: _ => search count feat fuel (Ridge.linspace u 0 sp) sp ie   -- L52-54
      else some (.ok (none, alphas))                                  -- L56

/-- The outer loop of `selection`, feature_selection.py L33-56, over the numbers of features still to do. -/
noncomputable def selectLoop (count : ℝ → Nat) (sel : ℝ → List Nat) (lo hi fuel : Nat) :
    List Nat → List ℝ → List (Nat × List Nat) → Option (Except PyErr (List (Nat × List Nat)))
  | [], _, acc => some (.ok acc)
  | f :: fs, alphas, acc =>
    if lo < f ∧ f < hi then                                           -- L34
      match search count f fuel alphas 10 0 with                      -- L35-37
      | none => none
      | some (.error e) => some (.error e)
      | some (.ok (some a, al)) => selectLoop count sel lo hi fuel fs al (acc ++ [(f, sel a)])   -- L43-45
      | some (.ok (none, al)) => selectLoop count sel lo hi fuel fs al acc
    else selectLoop count sel lo hi fuel fs alphas acc

/-- `selection(select_limit)`, feature_selection.py L29-57, for `d` features.  The lasso fit is the parameter: `sel` gives
the indices of the nonzero coefficients at an alpha, as `feature_inspection` (L59-80) returns them. -/
noncomputable def selection (sel : ℝ → List Nat) (d lo hi fuel : Nat) :
    Option (Except PyErr (List (Nat × List Nat))) :=
  selectLoop (fun a => (sel a).length) sel lo hi fuel (List.range' 1 d) (Ridge.linspace 1 0 100) []

/-- `alpha_refinment(alpha, feat, splits, refsteps, upper)`, feature_selection.py L132-161.  Without an alpha to inspect the
variable `model` of `feature_inspection` (L80) is not assigned (NameError). -/
noncomputable def alphaRefinement (count : ℝ → Nat) (feat splits : Nat) (upper : ℝ) : Nat → ℝ → Except PyErr ℝ
  | 0, alpha => .ok alpha
  | refsteps + 1, alpha =>
    if splits = 0 then .error .name
    else
      match alphaFinder count (Ridge.linspace (upper * alpha) alpha splits) feat with
      | some a => alphaRefinement count feat splits upper refsteps a
      | none => alphaRefinement count feat splits upper refsteps alpha

/-! ### Which coefficients an error is computed with -/

/-- A tuple of `result`: the training subset and the test subset the error was computed for, and the coefficients used
(`result[i][4]`).  The sizes, the Pearson correlation and omega are not followed. -/
structure Fit (κ γ : Type) where
  train : κ
  test : κ
  coef : γ

/-- `reg_data_var`, placeholder.py L231-272, for a given training and test subset: `fit` is the ridge regression on the
training subset; `new` is `self.new_training`. -/
def regDataVar {κ γ : Type} (fit : κ → γ) (train test : κ) (new : Bool) (result : List (Fit κ γ)) :
    Except PyErr (List (Fit κ γ)) :=
  if new then .ok (result ++ [⟨train, test, fit train⟩])              -- L254-259, L264-269
  else match result with
    | [] => .error .index
    | r :: _ => .ok (result ++ [⟨train, test, r.coef⟩])               -- L261, L267-269

/-- The loop of `predict_subsets`, placeholder.py L94-106, over the test subsets that are left. -/
def predictSubsets {κ γ : Type} (fit : κ → γ) (train : κ) :
    Bool → List κ → List (Fit κ γ) → Except PyErr (List (Fit κ γ))
  | _, [], result => .ok result
  | new, t :: ts, result =>
    match regDataVar fit train t new result with
    | .error e => .error e
    | .ok r => predictSubsets fit train false ts r

/-- `hierarchy`, learning_curve.py L149-173, with the number of features fixed (`featselect_featvar=False`) and global
scaling: a new `placeholder` for every subset, the list `result` handed on.  The keys are pairs (level, number); the
test subsets are the numbers 1, …, 2^level other than that of the training subset (placeholder.py L94-96). -/
def hierarchy {γ : Type} (fit : Nat × Nat → γ) :
    List (Nat × Nat) → List (Fit (Nat × Nat) γ) → Except PyErr (List (Fit (Nat × Nat) γ))
  | [], result => .ok result
  | k :: ks, result =>
    match predictSubsets fit k true
      (((List.range' 1 (2 ^ k.1)).filter fun s => s ≠ k.2).map fun s => (k.1, s)) result with
    | .error e => .error e
    | .ok r => hierarchy fit ks r

end CatLearn.Curve
