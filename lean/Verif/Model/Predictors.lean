import Verif.Model.Errors
import Verif.Model.GADraws
import Mathlib.Data.Real.Basic
import Mathlib.Algebra.Order.Monoid.Unbundled.WithTop

/-!
# Model of `catlearn/ga/predictors.py` and of `_cross_validate` in `catlearn/ga/algorithm.py`

The fitness functions fit a Gaussian process with `scale_data=True` to the training data and return the error of its
predictions on the test data.  The optimiser of scipy is an argument; it is given what the code gives to it: the stored
(scaled) training data and the hyperparameters to start from.  nan is `none`.
-/

namespace CatLearn.Predictors

open CatLearn CatLearn.Kernel CatLearn.Proc CatLearn.GA

/-- Rows of features with their targets. -/
abbrev Rows (N : ℕ) := List ((Fin N → ℝ) × ℝ)

/-- The optimiser (gaussian_process.py L324-346): from the training data as they are stored it gives an error (of the
likelihood, L339 of the same file) or a result for every starting point. -/
abbrev Optimiser := (N : ℕ) → List (Fin N → ℝ) → List ℝ → Except PyErr (List ℝ → List ℝ × ℝ)

/-- The kernel of the fitness functions, predictors.py L23-24, after `prepare_kernels`. -/
def kernel (N : ℕ) : List (KDict N) := [⟨.gaussian [1], none, some 1, false⟩]

/-- The process made on L26-31: fitted to the data, then optimised (gaussian_process.py L81-85). -/
noncomputable def fitted {N : ℕ} (m : Optimiser) (train : Rows N) : Except PyErr (GP N) :=
  match init (train.map Prod.fst) (train.map Prod.snd) (kernel N) (some (1 / 100)) false true with
  | .error e => .error e
  | .ok gp =>
    match m N gp.fp gp.target with
    | .error e => .error e
    | .ok search => optimize search gp

/-- All predictions, if none is nan. -/
def allSome : List (Option ℝ) → Option (List ℝ)
  | [] => some []
  | none :: _ => none
  | some y :: l => (allSome l).map (y :: ·)

/-- `pred['validation_error']['rmse_average']`, predictors.py L33-37.  (The training error, L35, is not used.) -/
noncomputable def rmse {N : ℕ} (m : Optimiser) (train test : Rows N) : Except PyErr (Option ℝ) :=
  match fitted m train with
  | .error e => .error e
  | .ok gp =>
    match predict gp (test.map Prod.fst) false with
    | .error e => .error e
    | .ok p =>
      match allSome p.prediction with
      | none => .ok none
      | some y =>
        match Err.getError y (test.map Prod.snd) with
        | .error e => .error e
        | .ok e => .ok (some e.rmseAverage)

/-- `minimize_error`, predictors.py L7-39. -/
noncomputable def minimizeError (m : Optimiser) (N : ℕ) (train test : Rows N) : Except PyErr (Option (List ℝ)) :=
  (rmse m train test).map (Option.map fun score => [-score])

/-- `minimize_error_descriptors`, L42-77: also the number of columns. -/
noncomputable def minimizeErrorDescriptors (m : Optimiser) (N : ℕ) (train test : Rows N) : Except PyErr (Option (List ℝ)) :=
  (rmse m train test).map (Option.map fun score => [-score, -(N : ℝ)])

/-- `minimize_error_time`, L81-118: also the time the training took, a parameter. -/
noncomputable def minimizeErrorTime (m : Optimiser) (time : (N : ℕ) → Rows N → ℝ) (N : ℕ) (train test : Rows N) :
    Except PyErr (Option (List ℝ)) :=
  (rmse m train test).map (Option.map fun score => [-score, -time N train])

/-- The columns an individual switches on, algorithm.py L265 and L400-404. -/
def columnsOf (D : ℕ) (p : Ind) : List (Fin D) := (List.finRange D).filter fun i => (p.getD i 0) ≠ 0

/-- `[:, parameter]`. -/
def select {D : ℕ} (p : Ind) (rows : Rows D) : Rows (columnsOf D p).length :=
  rows.map fun r => (fun i => r.1 ((columnsOf D p).get i), r.2)

/-- The loop of `_cross_validate`, algorithm.py L394-417: scores are added up; a LinAlgError counts as minus infinity, other
exceptions are not caught. -/
noncomputable def addScores {D : ℕ} (fit : (N : ℕ) → Rows N → Rows N → Except PyErr (Option (List ℝ))) (params : ℕ) (p : Ind) :
    List (Rows D × Rows D) → Option (List (WithBot ℝ)) → Except PyErr (Option (List (WithBot ℝ)))
  | [], total => .ok total
  | (test, train) :: rest, total =>
    match fit _ (select p train) (select p test) with
    | .error .linalg => addScores fit params p rest (total.map fun t => t.map fun _ => ⊥)
    | .error e => .error e
    | .ok none => addScores fit params p rest none
    | .ok (some score) =>
      if score.length ≠ params then .error .assertion                       -- L408-411
      else addScores fit params p rest (total.map fun t => List.zipWith (fun x (y : ℝ) => x + (y : WithBot ℝ)) t score)

/-- `_cross_validate`, algorithm.py L363-418: the mean of the scores over the folds. -/
noncomputable def crossValidate {D : ℕ} (fit : (N : ℕ) → Rows N → Rows N → Except PyErr (Option (List ℝ))) (params : ℕ)
    (folds : List (Rows D)) (p : Ind) : Except PyErr (Option (List (WithBot ℝ))) :=
  (addScores fit params p (cvSplits folds) (some (List.replicate params 0))).map
    (Option.map (List.map (WithBot.map fun x => x / folds.length)))

end CatLearn.Predictors
