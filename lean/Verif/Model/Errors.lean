import Verif.Model.Py
import Verif.Model.GP
import Mathlib.Algebra.Order.Floor.Semiring
import Mathlib.Data.Real.Archimedean

/-!
# Model of `catlearn/regression/cost_function.py`

Numbers are exact reals.  For empty lists the statistics of numpy are nan (or raise, depending on the version): theorems
are about non-empty lists.
-/

namespace CatLearn.Err

open CatLearn CatLearn.Kernel CatLearn.Proc

/-- `np.mean`. -/
noncomputable def mean (l : List ℝ) : ℝ := l.sum / l.length

/-- `np.percentile(l, p)` with the default linear interpolation between the two nearest ranks. -/
noncomputable def percentile (l : List ℝ) (p : ℝ) : ℝ :=
  let s := sortAsc id l
  let pos := p / 100 * (l.length - 1)
  let i := ⌊pos⌋₊
  s.getD i 0 + (pos - i) * (s.getD (i + 1) (s.getD i 0) - s.getD i 0)

/-- `np.median`: the mean of the two middle elements of the sorted list. -/
noncomputable def median (l : List ℝ) : ℝ :=
  let s := sortAsc id l
  (s.getD ((l.length - 1) / 2) 0 + s.getD (l.length / 2) 0) / 2

/-- `_get_percentiles`, L88-104. -/
noncomputable def percentiles (l : List ℝ) : List (Nat × ℝ) :=
  [99, 95, 75, 25, 5, 1].map fun (p : Nat) => (p, percentile l p)

/-- The entries `get_error` always has. -/
structure Errors where
  residuals : List ℝ
  signedMean : ℝ
  signedMedian : ℝ
  signedPercentiles : List (Nat × ℝ)
  rmseAll : List ℝ
  rmseAverage : ℝ
  rmsePercentiles : List (Nat × ℝ)
  absoluteAll : List ℝ
  absoluteAverage : ℝ
  absolutePercentiles : List (Nat × ℝ)

/-- `get_error(prediction, target)`, L11-61. -/
noncomputable def getError (prediction target : List ℝ) : Except PyErr Errors :=
  if prediction.length ≠ target.length then .error .assertion
  else
    let res := List.zipWith (· - ·) prediction target
    let sq := res.map fun r => r ^ 2
    let rm := sq.map Real.sqrt
    let ab := res.map fun r => |r|
    .ok ⟨res, mean res, median res, percentiles res, rm, Real.sqrt (mean sq), percentiles rm, ab, mean ab, percentiles ab⟩

/-- The entries added for the metric 'insensitive', L72-83. -/
structure Insensitive where
  all : List ℝ
  average : ℝ
  percentiles : Option (List (Nat × ℝ))

/-- `get_error(…, metrics=['insensitive'], epsilon=epsilon, return_percentiles=rp)`, L72-83; an epsilon that is not a
float (in the model: absent) raises AssertionError. -/
noncomputable def insensitive (prediction target : List ℝ) (epsilon : Option ℝ) (rp : Bool) :
    Except PyErr Insensitive := do
  let e ← getError prediction target
  match epsilon with
  | none => throw .assertion
  | some eps =>
    let l := e.residuals.map fun r => if |r| - eps < 0 then 0 else |r| - eps
    pure ⟨l, mean l, if rp then some (percentiles l) else none⟩

/-- A floating-point result: not a number, +infinity, or a number. -/
inductive Val
  | nan
  | inf
  | num (x : ℝ)

/-- One entry of 'log_all', L64-66: a target below -1 gives the logarithm of a negative number (nan), the target -1 the
logarithm of zero (-inf, squared inf). -/
noncomputable def logTerm (p t : ℝ) : Val :=
  if t < -1 then .nan else if t = -1 then .inf else .num ((Real.log (max p 0 + 1) - Real.log (t + 1)) ^ 2)

/-- `np.sqrt` of such a result. -/
noncomputable def Val.sqrt : Val → Val
  | .nan => .nan
  | .inf => .inf
  | .num x => .num (Real.sqrt x)

/-- Not a number. -/
def Val.isNan : Val → Bool
  | .nan => true
  | _ => false

/-- Infinite. -/
def Val.isInf : Val → Bool
  | .inf => true
  | _ => false

/-- The number, if it is one. -/
def Val.toNum : Val → Option ℝ
  | .num x => some x
  | _ => none

/-- `np.nanmean`: entries that are not numbers are left out; nan if none is left. -/
noncomputable def nanmean (l : List Val) : Val :=
  if l.all Val.isNan then .nan else if l.any Val.isInf then .inf else .num (mean (l.filterMap Val.toNum))

/-- The entries added for the metric 'log', L62-68. -/
structure LogErrors where
  all : List Val
  rmsleAll : List Val
  rmsleAverage : Val

/-- `get_error(…, metrics=['log'])`, L62-68. -/
noncomputable def logErrors (prediction target : List ℝ) : Except PyErr LogErrors := do
  let _ ← getError prediction target
  let l := List.zipWith logTerm prediction target
  pure ⟨l, l.map Val.sqrt, (nanmean l).sqrt⟩

/-- `_cost_function(theta, …, lf)`, L107-143, with `lf` 'rmse' (`true`) or 'absolute'. -/
noncomputable def costFunction {N : Nat} (θ : List ℝ) (fp : List (Fin N → ℝ)) (y : List ℝ) (ks : List (KDict N))
    (log rmse : Bool) : Except PyErr ℝ := do
  let ks' ← list2kdict θ ks
  match θ.getLast? with
  | none => throw .index
  | some r =>
    let K := gram ks' log (some r) fp
    let ci ← invGram ks' log (some r) fp
    if y.length ≠ ci.1 then throw .value
    let alpha := Matrix.mulVec ci.2 fun i => y.getD i 0
    let pred := List.ofFn (Matrix.mulVec K fun i => if h : i.1 < ci.1 then alpha ⟨i.1, h⟩ else 0)
    let e ← getError pred y
    pure (if rmse then e.rmseAverage else e.absoluteAverage)

end CatLearn.Err
