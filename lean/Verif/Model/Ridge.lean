import Verif.Model.Py
import Mathlib.Data.Matrix.Mul
import Mathlib.LinearAlgebra.Matrix.Trace
import Mathlib.Analysis.SpecialFunctions.Exp
import Mathlib.Analysis.SpecialFunctions.Log.Basic
import Mathlib.Analysis.Real.Sqrt

/-!
# Model of `catlearn/regression/ridge_regression.py`

Data are real matrices (floating point is not modelled): `n` indexes the training rows, `d` the features.
`np.linalg.svd` is a parameter; what is assumed of its result is the defining property of a singular value
decomposition, stated where it is used (`Verif/Spec/Linalg.lean`).  The shape of the data is the same in all calls
on one object (numpy raises an exception otherwise).  The search of the regularisation is in `RidgeSearch.lean`.
-/

namespace CatLearn.Ridge

open CatLearn Matrix

variable {n d : Type} [Fintype n] [Fintype d] [DecidableEq n] [DecidableEq d]

/-- The mutable part of a `RidgeRegression` object, L34-35: the stored singular values and right factor. -/
structure Obj (d : Type) where
  W2 : Option (d → ℝ)
  Vh : Option (Matrix d d ℝ)

/-- What `np.linalg.svd(XᵀX, full_matrices=True)` returns without the left factor, which the code does not use. -/
abbrev Svd (d : Type) := Matrix d d ℝ → (d → ℝ) × Matrix d d ℝ

/-- L104-106 and L196-198: use the stored decomposition, or compute it. -/
def decompose (svd : Svd d) (s : Obj d) (X : Matrix n d ℝ) : (d → ℝ) × Matrix d d ℝ :=
  match s.W2, s.Vh with
  | some W2, some Vh => (W2, Vh)
  | _, _ => svd (Xᵀ * X)

/-- The coefficients computed from a decomposition, L200-203 and `_RR_preSVD`, L231-236. -/
noncomputable def solve (W2 : d → ℝ) (Vh : Matrix d d ℝ) (X : Matrix n d ℝ) (Y : n → ℝ) (omega2 p : ℝ) : d → ℝ :=
  (Vhᵀ * diagonal (fun i => (W2 i + omega2)⁻¹) * Vh) *ᵥ (Xᵀ *ᵥ Y + fun _ => omega2 * p)

/-- `RR`, L171-208: coefficients, effective number of parameters and the object afterwards. -/
noncomputable def rr (svd : Svd d) (s : Obj d) (X : Matrix n d ℝ) (Y : n → ℝ) (omega2 p : ℝ) (featvar : Bool) :
    (d → ℝ) × ℝ × Obj d :=
  let D := decompose svd s X
  (solve D.1 D.2 X Y omega2 p, ∑ i, D.1 i * (D.1 i + omega2)⁻¹,
    { W2 := if featvar then none else some D.1, Vh := some D.2 })

/-- `np.linspace(a, b, k)` for `k ≠ 1` (a single value is `a`, for which the quotient here is multiplied by 0). -/
noncomputable def linspace (a b : ℝ) (k : Nat) : List ℝ :=
  (List.range k).map fun (i : Nat) => a + (i : ℝ) * ((b - a) / (k - 1 : ℕ))

/-- `get_coefficients`, L57-79.  `find` is `find_optimal_regularization` on the object with its decomposition
stored.  When `reg` is given, `data['reg']` is not set: reading it from the `defaultdict(list)` gives an empty list, and
`np.ones(len(W2)) * []` or the following matrix product raises ValueError for operands of different shapes. -/
noncomputable def getCoefficients (svd : Svd d) (find : Obj d → Matrix n d ℝ → (n → ℝ) → ℝ → ℝ) (s : Obj d)
    (X : Matrix n d ℝ) (Y : n → ℝ) (reg : Option ℝ) (p : ℝ) : Except PyErr (ℝ × (d → ℝ) × Obj d) :=
  match reg with
  | some _ => .error .value
  | none =>
    let D := decompose svd s X
    let s' : Obj d := { W2 := some D.1, Vh := some D.2 }
    let omega2 := find s' X Y p
    let res := rr svd s' X Y omega2 p false
    .ok (omega2, res.1, res.2.2)

/-- `predict`, L41-55, for coefficients given by the user or computed by `get_coefficients`. -/
def predict {m : Type} (coef : d → ℝ) (X : Matrix m d ℝ) : m → ℝ := X *ᵥ coef

variable {k : Type} [Fintype k] [DecidableEq k]

/-- `_LOOCV`, L409-435, with `U` and `W` from `np.linalg.svd(X, full_matrices=False)`. -/
noncomputable def loocv (X : Matrix n d ℝ) (Y : n → ℝ) (p omega2 : ℝ) (U : Matrix n k ℝ) (W : k → ℝ) : ℝ :=
  let Y' : n → ℝ := Y - X *ᵥ fun _ => p
  let dig1 : k → ℝ := fun i => (W i ^ 2 + omega2)⁻¹ * W i ^ 2
  let P : Matrix n n ℝ := 1 - U * diagonal dig1 * Uᵀ
  Real.sqrt ((Fintype.card n : ℝ)⁻¹ * ((Y' ᵥ* P ᵥ* diagonal (fun i => (P i i ^ 2)⁻¹) ᵥ* P) ⬝ᵥ Y'))

/-- `_bootstrap_ERR`, L337-357: `errors` has one row per bootstrap sample and one entry per data point, `samples` one
list of drawn indices per bootstrap sample.  A point that is in every sample has no error estimate (numpy
returns nan for the mean of nothing), modelled by none. -/
noncomputable def bootstrapErrI (errors : List (Nat → ℝ)) (samples : List (List Nat)) (i : Nat) : Option ℝ :=
  let out := (List.zip errors samples).filter fun es => !es.2.contains i
  if out.length = 0 then none else some ((out.map fun es => es.1 i ^ 2).sum / out.length)

/-- The mean over the `nd` points, L355. -/
noncomputable def bootstrapErr (nd : Nat) (errors : List (Nat → ℝ)) (samples : List (List Nat)) : Option ℝ :=
  ((List.range nd).mapM (bootstrapErrI errors samples)).map fun l => l.sum / nd

/-- `EPE`, L333. -/
noncomputable def epe632 (err errOut : ℝ) : ℝ := Real.sqrt (0.368 * err + 0.632 * errOut)

end CatLearn.Ridge
