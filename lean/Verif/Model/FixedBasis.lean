import Verif.Model.Py
import Mathlib.LinearAlgebra.Matrix.NonsingularInverse
import Mathlib.Data.Real.Basic

/-!
Predictions with a fixed basis: `GaussianProcess._fixed_basis`, catlearn/regression/gaussian_process.py L442-483.  The
matrices are real (no rounding); the covariances and the basis functions of the training and test points are parameters.
-/

namespace CatLearn.FixedBasis

open CatLearn Matrix

variable {n m q : Type} [Fintype n] [DecidableEq n] [Fintype m] [Fintype q] [DecidableEq q]

/-- `_make_prediction`, gaussian_process.py L415-440; `scal` is deviation and mean of the targets if `scale_data`. -/
def makePrediction (scal : Option (ℝ × ℝ)) (cinv : Matrix n n ℝ) (ktb : Matrix m n ℝ) (y : n → ℝ) : m → ℝ :=
  match scal with
  | none => ktb *ᵥ (cinv *ᵥ y)
  | some (s, μ) => fun i => (ktb *ᵥ (cinv *ᵥ y)) i * s + μ

/-- `_fixed_basis`, gaussian_process.py L442-483: `gX` and `g_cov`.  `H` and `Hs` have the basis functions of the training
and test points in their rows; `np.linalg.inv` of a singular matrix raises `LinAlgError`. -/
noncomputable def fixedBasis (scal : Option (ℝ × ℝ)) (cinv : Matrix n n ℝ) (ktb : Matrix m n ℝ) (ktest : Matrix m m ℝ)
    (H : Matrix n q ℝ) (Hs : Matrix m q ℝ) (y : n → ℝ) : Except PyErr ((m → ℝ) × Matrix m m ℝ) :=
  open Classical in
  let r := Hs - ktb * (cinv * H)                                      -- L461
  let gca := Hᵀ * (cinv * H)                                          -- L464, L470
  if gca.det = 0 then .error .linalg
  else
    let b2 := y ᵥ* (cinv * H)                                         -- L465
    let beta := gca⁻¹ *ᵥ b2                                           -- L466
    let covf := ktest - ktb * (cinv * ktbᵀ)                           -- L469
    .ok (makePrediction scal cinv ktb y + beta ᵥ* rᵀ,                 -- L474-475
      covf + r * (gca⁻¹ * rᵀ))                                        -- L471

end CatLearn.FixedBasis
