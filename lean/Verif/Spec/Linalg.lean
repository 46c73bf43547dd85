import Mathlib.LinearAlgebra.Matrix.PosDef
import Mathlib.Analysis.Matrix.Spectrum

/-!
# Vocabulary of linear algebra used by the statements
-/

namespace CatLearn.Linalg

open Matrix

variable {n d k : Type} [Fintype n] [Fintype d] [Fintype k] [DecidableEq n] [DecidableEq d] [DecidableEq k]

/-- `A = V diag(W) Vh` with orthogonal `V` and `Vh` and non-negative `W`: the documented result of
`np.linalg.svd(A, full_matrices=True)` for a square matrix. -/
structure IsSVD (A V : Matrix d d ℝ) (W : d → ℝ) (Vh : Matrix d d ℝ) : Prop where
  left : Vᵀ * V = 1
  right : Vh * Vhᵀ = 1
  nonneg : ∀ i, 0 ≤ W i
  prod : V * diagonal W * Vh = A

/-- The documented result of `np.linalg.svd(X, full_matrices=False)`. -/
structure IsThinSVD (X : Matrix n d ℝ) (U : Matrix n k ℝ) (W : k → ℝ) (Vh : Matrix k d ℝ) : Prop where
  left : Uᵀ * U = 1
  right : Vh * Vhᵀ = 1
  nonneg : ∀ i, 0 ≤ W i
  prod : U * diagonal W * Vh = X

/-- The cost function minimised by ridge regression with prior `p`. -/
noncomputable def ridgeCost (X : Matrix n d ℝ) (Y : n → ℝ) (omega2 p : ℝ) (a : d → ℝ) : ℝ :=
  ∑ i, ((X *ᵥ a) i - Y i) ^ 2 + omega2 * ∑ j, (a j - p) ^ 2

/-- The data without row `i`. -/
def dropRow (X : Matrix n d ℝ) (i : n) : Matrix {j : n // j ≠ i} d ℝ := X.submatrix Subtype.val id

end CatLearn.Linalg
