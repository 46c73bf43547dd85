import Verif.Model.RidgeSearch

/-!
# Ridge regression with the search of its regularisation: `catlearn/regression/ridge_regression.py` L57-145, L383-435

A call of `get_coefficients` on a new object with `cv='loocv'`, from the data to the coefficients.  There is at least one feature and one
training point (numpy raises otherwise).
-/

namespace CatLearn.RidgeSearch

open CatLearn CatLearn.Ridge Matrix

variable {n d k : Type} [Fintype n] [Fintype d] [Fintype k] [DecidableEq n] [DecidableEq d] [DecidableEq k]

open Classical in
/-- `_LOOCV`, L426-435, from the diagonal `dig1`.  A zero on the diagonal of `P` gives `0 * inf`, which is NaN: for a regularisation that
is positive it cannot occur, and without regularisation `P` is a projection, whose row is zero with its diagonal. -/
noncomputable def loocvFrom (X : Matrix n d ℝ) (Y : n → ℝ) (p : ℝ) (U : Matrix n k ℝ) (dig1 : k → ℝ) : Fl :=
  let Y' : n → ℝ := Y - X *ᵥ fun _ => p
  let P : Matrix n n ℝ := 1 - U * diagonal dig1 * Uᵀ
  if ∃ i, P i i = 0 then .nan
  else .fin (Real.sqrt ((Fintype.card n : ℝ)⁻¹ * ((Y' ᵥ* P ᵥ* diagonal (fun i => (P i i ^ 2)⁻¹) ᵥ* P) ⬝ᵥ Y')))

open Classical in
/-- `_LOOCV`, L409-435, for any float as regularisation: `0 ** -1 * 0` is NaN, and for an infinite regularisation `dig1` is zero. -/
noncomputable def epeLoocv (X : Matrix n d ℝ) (Y : n → ℝ) (p : ℝ) (U : Matrix n k ℝ) (W : k → ℝ) : Fl → Fl
  | .nan => .nan
  | .ninf => loocvFrom X Y p U 0
  | .pinf => loocvFrom X Y p U 0
  | .fin w => if ∃ i, W i ^ 2 + w = 0 then .nan else loocvFrom X Y p U fun i => (W i ^ 2 + w)⁻¹ * W i ^ 2

/-- What `np.linalg.svd(X, full_matrices=False)` returns without the right factor, L108-109. -/
abbrev ThinSvd (n d k : Type) := Matrix n d ℝ → Matrix n k ℝ × (k → ℝ)

open Classical in
/-- `get_coefficients(Y, X, p=p)`, L57-79, on a new `RidgeRegression(cv='loocv', wsteps=wsteps, rsteps=rsteps)`: the regularisation
found and the coefficients, which are not numbers if the regularisation is not finite or an inverse does not exist (L201). -/
noncomputable def getLoocv {D : ℕ} (svd : Svd (Fin (D + 1))) (thin : ThinSvd n (Fin (D + 1)) k) (wsteps rsteps : ℕ)
    (X : Matrix n (Fin (D + 1)) ℝ) (Y : n → ℝ) (p : ℝ) : Except PyErr (Fl × Option (Fin (D + 1) → ℝ)) := do
  let S := svd (Xᵀ * X)                                                                             -- L104-106
  let T := thin X                                                                                   -- L108-109
  let omega2 ← findOptimal (epeLoocv X Y p T.1 T.2) (S.1 0) (S.1 (Fin.last D)) wsteps rsteps         -- L74-75
  match omega2 with
  | .fin w => pure (omega2, if ∃ i, S.1 i + w = 0 then none
      else some (rr svd ⟨some S.1, some S.2⟩ X Y w p false).1)                                       -- L76-77
  | _ => pure (omega2, none)

end CatLearn.RidgeSearch
