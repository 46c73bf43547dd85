import Verif.Model.GP
import Verif.Model.FixedBasis
import Mathlib.LinearAlgebra.Matrix.Hadamard

/-!
# Predictions of a Gaussian process, with the matrices of the code

`Model/GP` computes a prediction point by point.  Here are the same functions with whole matrices, as they are written in
`covariance.py`, `gaussian_process.py` and `uncertainty.py`.
-/

namespace CatLearn.Proc

open CatLearn CatLearn.Kernel Matrix

/-- One pass of the loop of `get_covariance`, covariance.py L37-70: `cov *= scaling * k` or `cov += scaling * k`, entry by entry. -/
noncomputable def joinKernel {N : ℕ} {m n : Type} (k : KDict N) (log : Bool) (cov K : Matrix m n ℝ) : Matrix m n ℝ :=
  if k.mult then cov ⊙ (scaleFactor k log • K) else cov + scaleFactor k log • K

/-- `get_covariance(matrix1, matrix2)`, covariance.py L28-76, for two sets of points and without regularisation. -/
noncomputable def covCross {N : ℕ} {m n : Type} (ks : List (KDict N)) (log : Bool) (A : m → Fin N → ℝ) (B : n → Fin N → ℝ) :
    Matrix m n ℝ :=
  ks.foldl (fun cov k => joinKernel k log cov (Matrix.of fun i j => entry k.ktype (columns k) log (A i) (B j) false)) 0

/-- `get_covariance(matrix1)`, covariance.py L28-76, for one set of points and without regularisation. -/
noncomputable def covOwn {N : ℕ} {m : Type} [DecidableEq m] (ks : List (KDict N)) (log : Bool) (A : m → Fin N → ℝ) :
    Matrix m m ℝ :=
  ks.foldl (fun cov k => joinKernel k log cov (Matrix.of fun i j => entry k.ktype (columns k) log (A i) (A j) (decide (i = j)))) 0

/-- `get_uncertainty`, uncertainty.py L33-43: diagonal of the covariance, `einsum("ij,ij->i", ktb·cinv, ktb)` and square root. -/
noncomputable def batchUncertainty {N : ℕ} {m n : Type} [DecidableEq m] [Fintype n] (ks : List (KDict N)) (log : Bool)
    (T : m → Fin N → ℝ) (ktb : Matrix m n ℝ) (cinv : Matrix n n ℝ) : m → Option ℝ :=
  let scale := Matrix.diag (covOwn ks log T)
  let var := fun i => ∑ j, (ktb * cinv) i j * ktb i j
  fun i => npSqrt (scale i - var i)

/-- `predict(test_fp, uncertainty)`, gaussian_process.py L87-205, with matrices. -/
noncomputable def predictBatch {N : ℕ} (gp : GP N) (test : List (Fin N → ℝ)) (uncertainty : Bool) : Except PyErr Pred :=
  if test.isEmpty then .error .value
  else
    let T := fun i => gp.scaleRow (test.get i)                                                  -- L135-136
    if gp.cinv.1 ≠ gp.target.length then .error .value
    else if gp.cinv.1 ≠ gp.fp.length then .error .value
    else
      let ktb := covCross gp.kernels gp.log T fun j : Fin gp.cinv.1 => gp.fp.getD j 0           -- L144-147
      let alpha := gp.cinv.2 *ᵥ gp.y                                                            -- L433
      let pred := fun i => if gp.nan then none else some (gp.rescale ((ktb *ᵥ alpha) i))        -- L435-438
      if uncertainty then
        match gp.reg with
        | none => .error .type
        | some r =>
          let u := batchUncertainty gp.kernels gp.log T ktb gp.cinv.2                           -- L182-186
          .ok ⟨List.ofFn pred, some (List.ofFn fun i => ((u i).map fun v => v * gp.tstd, (u i).map fun v => (v + r) * gp.tstd))⟩
      else .ok ⟨List.ofFn pred, none⟩

end CatLearn.Proc
