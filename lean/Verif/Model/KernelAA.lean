import Verif.Model.Py
import Mathlib.Analysis.SpecialFunctions.Pow.Real
import Mathlib.Data.Matrix.Basic

/-!
The two kernel functions of `catlearn/regression/gpfunctions/kernels.py` that no kernel list can name: `scaled_sqe_kernel` and `AA_kernel`.
-/

namespace CatLearn.KernelAA

open CatLearn

/-- The function given to `cdist`, L408-410.  `q` has the shape of a column, so that all numbers of categories `c` meet all features.  Powers of
negative numbers (nan in numpy for exponents that are not integers) are not described. -/
noncomputable def entry {N : ℕ} (l : ℝ) (c : List ℝ) (u v : Fin N → ℝ) : ℝ :=
  (c.map fun c => ∑ j, l ^ ((N : ℝ) - Real.sqrt ((u j - v j) ^ 2)) * ((1 - l) / (c - l)) ^ Real.sqrt ((u j - v j) ^ 2)).sum

/-- `AA_kernel(theta, log_scale, m1, m2, eval_gradients)`, L375-412.  `theta[0]` raises IndexError for an empty list, L399, and `np.vstack([])`
raises ValueError, L400. -/
noncomputable def aaKernel {n m : Type} {N : ℕ} (θ : List ℝ) (log : Bool) (X : n → Fin N → ℝ) (Y : m → Fin N → ℝ) (grad : Bool) :
    Except PyErr (Matrix n m ℝ) :=
  if grad then .error .notImpl
  else match θ with
    | [] => .error .index
    | [_] => .error .value
    | l :: c =>
      let l' := if log then Real.exp l else l
      let c' := if log then c.map Real.exp else c
      .ok (Matrix.of fun i j => entry l' c' (X i) (Y j))

/-- `scaled_sqe_kernel`, L337-372: `len(theta) / 2` is a float, and slicing a list with it raises TypeError, L361-362. -/
def scaledSqe {n m : Type} {N : ℕ} (_θ : List ℝ) (_log : Bool) (_X : n → Fin N → ℝ) (_Y : m → Fin N → ℝ) (grad : Bool) :
    Except PyErr (Matrix n m ℝ) :=
  if grad then .error .notImpl else .error .type

end CatLearn.KernelAA
