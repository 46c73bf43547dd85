import Verif.Model.Py
import Mathlib.Data.Real.Sqrt
import Mathlib.Algebra.BigOperators.Fin

/-!
Sammon's error (catlearn/utilities/sammon.py).  Numbers are real; infinities and NaN of the divisions are kept.
-/

namespace CatLearn.Sammon

open Finset

/-- A float that may be infinite or NaN. -/
inductive Val
  | num (x : ℝ)
  | inf
  | nan

variable {n d m : ℕ}

/-- `distance.pdist(…, metric='euclidean')`, sammon.py L22-25. -/
noncomputable def dist (x : Fin n → Fin d → ℝ) (i j : Fin n) : ℝ := Real.sqrt (∑ k, (x i k - x j k) ^ 2)

/-- An entry of `dist_err`, sammon.py L32-36: `(a - b)² / a`; `0 / 0` is NaN and is replaced by 0, `x / 0` is infinite
(`none`). -/
noncomputable def term (a b : ℝ) : Option ℝ :=
  if a = 0 then (if b = 0 then some 0 else none) else some ((a - b) ^ 2 / a)

/-- The pairs below the diagonal, `np.tril(…, -1)`, sammon.py L28-29.  (All other entries are zero in both matrices and
add nothing.) -/
def pairs (n : ℕ) : Finset (Fin n × Fin n) := Finset.univ.filter fun p => p.2 < p.1

/-- `sammons_error`, sammon.py L6-41: `(1 / sum a) * sum err`, with `1 / 0 = inf`, `inf * 0 = nan`, `inf * inf = inf`. -/
noncomputable def sammonsError (original : Fin n → Fin d → ℝ) (reduced : Fin n → Fin m → ℝ) : Val :=
  let a := fun p : Fin n × Fin n => dist original p.1 p.2
  let b := fun p : Fin n × Fin n => dist reduced p.1 p.2
  if ∃ p ∈ pairs n, term (a p) (b p) = none then .inf
  else
    let total := ∑ p ∈ pairs n, a p
    let err := ∑ p ∈ pairs n, (term (a p) (b p)).getD 0
    if total = 0 then (if err = 0 then .nan else .inf) else .num (1 / total * err)

end CatLearn.Sammon
