import Verif.Model.Screening
import Verif.Model.Correlation

/-!
The functions of SciPy and NumPy called by `FeatureScreening._get_correlation`, `catlearn/preprocess/feature_elimination.py` L263-272.
-/

namespace CatLearn.Screen

open CatLearn

/-- A coefficient of two columns of the same length; a coefficient that is not a number is not described (0). -/
noncomputable def coefOf (f : {n : ℕ} → (Fin n → ℝ) → (Fin n → ℝ) → Option ℝ) (d t : Col) : ℝ :=
  (f (n := d.length) d.get fun i => t.getD i 0).getD 0

open Classical in
/-- `np.allclose(d, d[0])`, L265: the tolerances are 1e-8 and 1e-5 relative to the first entry. -/
noncomputable def allclose (d : Col) : Bool :=
  decide (∀ v ∈ d, |v - d.headD 0| ≤ 1 / 100000000 + 1 / 100000 * |d.headD 0|)

/-- The external functions as they are. -/
noncomputable def scipy (coef : List Col → Col → List ℝ) : Ext :=
  ⟨coefOf Correlation.pearson, coefOf Correlation.spearman, coefOf Correlation.kendall, allclose, coef⟩

end CatLearn.Screen
