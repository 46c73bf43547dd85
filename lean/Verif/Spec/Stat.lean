import Mathlib.Analysis.Real.Sqrt

/-!
# Textbook statistics used in specifications
-/

namespace CatLearn.Spec

/-- Arithmetic mean. -/
noncomputable def mean (x : List ℝ) : ℝ := x.sum / x.length

/-- Sum of products of deviations from the means. -/
noncomputable def cov (x y : List ℝ) : ℝ :=
  (List.zipWith (fun a b => (a - mean x) * (b - mean y)) x y).sum

/-- Pearson's correlation coefficient. -/
noncomputable def pearson (x y : List ℝ) : ℝ := cov x y / (√(cov x x) * √(cov y y))

open Classical in
/-- The rank of a value in a sample (ties share the mean rank). -/
noncomputable def rank (x : List ℝ) (v : ℝ) : ℝ :=
  (x.filter fun w => w < v).length + ((x.filter fun w => w = v).length + 1 : ℝ) / 2

/-- Spearman's rank correlation: Pearson's coefficient of the ranks. -/
noncomputable def spearman (x y : List ℝ) : ℝ := pearson (x.map (rank x)) (y.map (rank y))

end CatLearn.Spec
