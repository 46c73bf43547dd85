import Verif.Model.Clean

/-!
The function of SciPy called by `clean_skewness`, `catlearn/preprocess/clean_data.py` L201.
-/

namespace CatLearn.Clean

open CatLearn

/-- The mean of the powers of the deviations from the mean. -/
noncomputable def centralMoment (k : ℕ) (v : List ℝ) : ℝ :=
  (v.map fun x => (x - v.sum / v.length) ^ k).sum / v.length

open Classical in
/-- `scipy.stats.skew` of a column of numbers, L201: the third central moment over the third power of the root of the second.  `zero` is the
value for a constant column (0 or nan, depending on the version). -/
noncomputable def skew (zero : Option ℝ) (v : List ℝ) : Option ℝ :=
  if centralMoment 2 v = 0 then zero else some (centralMoment 3 v / Real.sqrt (centralMoment 2 v) ^ 3)

end CatLearn.Clean
