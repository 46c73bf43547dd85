import Mathlib.Analysis.Real.Sqrt
import Mathlib.Algebra.BigOperators.Field
import Mathlib.Data.Fintype.Sum
import Mathlib.Data.Finset.Lattice.Fold

/-!
# Model of `catlearn/preprocess/scaling.py`

A matrix with rows `ι` and columns (features) `δ` is a function `ι → δ → ℝ`; the rows of the test
matrix are `κ`.  Numbers are exact reals.
-/

namespace CatLearn.Scaling

open Finset

variable {ι κ δ : Type} [Fintype ι] [Fintype κ]

/-- `np.mean(data, axis=0)`. -/
noncomputable def colMean (X : ι → δ → ℝ) (j : δ) : ℝ := (∑ i, X i j) / Fintype.card ι

/-- `np.std(data, axis=0)` (population standard deviation). -/
noncomputable def colStd (X : ι → δ → ℝ) (j : δ) : ℝ :=
  Real.sqrt ((∑ i, (X i j - colMean X j) ^ 2) / Fintype.card ι)

/-- `np.max(data, axis=0)`. -/
noncomputable def colMax [Nonempty ι] (X : ι → δ → ℝ) (j : δ) : ℝ :=
  univ.sup' univ_nonempty fun i => X i j

/-- `np.min(data, axis=0)`. -/
noncomputable def colMin [Nonempty ι] (X : ι → δ → ℝ) (j : δ) : ℝ :=
  univ.inf' univ_nonempty fun i => X i j

open Classical in
/-- `np.place(v, v == 0., [1.])`: zeros are replaced by ones, in place. -/
noncomputable def placeOnes (v : δ → ℝ) : δ → ℝ := fun j => if v j = 0 then 1 else v j

/-- The statistic of the data the scaling is based on: of the training data, or of training and test data
stacked when a test matrix is given and `local=False` (L24-27, L63-66, L98-101). -/
def onData {σ : Type} (stat : (ι → δ → ℝ) → σ) (statBoth : (ι ⊕ κ → δ → ℝ) → σ)
    (train : ι → δ → ℝ) (test : Option (κ → δ → ℝ)) (loc : Bool) : σ :=
  match test, loc with
  | some t, false => statBoth (Sum.elim train t)
  | _, _ => stat train

/-- What the scaling functions return: the offset and divisor per column and the scaled matrices;
`callerScale` is the content of a divisor array passed in by the caller, after the call. -/
structure Scale (ι κ δ : Type) where
  offset : δ → ℝ
  scale : δ → ℝ
  train : ι → δ → ℝ
  test : Option (κ → δ → ℝ)
  callerScale : Option (δ → ℝ)

/-- `(matrix - offset) / scale`, with numpy broadcasting over rows. -/
noncomputable def applyScale {ρ : Type} (offset scale : δ → ℝ) (X : ρ → δ → ℝ) : ρ → δ → ℝ :=
  fun i j => (X i j - offset j) / scale j

/-- `standardize(train_matrix, test_matrix, mean, std, local)`, `preprocess/scaling.py` L6-43.  The
replacement of zeros on L35 is in place, hence also changes an `std` array passed in by the caller. -/
noncomputable def standardize (train : ι → δ → ℝ) (test : Option (κ → δ → ℝ))
    (mean std : Option (δ → ℝ)) (loc : Bool) : Scale ι κ δ :=
  let mean := mean.getD (onData colMean colMean train test loc)               -- L29-31
  let std' := placeOnes (std.getD (onData colStd colStd train test loc))      -- L32-35
  { offset := mean, scale := std',
    train := applyScale mean std' train,                                       -- L37
    test := test.map (applyScale mean std'),                                   -- L39-41
    callerScale := std.map fun _ => std' }

/-- `normalize(train_matrix, test_matrix, mean, dif, local)`, `preprocess/scaling.py` L46-82. -/
noncomputable def normalize [Nonempty ι] (train : ι → δ → ℝ) (test : Option (κ → δ → ℝ))
    (mean dif : Option (δ → ℝ)) (loc : Bool) : Scale ι κ δ :=
  let mean := mean.getD (onData colMean colMean train test loc)               -- L68-70
  let dif' := placeOnes (dif.getD (onData (fun X j => colMax X j - colMin X j)
    (fun X j => colMax X j - colMin X j) train test loc))                      -- L71-74
  { offset := mean, scale := dif',
    train := applyScale mean dif' train,
    test := test.map (applyScale mean dif'),
    callerScale := dif.map fun _ => dif' }

/-- `min_max(train_matrix, test_matrix, local)`, `preprocess/scaling.py` L85-112. -/
noncomputable def minMax [Nonempty ι] (train : ι → δ → ℝ) (test : Option (κ → δ → ℝ)) (loc : Bool) :
    Scale ι κ δ :=
  let mn := onData colMin colMin train test loc                                -- L102
  let dif := placeOnes (onData (fun X j => colMax X j - colMin X j)
    (fun X j => colMax X j - colMin X j) train test loc)                       -- L103-104
  { offset := mn, scale := dif,
    train := applyScale mn dif train,
    test := test.map (applyScale mn dif),
    callerScale := none }

/-- `np.linalg.norm` of each row (the matrix is transposed first), `preprocess/scaling.py` L133, L138. -/
noncomputable def rowNorm {ρ : Type} [Fintype δ] (X : ρ → δ → ℝ) (i : ρ) : ℝ :=
  Real.sqrt (∑ j, X i j ^ 2)

open Classical in
/-- `unit_length` on one matrix, `preprocess/scaling.py` L127-135 (training) and L137-140 (test).  The
argument `local` is not used by the code. -/
noncomputable def unitLength {ρ : Type} [Fintype δ] (X : ρ → δ → ℝ) : ρ → δ → ℝ :=
  fun i j => X i j / (if rowNorm X i = 0 then 1 else rowNorm X i)

open Classical in
/-- Numpy division where the divisor may be zero: `none` stands for the resulting nan or inf. -/
noncomputable def npDiv (a b : ℝ) : Option ℝ := if b = 0 then none else some (a / b)

/-- Mean, standard deviation, maximum and minimum of a list of targets (as a one-column matrix). -/
noncomputable def tMean (t : ι → ℝ) : ℝ := colMean (fun i (_ : Unit) => t i) ()
noncomputable def tStd (t : ι → ℝ) : ℝ := colStd (fun i (_ : Unit) => t i) ()
noncomputable def tDif [Nonempty ι] (t : ι → ℝ) : ℝ :=
  colMax (fun i (_ : Unit) => t i) () - colMin (fun i (_ : Unit) => t i) ()

/-- What the target scalings return. -/
structure TScale (ι : Type) where
  mean : ℝ
  scale : ℝ
  target : ι → Option ℝ

/-- `target_standardize(target)`, `preprocess/scaling.py` L146-160: no replacement of a zero divisor. -/
noncomputable def targetStandardize (t : ι → ℝ) : TScale ι :=
  ⟨tMean t, tStd t, fun i => npDiv (t i - tMean t) (tStd t)⟩

/-- `target_normalize(target)`, `preprocess/scaling.py` L163-178. -/
noncomputable def targetNormalize [Nonempty ι] (t : ι → ℝ) : TScale ι :=
  ⟨tMean t, tDif t, fun i => npDiv (t i - tMean t) (tDif t)⟩

/-- `target_center(target)`, `preprocess/scaling.py` L181-195 (returns no scale; 1 here). -/
noncomputable def targetCenter (t : ι → ℝ) : TScale ι :=
  ⟨tMean t, 1, fun i => some (t i - tMean t)⟩

end CatLearn.Scaling
