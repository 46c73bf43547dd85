import Verif.Model.Clean
import Verif.Model.KernelSetup

/-!
# Model of `catlearn/estimator`

`general_preprocess.py`, `general_kernel.py` and the data flow of `general_gp.py`.  An entry of a feature matrix is a
number or `none` (nan and infinities, as in `Model/Clean`); matrices are lists of rows of a known width `d`.
-/

namespace CatLearn.Est

open CatLearn CatLearn.Clean

/-- A matrix with missing entries. -/
abbrev Mat := List (List (Option ℝ))

/-- All entries of a column, if they are all numbers. -/
def numbers : List (Option ℝ) → Option (List ℝ)
  | [] => some []
  | none :: _ => none
  | some x :: l => (numbers l).map (x :: ·)

/-- `np.mean(data, axis=0)` for one column, `preprocess/scaling.py` L30: a missing entry makes it nan. -/
noncomputable def mean1 (col : List (Option ℝ)) : Option ℝ := (numbers col).map fun v => v.sum / v.length

/-- `np.std` of numbers. -/
noncomputable def stdOf (v : List ℝ) : ℝ := Real.sqrt ((v.map fun x => (x - v.sum / v.length) ^ 2).sum / v.length)

open Classical in
/-- `np.std(data, axis=0)` for one column with the replacement of zeros, `preprocess/scaling.py` L33-35. -/
noncomputable def std1 (col : List (Option ℝ)) : Option ℝ :=
  (numbers col).map fun v => if stdOf v = 0 then 1 else stdOf v

/-- `(x - mean) / std` for one entry; nan spreads. -/
noncomputable def scale1 (x m s : Option ℝ) : Option ℝ :=
  match x, m, s with
  | some x, some m, some s => some ((x - m) / s)
  | _, _, _ => none

/-- `(row - mean) / std` for rows and statistics of equal length. -/
noncomputable def scaleRow (mean std : List (Option ℝ)) (row : List (Option ℝ)) : List (Option ℝ) :=
  List.zipWith (fun x p => scale1 x p.1 p.2) row (mean.zip std)

/-- The attributes of `GeneralPrepreprocess`: `clean_index`, and `scale_mean` with `scale_std`. -/
structure Prep where
  index : Option (List Bool)
  scale : Option (List (Option ℝ) × List (Option ℝ))

/-- `_eliminate_cleaner`, `general_preprocess.py` L77-106, up to the assignment of `clean_index`: the product of two
boolean arrays. -/
noncomputable def eliminateIndex (d : Nat) (train : Mat) (targets : Option (List (Option ℝ))) (test : Option Mat) :
    Except PyErr (List Bool) :=
  match (cleanInfinite d train test targets none none : Except PyErr (Cleaned (Option ℝ) Unit)) with
  | .error e => .error e
  | .ok finite =>
    match (cleanVariance d train test none none : Except PyErr (Cleaned (Option ℝ) Unit)) with
    | .error e => .error e
    | .ok informative => .ok (List.zipWith (· && ·) finite.index informative.index)

/-- Result of `process`. -/
structure Processed where
  train : Mat
  targets : Option (List (Option ℝ))
  test : Option Mat

/-- `process`, `general_preprocess.py` L22-47: the attributes afterwards and the result.  `train_targets` is returned as
it came (L101-106), and L38 counts rows. -/
noncomputable def process (eliminate : Bool) (st : Prep) (d : Nat) (train : Mat)
    (targets : Option (List (Option ℝ))) (test : Option Mat) : Prep × Except PyErr Processed :=
  if !eliminate then (st, .error .notImpl)                                               -- L40-41
  else match eliminateIndex d train targets test with
    | .error e => (st, .error e)
    | .ok index =>
      let st := { st with index := some index }                                          -- L98
      let train' := train.map (boolIndex index)
      let test' := test.map fun t => t.map (boolIndex index)
      if train'.length = 0 then (st, .error .assertion)                                  -- L38-39
      else
        let k := (truePos index).length
        let mean := (List.range k).map fun j => mean1 (column train' j)
        let std := (List.range k).map fun j => std1 (column train' j)
        ({ st with scale := some (mean, std) },
          .ok ⟨train'.map (scaleRow mean std), targets, test'.map fun t => t.map (scaleRow mean std)⟩)

/-- `transform`, `general_preprocess.py` L49-75, for rows of width `d`.  Statistics of another length than the number of
kept columns cannot be broadcast (numpy would broadcast a length of one). -/
noncomputable def transform (eliminate : Bool) (st : Prep) (d : Nat) (X : Mat) : Except PyErr Mat :=
  match st.scale, st.index with
  | none, _ => .error .attribute
  | some _, none => .error .attribute
  | some (mean, std), some index =>
    if !eliminate then .error .name                                                      -- `processed` unbound
    else if d ≠ index.length then .error .index
    else if (truePos index).length ≠ mean.length then .error .value
    else .ok (X.map fun r => scaleRow mean std (boolIndex index r))

/-- `default_lengthscale`, `general_kernel.py` L22-45: the deviation of all entries, or one for each column.  (Of no
entries at all numpy returns nan where the model has 0; neither is a positive width.) -/
noncomputable def defaultLengthscale (N : Nat) (X : List (List ℝ)) (dimension : String) :
    Except PyErr Kernel.Param :=
  if dimension = "single" then .ok (.scalar (stdOf X.flatten))
  else if dimension = "features" then .ok (.list ((List.range N).map fun j => stdOf (X.filterMap fun r => r[j]?)))
  else .error .assertion

/-- `general_kernel`, `general_kernel.py` L5-19. -/
noncomputable def generalKernel (N : Nat) (X : List (List ℝ)) (dimension : String) :
    Except PyErr (List (Kernel.RawDict N)) :=
  match defaultLengthscale N X dimension with
  | .error e => .error e
  | .ok l =>
    let s := some (decide (dimension = "single"))
    .ok [⟨.linear, none, none, some 1, false, none, none⟩,
      ⟨.constant (some 1), none, none, none, false, none, none⟩,
      ⟨.gaussian (some l), none, s, some 1, false, none, none⟩,
      ⟨.quadratic (some l) (some 1), none, s, some 1, false, none, none⟩,
      ⟨.laplacian (some l), none, none, some 1, false, none, none⟩]

/-- `smooth_kernel`, `general_kernel.py` L48-55. -/
noncomputable def smoothKernel (N : Nat) (X : List (List ℝ)) (dimension : String) :
    Except PyErr (List (Kernel.RawDict N)) :=
  match defaultLengthscale N X dimension with
  | .error e => .error e
  | .ok l => .ok [⟨.gaussian (some l), none, some (decide (dimension = "single")), some 1, false, none, none⟩]

end CatLearn.Est
