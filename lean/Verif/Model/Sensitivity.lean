import Verif.Model.Py
import Mathlib.Data.Real.Basic

/-!
`SensitivityAnalysis`, catlearn/regression/gpfunctions/sensitivity.py: backward elimination of features by their
sensitivity.
-/

namespace CatLearn.Sensitivity

open CatLearn

/-- `np.delete(l, idx)` (along the features). -/
def delete {α : Type} (l : List α) (idx : List ℕ) : List α :=
  (l.zipIdx.filter fun p => p.2 ∉ idx).map Prod.fst

/-- The data of the object and the indices of its features: the columns of `train_matrix` and `test_matrix`, the widths
of the first kernel, `original_index`. -/
structure Data (τ υ ω : Type) where
  train : List τ
  test : List υ
  width : List ω
  index : List ℕ

/-- What is stored for a step (`data[str(i)]`): `features`, `sorted_index`, `abs_index`, `sensitivity`, `widths`
and, for the proofs, the columns the model was trained with. -/
structure Step (τ υ ω : Type) where
  features : ℕ
  sorted : List ℕ
  abs : List ℕ
  sens : List ℝ
  train : List τ
  test : List υ
  width : List ω

variable {τ υ ω : Type}

/-- `sort_list` and `sorted_index`, sensitivity.py L107-110: the features by falling sensitivity.  (The code stores the
indices in an array of floats; `np.delete` accepted them in older versions of numpy and raises IndexError since 1.19.  The
indices are natural numbers here.) -/
noncomputable def sortedIndex (s : List ℝ) : List ℕ := (sortDesc Prod.fst s.zipIdx).map Prod.snd

/-- `_opt_step`, L91-113: `opt` gives the optimised widths, `sens` the sensitivities (`_mean_sensitivity`).  With no
features left `np.array(sort_list)[:, :1]` raises IndexError. -/
noncomputable def optStep (opt : List τ → List ω → List ω) (sens : List τ → List υ → List ω → List ℝ)
    (d : Data τ υ ω) : Except PyErr (Step τ υ ω × Data τ υ ω) :=
  let w := opt d.train d.width
  let s := sens d.train d.test w
  if s = [] then .error .index
  else .ok (⟨d.train.length, sortedIndex s, d.index, s, d.train, d.test, w⟩, { d with width := w })

/-- The loop of `backward_selection`, L79-88, over the numbers `i` of features to keep; `last` is the step before. -/
noncomputable def backLoop (opt : List τ → List ω → List ω) (sens : List τ → List υ → List ω → List ℝ) :
    List ℕ → Step τ υ ω → Data τ υ ω → Except PyErr (List (ℕ × Step τ υ ω) × Data τ υ ω)
  | [], _, d => .ok ([], d)
  | i :: is, last, d =>
    let del := last.sorted.drop i
    let d1 : Data τ υ ω := ⟨delete d.train del, delete d.test del, delete d.width del, delete d.index del⟩
    match optStep opt sens d1 with
    | .error e => .error e
    | .ok (st, d2) =>
      match backLoop opt sens is st d2 with
      | .error e => .error e
      | .ok (r, d3) => .ok ((i, st) :: r, d3)

/-- `backward_selection`, L41-89, for the range `lo, hi` of the selection (L67-75: `1` and the number of features by
default): the model with all features, the steps, and the object afterwards. -/
noncomputable def backward (opt : List τ → List ω → List ω) (sens : List τ → List υ → List ω → List ℝ) (lo hi : ℕ)
    (train : List τ) (test : List υ) (width : List ω) :
    Except PyErr (Step τ υ ω × List (ℕ × Step τ υ ω) × Data τ υ ω) :=
  match optStep opt sens ⟨train, test, width, List.range train.length⟩ with
  | .error e => .error e
  | .ok (st, d) =>
    match backLoop opt sens ((List.range' lo (hi - lo)).reverse) st d with
    | .error e => .error e
    | .ok (r, d') => .ok (st, r, d')

/-- `_mean_sensitivity` for one feature, L135-144: `p` and `q` are the values of the feature in the training and test
points, `alpha` the weights, `ktb` the covariance matrix as the code computes it (L124-127: of the training points
among themselves), `w` the width. -/
noncomputable def featureSensitivity (p q alpha : List ℝ) (ktb : List (List ℝ)) (w : ℝ) : ℝ :=
  (q.map fun qj =>
    1 / (p.length : ℝ) * ((List.zipWith (fun (x : ℝ × ℝ) (kt : List ℝ) => (kt.map fun k => x.2 * (x.1 - qj) / w * k).sum)
      (p.zip alpha) ktb).sum) ^ 2).sum

end CatLearn.Sensitivity
