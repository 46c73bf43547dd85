import Verif.Model.Scaling
import Verif.Model.Clean
import Verif.Model.Screening

/-!
# Model of `catlearn/preprocess/feature_extraction.py`

`catlearn_pca` as a whole, and the functions that call scikit-learn.  The columns of a matrix are indexed by a type; cleaning replaces it by a subtype.
-/

namespace CatLearn.Pca

open CatLearn CatLearn.Scaling

/-- What `np.linalg.svd` returns for a matrix with rows `δ`, L127: the columns of `u` that have a singular value, and the singular values. -/
structure Svd (δ : Type) where
  u : List (δ → ℝ)
  s : List ℝ

/-- The test features: not given, a matrix, or the empty list that `clean_variance(...)['test']` is when they are not given (a `defaultdict(list)`,
clean_data.py L74 and L84). -/
inductive Test (κ δ : Type) where
  | absent
  | rows (t : κ → δ → ℝ)
  | emptyList

/-- What is returned; `test` is `none` if there is no entry `test_features`. -/
structure Result (ι κ : Type) where
  components : ℕ
  variance : List ℝ
  train : ι → List ℝ
  test : Option (κ → List ℝ)

variable {ι κ δ : Type} [Fintype ι] [Fintype κ]

/-- `X.dot(pm)` for one row of `X`; `pm` is the list of its columns. -/
noncomputable def project [Fintype δ] (pm : List (δ → ℝ)) (row : δ → ℝ) : List ℝ := pm.map fun v => ∑ j, row j * v j

/-- L127-146.  The product of an empty array of one dimension and a matrix raises ValueError. -/
noncomputable def core [Fintype δ] (svd : (δ → ι → ℝ) → Svd δ) (components : ℕ) (train : ι → δ → ℝ) (test : Test κ δ) : Except PyErr (Result ι κ) :=
  let r := svd fun j i => train i j                                           -- L127
  match Screen.projection r.u components with                                  -- L134-140
  | .error e => .error e
  | .ok pm =>
    match test with                                                            -- L142-146
    | .absent => .ok ⟨components, Screen.variance r.s, fun i => project pm (train i), none⟩
    | .rows t => .ok ⟨components, Screen.variance r.s, fun i => project pm (train i), some fun k => project pm (t k)⟩
    | .emptyList => .error .value

/-- L121-125 and the rest.  An empty list minus an array with more than one entry raises ValueError. -/
noncomputable def scaled [Fintype δ] (svd : (δ → ι → ℝ) → Svd δ) (components : ℕ) (scale : Bool) (train : ι → δ → ℝ) (test : Test κ δ) :
    Except PyErr (Result ι κ) :=
  if scale then
    match test with
    | .absent => core svd components (standardize (κ := κ) train none none none true).train .absent
    | .rows t =>
      let std := standardize train (some t) none none true
      match std.test with
      | some t' => core svd components std.train (.rows t')
      | none => core svd components std.train .absent
    | .emptyList =>
      if 1 < Fintype.card δ then .error .value
      else core svd components (standardize (κ := κ) train none none none true).train .emptyList
  else core svd components train test

/-- The features `clean_variance` keeps, clean_data.py L76-80 (numbers only). -/
noncomputable def keeps (train : ι → δ → ℝ) (j : δ) : Prop := Clean.isCloseZero (some (colStd train j)) = false

open Classical in
/-- `catlearn_pca(components, train_features, test_features, cleanup, scale)`, L102-148. -/
noncomputable def catlearnPca [Fintype δ] (svd : (ε : Type) → (ε → ι → ℝ) → Svd ε) (components : ℕ) (train : ι → δ → ℝ) (test : Option (κ → δ → ℝ))
    (cleanup scale : Bool) : Except PyErr (Result ι κ) :=
  if components = 0 then .error .assertion                                     -- L112-113
  else if cleanup then                                                         -- L117-120
    scaled (svd {j // keeps train j}) components scale (fun i j => train i j.1)
      (match test with
      | none => .emptyList
      | some t => .rows fun k j => t k j.1)
  else
    scaled (svd δ) components scale train
      (match test with
      | none => .absent
      | some t => .rows t)

/-- A transformer of scikit-learn: what is learned from training data (and targets), and the transformation of one row. -/
structure Transformer (M ρ τ ω : Type) where
  fit : List ρ → τ → M
  transform : M → ρ → ω

/-- `pls`, `pca` and `spca`, L11-100: `model.fit`, then `model.transform` on both matrices.  (`pca` and `spca` have no targets: `τ` is `Unit`.) -/
def extract {M ρ τ ω : Type} (t : ℕ → Transformer M ρ τ ω) (components : ℕ) (train : List ρ) (target : τ) (test : List ρ) :
    Except PyErr (List ω × List ω) :=
  if components = 0 then .error .assertion
  else
    let model := (t components).fit train target
    .ok (train.map ((t components).transform model), test.map ((t components).transform model))

end CatLearn.Pca
