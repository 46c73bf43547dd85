import Verif.Model.Py
import Verif.Model.Scaling

/-!
Scaling and prediction errors of the learning curve: `catlearn/learning_curve/data_process.py` L49-167.  The columns of
the matrices are those that are left after `[:, :self.features]`.
-/

namespace CatLearn.CurveScale

open CatLearn CatLearn.Scaling

variable {ι κ δ : Type} [Fintype ι] [Fintype κ]

/-- What `scaling_data` returns, data_process.py L102-103. -/
structure Scaled (ι κ δ : Type) where
  sTar : Option ℝ
  mTar : Option ℝ
  sFeat : Option (δ → ℝ)
  mFeat : Option (δ → ℝ)
  targets : ι → Option ℝ
  train : ι → δ → ℝ
  test : κ → δ → ℝ

/-- `scaling_data`, data_process.py L49-103; `scale` and `normalization` are the attributes of the object.  A scaled
target may be nan (none). -/
noncomputable def scalingData [Nonempty ι] (scale normalization : Bool) (X : ι → δ → ℝ) (Y : ι → ℝ) (T : κ → δ → ℝ)
    (sTar mTar : Option ℝ) (sFeat mFeat : Option (δ → ℝ)) : Scaled ι κ δ :=
  if scale then
    let data := if normalization then targetNormalize Y else targetStandardize Y
    let own := sTar.isNone || mTar.isNone                             -- L76, L90
    let feat := if normalization then Scaling.normalize X (some T) mFeat sFeat true
      else Scaling.standardize X (some T) mFeat sFeat true            -- L81-83, L95-97
    ⟨if own then some data.scale else sTar, if own then some data.mean else mTar,
      some feat.scale, some feat.offset, if own then data.target else fun i => some (Y i),
      feat.train, feat.test.getD T⟩
  else ⟨sTar, mTar, sFeat, mFeat, fun i => some (Y i), X, T⟩

/-- `globalscaling`, data_process.py L105-128: divisor, offset and features returned. -/
noncomputable def globalScaling [Nonempty ι] {γ : Type} [Fintype γ] [Nonempty γ] (normalization : Bool) (G : γ → δ → ℝ)
    (X : ι → δ → ℝ) : (δ → ℝ) × (δ → ℝ) × (ι → δ → ℝ) :=
  if normalization then
    let g := Scaling.normalize (κ := Empty) G none none none true     -- L117-118
    (g.scale, g.offset, (Scaling.normalize (κ := Empty) X none (some g.offset) (some g.scale) true).train)   -- L120-123
  else
    let g := Scaling.standardize (κ := Empty) G none none none true   -- L126-127
    (g.scale, g.offset, X)

/-- `error` of `prediction_error`, data_process.py L147-160, for the test data in a list; a missing scale or offset of
the targets (None) with `scale` raises a `TypeError`. -/
noncomputable def predictionError [Fintype δ] (scale : Bool) (test : List ((δ → ℝ) × ℝ)) (coef : δ → ℝ)
    (sTar mTar : Option ℝ) : Except PyErr ℝ :=
  if test = [] then .error .zeroDiv                                   -- L160
  else if scale then
    match sTar, mTar with
    | some s, some m =>
      .ok (Real.sqrt ((test.map fun t => ((∑ j, coef j * t.1 j) * s + m - t.2) ^ 2).sum / test.length))   -- L152-153
    | _, _ => .error .type
  else .ok (Real.sqrt ((test.map fun t => ((∑ j, coef j * t.1 j) - t.2) ^ 2).sum / test.length))   -- L156-157

/-- The steps of `get_data_scale` and `reg_data_var` (placeholder.py L134-143, L254-263) for one training and one test
subset without stored scales: scale, fit with any regression `fit`, and compute the error. -/
noncomputable def testError {n : Nat} [Fintype δ] [Nonempty ι] (scale normalization : Bool)
    (fit : (ι → δ → ℝ) → (ι → Option ℝ) → δ → ℝ) (X : ι → δ → ℝ) (Y : ι → ℝ) (T : Fin n → δ → ℝ) (t : Fin n → ℝ) :
    Except PyErr ℝ :=
  let s := scalingData scale normalization X Y T none none none none
  predictionError scale ((List.finRange n).map fun i : Fin n => (s.test i, t i)) (fit s.train s.targets) s.sTar s.mTar

end CatLearn.CurveScale
