import Verif.Model.KernelSetup
import Verif.Model.Scaling
import Mathlib.LinearAlgebra.Matrix.NonsingularInverse
import Mathlib.LinearAlgebra.Matrix.PosDef
import Mathlib.Analysis.SpecialFunctions.Log.Basic
import Mathlib.Analysis.Real.Pi.Bounds

/-!
# Model of `catlearn/regression/gaussian_process.py` (without gradients), `gpfunctions/uncertainty.py`,
`gpfunctions/default_scale.py` and `gpfunctions/log_marginal_likelihood.py`

The number of features `N` is fixed: rows of another length are not representable.  Kernels are as they leave
`prepare_kernels`.  Numbers are exact reals; nan is `none` or an explicit flag.  `np.linalg.inv` raises LinAlgError on
singular matrices and is the inverse otherwise; `cho_factor` raises LinAlgError unless the matrix is positive definite.
A call that raises gives no new state (in the code attributes may have been assigned before the exception).
-/

namespace CatLearn.Proc

open CatLearn CatLearn.Kernel CatLearn.Scaling Matrix

/-- The statistics kept by `ScaleData`, `default_scale.py` L38-54. -/
structure Scal (N : Nat) where
  fmean : Fin N → ℝ
  fstd : Fin N → ℝ
  tmean : ℝ
  tstd : ℝ

/-- The attributes of a `GaussianProcess`.  `log` is `scale_optimizer`; `cinv` comes with its size; `nan` says that the
targets are nan (constant targets divided by their standard deviation); `lml` none is nan. -/
structure GP (N : Nat) where
  kernels : List (KDict N)
  reg : Option ℝ
  log : Bool
  scaleData : Bool
  fp : List (Fin N → ℝ)
  target : List ℝ
  nan : Bool
  cinv : Σ n : Nat, Matrix (Fin n) (Fin n) ℝ
  scaling : Option (Scal N)
  lml : Option ℝ

/-- `get_covariance` of the training data. -/
noncomputable def gram {N : Nat} (ks : List (KDict N)) (log : Bool) (reg : Option ℝ) (fp : List (Fin N → ℝ)) :
    Matrix (Fin fp.length) (Fin fp.length) ℝ :=
  covSelf ks log reg fp.get

open Classical in
/-- `np.linalg.inv`. -/
noncomputable def invert {n : Nat} (M : Matrix (Fin n) (Fin n) ℝ) :
    Except PyErr (Σ n : Nat, Matrix (Fin n) (Fin n) ℝ) :=
  if IsUnit M.det then .ok ⟨n, M⁻¹⟩ else .error .linalg

/-- `get_covariance` and `np.linalg.inv`, L286-292: without kernels the covariance is None. -/
noncomputable def invGram {N : Nat} (ks : List (KDict N)) (log : Bool) (reg : Option ℝ) (fp : List (Fin N → ℝ)) :
    Except PyErr (Σ n : Nat, Matrix (Fin n) (Fin n) ℝ) :=
  if ks.isEmpty then
    match reg with
    | none => .error .linalg
    | some _ => .error .type
  else invert (gram ks log reg fp)

/-- The log marginal likelihood from the covariance, its stored inverse and the targets,
`log_marginal_likelihood.py` L51-59; the sum of the logarithms of the diagonal of the Cholesky factor is half the
logarithm of the determinant (see `C114_cholesky`). -/
noncomputable def lmlValue {n m : Nat} (K : Matrix (Fin m) (Fin m) ℝ) (cinv : Matrix (Fin n) (Fin n) ℝ)
    (y : Fin n → ℝ) : ℝ :=
  -(1 / 2) * (y ⬝ᵥ cinv *ᵥ y) - 1 / 2 * Real.log K.det - n * Real.log (2 * Real.pi) / 2

open Classical in
/-- `log_marginal_likelihood` with `cinv=None` as the optimiser uses it, L12-64: the negative of the likelihood with the
last element of `theta` as regularisation. -/
noncomputable def lossValue {N : Nat} (θ : List ℝ) (fp : List (Fin N → ℝ)) (y : List ℝ) (ks : List (KDict N))
    (log : Bool) : Except PyErr ℝ := do
  let ks' ← list2kdict θ ks
  match θ.getLast? with
  | none => throw .index
  | some r =>
    let K := gram ks' log (some r) fp
    if ¬ K.PosDef then throw .linalg
    if y.length ≠ fp.length then throw .value
    pure (-(lmlValue K K⁻¹ fun i => y.getD i 0))

open Classical in
/-- The gradient `log_marginal_likelihood` returns with `eval_jac=True`, L65-75. -/
noncomputable def lossJac {N : Nat} (θ : List ℝ) (fp : List (Fin N → ℝ)) (y : List ℝ) (ks : List (KDict N))
    (log : Bool) : Except PyErr (List ℝ) := do
  let ks' ← list2kdict θ ks
  match θ.getLast? with
  | none => throw .index
  | some r =>
    let K := gram ks' log (some r) fp
    if ¬ K.PosDef then throw .linalg
    if y.length ≠ fp.length then throw .value
    let a := K⁻¹ *ᵥ fun i => y.getD i 0
    let Q := Matrix.of (fun i j => a i * a j) - K⁻¹
    let dK ← dKdTheta θ fp.get ks'
    pure (dK.map fun D => -(1 / 2 * ∑ i, ∑ j, Q i j * D i j))

/-- The targets as a vector of the size of `cinv`. -/
def GP.y {N : Nat} (gp : GP N) : Fin gp.cinv.1 → ℝ := fun i => gp.target.getD i 0

open Classical in
/-- `_update_lml`, L485-498, with `log_marginal_likelihood`; `list2kdict` there writes to the kernel dictionaries of
the model itself. -/
noncomputable def updateLml {N : Nat} (gp : GP N) : Except PyErr (GP N) := do
  let θ ← kdicts2list gp.kernels
  let ks ← list2kdict (θ ++ gp.reg.toList) gp.kernels
  let K := gram ks gp.log gp.reg gp.fp
  if ¬ K.PosDef then throw .linalg
  if gp.cinv.1 ≠ gp.target.length then throw .value
  pure { gp with kernels := ks, lml := if gp.nan then none else some (lmlValue K gp.cinv.2 gp.y) }

/-- What `update_data` stores as training features, targets and scaling, L267-274: with `scale_data` the result of
`ScaleData(train_fp, train_target).train()` (`default_scale.py` L26-54), which raises TypeError without targets. -/
structure Stored (N : Nat) where
  fp : List (Fin N → ℝ)
  target : List ℝ
  nan : Bool
  scaling : Option (Scal N)

/-- The statistics of training data. -/
noncomputable def scalOf {N : Nat} (fp : List (Fin N → ℝ)) (t : List ℝ) : Scal N :=
  ⟨colMean fp.get, placeOnes (colStd fp.get), tMean t.get, tStd t.get⟩

/-- `ScaleData.test`, `default_scale.py` L56-73, on one row; `train` applies the same transformation. -/
noncomputable def Scal.row {N : Nat} (s : Scal N) (x : Fin N → ℝ) : Fin N → ℝ := fun a => (x a - s.fmean a) / s.fstd a

/-- The standardisation of one target. -/
noncomputable def Scal.tgt {N : Nat} (s : Scal N) (t : ℝ) : ℝ := (t - s.tmean) / s.tstd

/-- `ScaleData.rescale_targets`, `default_scale.py` L75-91, on one prediction. -/
noncomputable def Scal.untgt {N : Nat} (s : Scal N) (p : ℝ) : ℝ := p * s.tstd + s.tmean

open Classical in
/-- L267-274. -/
noncomputable def store {N : Nat} (gp : GP N) (fp : List (Fin N → ℝ)) (target : Option (List ℝ)) :
    Except PyErr (Stored N) :=
  if gp.scaleData then
    match target with
    | none => .error .type
    | some t =>
      let s := scalOf fp t
      .ok ⟨fp.map s.row, t.map s.tgt, decide (s.tstd = 0), some s⟩
  else .ok ⟨fp, target.getD gp.target, if target.isSome then false else gp.nan, gp.scaling⟩

/-- `update_data(train_fp, train_target, scale_optimizer=flag)`, L237-297, without gradients. -/
noncomputable def updateData {N : Nat} (gp : GP N) (fp : List (Fin N → ℝ)) (target : Option (List ℝ)) (flag : Bool) :
    Except PyErr (GP N) := do
  if fp.isEmpty then throw .value
  let st ← store gp fp target
  let ci ← invGram gp.kernels flag gp.reg st.fp
  let gp' := { gp with fp := st.fp, target := st.target, nan := st.nan, scaling := st.scaling, cinv := ci }
  match target with
  | none => pure { gp' with lml := none }
  | some _ => updateLml gp'

/-- The object before the first call of `update_data`, L55-79. -/
def blank {N : Nat} (ks : List (KDict N)) (reg : Option ℝ) (log scaleData : Bool) : GP N :=
  ⟨ks, reg, log, scaleData, [], [], false, ⟨0, 1⟩, none, none⟩

/-- `__init__`, L21-82, with `optimize_hyperparameters=False`, after `prepare_kernels`. -/
noncomputable def init {N : Nat} (fp : List (Fin N → ℝ)) (target : List ℝ) (ks : List (KDict N)) (reg : Option ℝ)
    (log scaleData : Bool) : Except PyErr (GP N) := do
  if fp.length ≠ target.length then throw .assertion
  updateData (blank ks reg log scaleData) fp (some target) log

/-- `optimize_hyperparameters`, L299-359.  The minimiser is an argument: from the initial hyperparameters, it gives
the final hyperparameters and the final value of the loss.  (A minimiser does not work on hyperparameters among which
is None.) -/
noncomputable def optimize {N : Nat} (minimizer : List ℝ → List ℝ × ℝ) (gp : GP N) : Except PyErr (GP N) := do
  let θ ← kdicts2list gp.kernels
  let r ← match gp.reg with
    | none => throw PyErr.type
    | some r => pure r
  let (x, fun') := minimizer (θ ++ [r])
  let ks ← list2kdict x.dropLast gp.kernels
  let r' ← match x.getLast? with
    | none => throw PyErr.index
    | some r => pure r
  let ci ← invGram ks gp.log (some r') gp.fp
  pure { gp with kernels := ks, reg := some r', lml := some (-fun'), cinv := ci }

/-- `update_gp`, L361-413, without gradients and after `prepare_kernels`; `opt` is the minimiser if
`optimize_hyperparameters=True`. -/
noncomputable def updateGP {N : Nat} (gp : GP N) (fp : Option (List (Fin N → ℝ))) (target : Option (List ℝ))
    (ks : Option (List (KDict N))) (flag : Bool) (opt : Option (List ℝ → List ℝ × ℝ)) : Except PyErr (GP N) := do
  let gp := { gp with fp := fp.getD gp.fp }
  let gp := { gp with kernels := ks.getD gp.kernels }
  let gp ← match target, fp with
    | none, _ => pure gp
    | some _, none => throw PyErr.assertion
    | some t, some f => updateData gp f (some t) flag
  match opt with
  | some m => optimize m gp
  | none => updateLml gp

/-! ### Prediction -/

/-- L135-136: scaling of a test point. -/
noncomputable def GP.scaleRow {N : Nat} (gp : GP N) (x : Fin N → ℝ) : Fin N → ℝ :=
  match gp.scaleData, gp.scaling with
  | true, some s => s.row x
  | _, _ => x

/-- L437-438: rescaling of a prediction. -/
noncomputable def GP.rescale {N : Nat} (gp : GP N) (p : ℝ) : ℝ :=
  match gp.scaleData, gp.scaling with
  | true, some s => s.untgt p
  | _, _ => p

/-- L194-196: the factor for uncertainties. -/
noncomputable def GP.tstd {N : Nat} (gp : GP N) : ℝ :=
  match gp.scaleData, gp.scaling with
  | true, some s => s.tstd
  | _, _ => 1

/-- A row of `ktb`, L144-147, for a point that is already scaled. -/
noncomputable def GP.ktb {N : Nat} (gp : GP N) (x : Fin N → ℝ) : Fin gp.cinv.1 → ℝ :=
  fun j => covEntry gp.kernels gp.log x (gp.fp.getD j 0) false

/-- `_make_prediction`, L415-440, for one point that is already scaled. -/
noncomputable def GP.mean {N : Nat} (gp : GP N) (x : Fin N → ℝ) : Option ℝ :=
  if gp.nan then none else some (gp.rescale (gp.ktb x ⬝ᵥ (gp.cinv.2 *ᵥ gp.y)))

/-- `uncertainty.py` L33-41 before the square root, for one point that is already scaled. -/
noncomputable def GP.var {N : Nat} (gp : GP N) (x : Fin N → ℝ) : ℝ :=
  covEntry gp.kernels gp.log x x true - (gp.ktb x ᵥ* gp.cinv.2) ⬝ᵥ gp.ktb x

/-- `np.sqrt`: nan for negative numbers. -/
noncomputable def npSqrt (v : ℝ) : Option ℝ := if v < 0 then none else some (Real.sqrt v)

/-- 'uncertainty' and 'uncertainty_with_reg' of one point that is already scaled, L184-196 and L223-234. -/
noncomputable def GP.unc {N : Nat} (gp : GP N) (r : ℝ) (x : Fin N → ℝ) : Option ℝ × Option ℝ :=
  ((npSqrt (gp.var x)).map fun u => u * gp.tstd, (npSqrt (gp.var x)).map fun u => (u + r) * gp.tstd)

/-- The result of `predict`: 'prediction', and the uncertainties if they were asked for. -/
structure Pred where
  prediction : List (Option ℝ)
  uncertainty : Option (List (Option ℝ × Option ℝ))

/-- The shapes of `ktb`, `cinv` and the targets fit. -/
def GP.fits {N : Nat} (gp : GP N) : Prop := gp.cinv.1 = gp.fp.length ∧ gp.cinv.1 = gp.target.length

/-- `predict(test_fp, uncertainty=…)`, L87-205; matrices of the wrong shape raise ValueError and adding None raises
TypeError. -/
noncomputable def predict {N : Nat} (gp : GP N) (test : List (Fin N → ℝ)) (uncertainty : Bool) : Except PyErr Pred := do
  if test.isEmpty then throw .value
  let test := test.map gp.scaleRow
  if gp.cinv.1 ≠ gp.target.length then throw .value
  if gp.cinv.1 ≠ gp.fp.length then throw .value
  let p := test.map gp.mean
  if uncertainty then
    match gp.reg with
    | none => throw .type
    | some r => pure ⟨p, some (test.map (gp.unc r))⟩
  else pure ⟨p, none⟩

/-- `predict_uncertainty(test_fp)`, L207-235: the test points are not scaled. -/
noncomputable def predictUncertainty {N : Nat} (gp : GP N) (test : List (Fin N → ℝ)) :
    Except PyErr (List (Option ℝ × Option ℝ)) := do
  if test.isEmpty then throw .value
  if gp.cinv.1 ≠ gp.fp.length then throw .value
  match gp.reg with
  | none => throw .type
  | some r => pure (test.map (gp.unc r))

/-- `data['train_prediction']` of `predict(get_training_error=True)`, L160-170: here the covariance is that of the
training data with itself. -/
noncomputable def trainPrediction {N : Nat} (gp : GP N) : Except PyErr (List (Option ℝ)) := do
  if gp.cinv.1 ≠ gp.target.length then throw .value
  if gp.cinv.1 ≠ gp.fp.length then throw .value
  pure ((List.finRange gp.fp.length).map fun i =>
    if gp.nan then none
    else some (gp.rescale ((fun j : Fin gp.cinv.1 =>
      covEntry gp.kernels gp.log (gp.fp.get i) (gp.fp.getD j 0) (decide (i.1 = j.1))) ⬝ᵥ (gp.cinv.2 *ᵥ gp.y))))

end CatLearn.Proc
