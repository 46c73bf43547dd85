import Verif.Model.GP

/-!
# `GaussianProcess` with gradients: `catlearn/regression/gaussian_process.py` L55-82, L84-196, L237-297, L415-441

The object is made with `gradients`, so that `eval_gradients` is true; `scale_optimizer` is false.  Conventions of
`Model/GP.lean`: a call that raises gives no new state, `nan` marks targets that are nan.
-/

namespace CatLearn.GradProc

open CatLearn CatLearn.Kernel CatLearn.Proc Matrix

/-- Rows and columns of the covariance of `n` points with `N` features: the values, then the derivatives, one point after
the other. -/
abbrev Ix (n N : ℕ) := Fin n ⊕ Fin n × Fin N

/-- One row of the covariance of a new point with the training data and gradients for one kernel (kernels.py: constant
L42-46, constant_multi L102-107, noise_multi L152-157, gaussian L193-198 and L241-266, linear L450). -/
noncomputable def gRow {N n : ℕ} (g : GType N) (x : Fin N → ℝ) (X : Fin n → Fin N → ℝ) : Ix n N → ℝ :=
  match g with
  | .gaussian w => gaussXXp w (fun _ : Unit => x) X ()
  | .linear => fun c => match c with
    | .inl j => ∑ a, x a * X j a
    | .inr (_, a) => x a
  | .constant c => fun p => match p with
    | .inl _ => c
    | .inr _ => 0
  | .constantMulti c1 c2 _ => fun p => match p with
    | .inl _ => c1
    | .inr _ => c2
  | .noiseMulti _ _ => fun _ => 0

/-- `get_covariance` of one new point with the training data, covariance.py L37-70. -/
noncomputable def covRow {N n : ℕ} (ks : List (GDict N)) (x : Fin N → ℝ) (X : Fin n → Fin N → ℝ) : Ix n N → ℝ :=
  ks.foldl (fun cov k =>
    if k.mult then fun p => cov p * (k.scaling * gRow k.gtype x X p) else fun p => cov p + k.scaling * gRow k.gtype x X p) 0

/-- The attributes of the object. -/
structure GradGP (N : ℕ) where
  kernels : List (GDict N)
  reg : Option ℝ
  scaleData : Bool
  fp : List (Fin N → ℝ)
  target : List ℝ
  nan : Bool
  scaling : Option (Scal N)
  cinv : Σ n : ℕ, Matrix (Ix n N) (Ix n N) ℝ

/-- The stored targets as vector: gradient `a` of point `i` is at position `n + i * N + a`. -/
def vec {N : ℕ} (n : ℕ) (target : List ℝ) : Ix n N → ℝ
  | .inl i => target.getD i 0
  | .inr (i, a) => target.getD (n + (i * N + a)) 0

/-- `np.append(targets, gradients)`, L277: the gradients row by row. -/
def flat {N : ℕ} (g : List (Fin N → ℝ)) : List ℝ := g.flatMap fun r => List.ofFn r

/-- The scaled gradients, L272-274. -/
noncomputable def scaleGrad {N : ℕ} (s : Scal N) (g : Fin N → ℝ) : Fin N → ℝ := fun a => g a / (s.tstd / s.fstd a)

/-- `constant_multi` and `noise_multi`, for which `list2kdict` (kernel_setup.py L388-392) does not advance its position. -/
def multi {N : ℕ} : GType N → Bool
  | .constantMulti _ _ _ => true
  | .noiseMulti _ _ => true
  | _ => false

/-- Only the last kernel may be one of them. -/
def lastOnly {N : ℕ} (ks : List (GDict N)) : Bool := ks.dropLast.all fun k => !multi k.gtype

open Classical in
/-- `get_covariance`, `np.linalg.inv` and `_update_lml`, L281-297: LinAlgError for a singular covariance, and for one that is
not positive definite where the likelihood is computed (with new targets, `lml`); ValueError if there are not as many targets
as rows.  The value of the likelihood is left out.  `_update_lml` writes the hyperparameters back to the kernels (`list2kdict`), which
changes those after a multi kernel (C45); such lists of kernels are left out of the model (the error `other`). -/
noncomputable def finish {N : ℕ} (gp : GradGP N) (lml : Bool) : Except PyErr (GradGP N) :=
  if gp.kernels.isEmpty then
    match gp.reg with
    | none => .error .linalg
    | some _ => .error .type
  else
    let K := covGrad gp.kernels gp.reg gp.fp.get
    if ¬ IsUnit K.det then .error .linalg
    else
      let gp' := { gp with cinv := ⟨gp.fp.length, K⁻¹⟩ }
      if ¬ lml then .ok gp'
      else if ¬ lastOnly gp.kernels then .error .other
      else if ¬ K.PosDef then .error .linalg
      else if gp.target.length ≠ gp.fp.length + gp.fp.length * N then .error .value
      else .ok gp'

open Classical in
/-- `update_data(train_fp, train_target, gradients)`, L237-297. -/
noncomputable def update {N : ℕ} (gp : GradGP N) (fp : List (Fin N → ℝ)) (target : Option (List ℝ))
    (grad : Option (List (Fin N → ℝ))) : Except PyErr (GradGP N) :=
  if fp.isEmpty then .error .value
  else if gp.scaleData then
    match target with
    | none => .error .type
    | some t =>
      let s := scalOf fp t
      finish { gp with
        fp := fp.map s.row
        target := t.map s.tgt ++ (match grad with
          | none => []
          | some g => flat (g.map (scaleGrad s)))
        nan := decide (s.tstd = 0)
        scaling := some s } true
  else
    match target with
    | none => finish { gp with fp := fp } false
    | some t =>
      finish { gp with
        fp := fp
        target := t ++ (match grad with
          | none => []
          | some g => flat g)
        nan := false } true

/-- `GaussianProcess(train_fp, train_target, kernel_list, gradients=grad, ...)`, L21-82. -/
noncomputable def init {N : ℕ} (fp : List (Fin N → ℝ)) (t : List ℝ) (grad : List (Fin N → ℝ)) (ks : List (GDict N))
    (reg : Option ℝ) (scaleData : Bool) : Except PyErr (GradGP N) :=
  if fp.length ≠ t.length then .error .assertion
  else update ⟨ks, reg, scaleData, [], [], false, none, ⟨0, 1⟩⟩ fp (some t) (some grad)

/-- The features of a new point, L131-132. -/
noncomputable def GradGP.scaleRow {N : ℕ} (gp : GradGP N) (x : Fin N → ℝ) : Fin N → ℝ :=
  match gp.scaling with
  | some s => if gp.scaleData then s.row x else x
  | none => x

/-- L438-439. -/
noncomputable def GradGP.rescale {N : ℕ} (gp : GradGP N) (p : ℝ) : ℝ :=
  match gp.scaling with
  | some s => if gp.scaleData then s.untgt p else p
  | none => p

/-- `predict` for one new point, L84-196 and L415-441; `none` is nan.  Sizes that do not fit are a ValueError. -/
noncomputable def predict {N : ℕ} (gp : GradGP N) (x : Fin N → ℝ) : Except PyErr (Option ℝ) :=
  if gp.kernels.isEmpty then .error .type
  else if gp.cinv.1 ≠ gp.fp.length ∨ gp.target.length ≠ gp.fp.length + gp.fp.length * N then .error .value
  else if gp.nan then .ok none
  else
    let X : Fin gp.cinv.1 → Fin N → ℝ := fun i => gp.fp.getD i 0
    .ok (some (gp.rescale (covRow gp.kernels (gp.scaleRow x) X ⬝ᵥ (gp.cinv.2 *ᵥ vec gp.cinv.1 gp.target))))

/-- The kernels without gradients that `get_uncertainty` evaluates on the new data (`eval_gradients=False`): one entry of the
diagonal.  The kernel `constant_multi` does not allow it (kernels.py L74-77: AssertionError). -/
noncomputable def gDiag {N : ℕ} (g : GType N) (x : Fin N → ℝ) : Except PyErr ℝ :=
  match g with
  | .gaussian w => .ok (gauss w x x)
  | .linear => .ok (∑ a, x a * x a)
  | .constant c => .ok c
  | .constantMulti _ _ _ => .error .assertion
  | .noiseMulti t1 _ => .ok (t1 ^ 2)

/-- The diagonal of `kxx`, uncertainty.py L33-39. -/
noncomputable def kxx {N : ℕ} (ks : List (GDict N)) (x : Fin N → ℝ) : Except PyErr ℝ :=
  ks.foldlM (fun cov k =>
    match gDiag k.gtype x with
    | .error e => .error e
    | .ok v => .ok (if k.mult then cov * (k.scaling * v) else cov + k.scaling * v)) 0

/-- The variance of `get_uncertainty` before the square root, uncertainty.py L10-43, for one (scaled) new point. -/
noncomputable def variance {N : ℕ} (gp : GradGP N) (x : Fin N → ℝ) : Except PyErr ℝ :=
  match kxx gp.kernels x with
  | .error e => .error e
  | .ok v =>
    let X : Fin gp.cinv.1 → Fin N → ℝ := fun i => gp.fp.getD i 0
    .ok (v - covRow gp.kernels x X ⬝ᵥ (gp.cinv.2 *ᵥ covRow gp.kernels x X))

/-- The factor L194-196. -/
noncomputable def GradGP.tstd {N : ℕ} (gp : GradGP N) : ℝ :=
  match gp.scaling with
  | some s => if gp.scaleData then s.tstd else 1
  | none => 1

/-- `predict(uncertainty=True)['uncertainty']` for one new point, L84-196: TypeError without regularisation (L190-191), `none`
is nan. -/
noncomputable def uncertainty {N : ℕ} (gp : GradGP N) (x : Fin N → ℝ) : Except PyErr (Option ℝ) :=
  match predict gp x with
  | .error e => .error e
  | .ok _ =>
    match variance gp (gp.scaleRow x) with
    | .error e => .error e
    | .ok v =>
      match gp.reg with
      | none => .error .type
      | some _ => .ok ((npSqrt v).map fun u => u * gp.tstd)

/-- `data['train_prediction']` of `predict(get_training_error=True)`, L160-170: the covariance of the training data with itself
has rows for the gradients as well, values first. -/
noncomputable def trainPrediction {N : ℕ} (gp : GradGP N) : List ℝ :=
  let X : Fin gp.cinv.1 → Fin N → ℝ := fun i => gp.fp.getD i 0
  let row : Ix gp.cinv.1 N → ℝ := fun p => gp.rescale ((covGrad gp.kernels none X *ᵥ (gp.cinv.2 *ᵥ vec gp.cinv.1 gp.target)) p)
  List.ofFn (fun i => row (.inl i)) ++ (List.finRange gp.cinv.1).flatMap fun i => List.ofFn fun a => row (.inr (i, a))

/-- The targets these are compared with, L173-177. -/
noncomputable def trainTarget {N : ℕ} (gp : GradGP N) : List ℝ := gp.target.map gp.rescale

/-- `update_data` with gradients for a model that was made without: `eval_gradients` is still false, so that the covariance
has no rows for the gradients. -/
noncomputable def updatePlain {N : ℕ} (gp : GP N) (fp : List (Fin N → ℝ)) (t : List ℝ) (grad : List (Fin N → ℝ)) (flag : Bool) :
    Except PyErr (GP N) :=
  if fp.isEmpty then .error .value
  else
    match store gp fp (some t) with
    | .error e => .error e
    | .ok st =>
      match invGram gp.kernels flag gp.reg st.fp with
      | .error e => .error e
      | .ok ci =>
        let g := match st.scaling with
          | some s => if gp.scaleData then grad.map (scaleGrad s) else grad
          | none => grad
        updateLml { gp with fp := st.fp, target := st.target ++ flat g, nan := st.nan, scaling := st.scaling, cinv := ci }

end CatLearn.GradProc
