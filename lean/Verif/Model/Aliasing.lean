import Verif.Model.GP

/-!
# Kernel dictionaries shared by several `GaussianProcess` objects

`prepare_kernels` (kernel_setup.py L5-59), `list2kdict` (L330-396) and `GaussianProcess.__init__` (gaussian_process.py L72-75)
copy nothing: `self.kernel_list` holds the dictionaries the user passed, and the hyperparameters are written to them.
-/

namespace CatLearn.Aliasing

open CatLearn CatLearn.Kernel CatLearn.Proc

/-- The dictionaries in memory. -/
abbrev Heap (N : ℕ) := ℕ → KDict N

/-- A model: the dictionaries in its `kernel_list`, and its other attributes (the field `kernels` of `own` is not used). -/
structure Obj (N : ℕ) where
  refs : List ℕ
  own : GP N

/-- The model as seen by its methods. -/
def Obj.view {N : ℕ} (d : Heap N) (o : Obj N) : GP N := { o.own with kernels := o.refs.map d }

/-- Dictionaries and models of a session. -/
structure World (N : ℕ) where
  dicts : Heap N
  objs : List (Obj N)

/-- The loop of `list2kdict`, kernel_setup.py L347-394, assigns to the dictionaries one after the other. -/
def writeBack {N : ℕ} : List ℕ → List (KDict N) → Heap N → Heap N
  | r :: rs, k :: ks, d => writeBack rs ks (Function.update d r k)
  | _, _, d => d

/-- What a user does in a session. -/
inductive Op (N : ℕ) where
  /-- `GaussianProcess(train_fp, train_target, kernel_list, …)`: a new model. -/
  | make (refs : List ℕ) (fp : List (Fin N → ℝ)) (target : List ℝ) (reg : Option ℝ) (log scaleData : Bool)
  /-- `update_data` of the model with this number. -/
  | update (i : ℕ) (fp : List (Fin N → ℝ)) (target : Option (List ℝ)) (flag : Bool)
  /-- `optimize_hyperparameters` of the model with this number, if all evaluations of the likelihood succeed. -/
  | optimize (i : ℕ) (minimizer : List ℝ → List ℝ × ℝ)
  /-- `optimize_hyperparameters` if the evaluation of the likelihood for these hyperparameters raises. -/
  | abort (i : ℕ) (θ : List ℝ)

/-- A method of a model that changes it; a call that raises changes nothing. -/
def World.call {N : ℕ} (w : World N) (i : ℕ) (f : GP N → Except PyErr (GP N)) : World N :=
  match w.objs[i]? with
  | none => w
  | some o =>
    match f (o.view w.dicts) with
    | .error _ => w
    | .ok gp => ⟨writeBack o.refs gp.kernels w.dicts, w.objs.set i ⟨o.refs, gp⟩⟩

/-- One step.  In `abort` the likelihood has written its hyperparameters to the dictionaries of the model before it raises,
log_marginal_likelihood.py L43-49 (the argument `kernel_list` is `self.kernel_list`, gaussian_process.py L322-324). -/
noncomputable def step {N : ℕ} (w : World N) : Op N → World N
  | .make refs fp t reg log sd =>
    match init fp t (refs.map w.dicts) reg log sd with
    | .error _ => w
    | .ok gp => ⟨writeBack refs gp.kernels w.dicts, w.objs ++ [⟨refs, gp⟩]⟩
  | .update i fp t flag => w.call i fun gp => updateData gp fp t flag
  | .optimize i m => w.call i (Proc.optimize m)
  | .abort i θ => w.call i fun gp =>
    match list2kdict θ gp.kernels, lossValue θ gp.fp gp.target gp.kernels gp.log with
    | .ok ks, .error _ => .ok { gp with kernels := ks }
    | _, _ => .error .other

/-- A session. -/
noncomputable def run {N : ℕ} (w : World N) (ops : List (Op N)) : World N := ops.foldl step w

/-- `predict` of the model with this number. -/
noncomputable def World.predict {N : ℕ} (w : World N) (i : ℕ) (test : List (Fin N → ℝ)) (unc : Bool) : Option (Except PyErr Pred) :=
  w.objs[i]?.map fun o => Proc.predict (o.view w.dicts) test unc

end CatLearn.Aliasing
