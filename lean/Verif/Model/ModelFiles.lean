import Verif.Model.GP
import Mathlib.Data.List.Lex
import Mathlib.Data.Char

/-!
# Model of `catlearn/regression/gpfunctions/kernel_scaling.py`, `hyperparameter_scaling.py` and `io.py`

Numbers are floats throughout: an hdf5 file cannot hold a Python int or None, for which `_dict_to_group` raises
ValueError.  (The model of the file is for h5py 2: `item.value` does not exist in later versions.)
-/

namespace CatLearn.Proc

open CatLearn CatLearn.Kernel CatLearn.Scaling

/-- One iteration of `kernel_scaling`, `kernel_scaling.py` L23-40: `k.2` says that 'dimension' is 'single'.  Types
without a `_kernel_scale` function give NameError; widths are changed in place, so they keep their shape. -/
noncomputable def scaleKernel {N : Nat} (std : Fin N → ℝ) (rescale : Bool) (k : KDict N × Bool) :
    Except PyErr (KDict N × Bool) :=
  if k.2 then .ok k
  else
    match k.1.ktype with
    | .gaussian w =>
      let s := (columns k.1).map std
      if s.length = w.length ∨ s.length = 1 then
        .ok ({ k.1 with ktype := .gaussian (w.zipIdx.map fun c =>
          if rescale then c.1 * pick s c.2 else c.1 / pick s c.2) }, k.2)
      else .error .value
    | .laplacian _ => .ok k
    | .quadratic _ _ _ => .ok k
    | .linear => .ok k
    | .constant _ => .ok k
    | .sqe _ => .error .name
    | .noiseMulti _ => .error .name

/-- `kernel_scaling`, L7-42: `scale_hyperparameters` is `rescale=False`, `rescale_hyperparameters` is `rescale=True`
(`hyperparameter_scaling.py` L7-14).  (Kernels before one that raises are already changed in the code.) -/
noncomputable def kernelScaling {N : Nat} (s : Scal N) (ks : List (KDict N × Bool)) (rescale : Bool) :
    Except PyErr (List (KDict N × Bool)) :=
  ks.mapM (scaleKernel s.fstd rescale)

/-- The scaled target of `ScaleData.train` for a target `t` among the targets `ts`: nan or inf is `none`. -/
noncomputable def scaledTarget (ts : List ℝ) (t : ℝ) : Option ℝ := npDiv (t - tMean ts.get) (tStd ts.get)

/-- `ScaleData.rescale_targets`, `default_scale.py` L75-91. -/
noncomputable def rescaled (ts : List ℝ) (p : Option ℝ) : Option ℝ := p.map fun p => p * tStd ts.get + tMean ts.get

/-! ### Files -/

/-- The name of a group in the file: `str(i)`, `io.py` L133. -/
def groupName (i : Nat) : List Char := Nat.toDigits 10 i

/-- The order in which `h5file['/kernel_list/'].items()` visits the groups written for `n` kernels, `io.py` L158:
alphabetical. -/
def readOrder (n : Nat) : List Nat := sortAsc groupName (List.range n)

/-- `_load_kernel_list_from_group` of what `_kernel_list_to_group` has written, `io.py` L120-162. -/
def readBack {A : Type} (ks : List A) : List A := (readOrder ks.length).filterMap fun i => ks[i]?

/-- What `write_train_data` writes, L70-93. -/
structure H5 (N : Nat) where
  features : List (Fin N → ℝ)
  targets : List ℝ
  regularization : ℝ
  kernels : List (KDict N)

/-- `write(filename, model, ext='hdf5')`, L22-31: `create_dataset` with `data=None` raises TypeError. -/
def writeH5 {N : Nat} (gp : GP N) : Except PyErr (H5 N) :=
  match gp.reg with
  | none => .error .type
  | some r => .ok ⟨gp.fp, gp.target, r, gp.kernels⟩

/-- `read(filename, ext='hdf5')`, L53-61: `scale_data` and `scale_optimizer` have their default False. -/
noncomputable def readH5 {N : Nat} (f : H5 N) : Except PyErr (GP N) :=
  init f.features f.targets (readBack f.kernels) (some f.regularization) false false

end CatLearn.Proc
