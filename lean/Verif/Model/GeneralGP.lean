import Verif.Model.Estimator

/-!
# Model of `catlearn/estimator/general_gp.py`

The class `GeneralGaussianProcess`: cleaning and scaling (`Model/Estimator`), the default kernels and the process made
from them.  Fitting a Gaussian process with given kernels, and predicting with it, are any functions `fit` and `pred`;
the preparation of the kernel list, which the constructor of the process starts with, is `Kernel.prepareKernels`.
-/

namespace CatLearn.Est

open CatLearn CatLearn.Clean

/-- The attributes `cleaner` and `gp` of a `GeneralGaussianProcess`, absent before the first training. -/
structure General (G : Type) where
  cleaner : Option Prep
  gp : Option G

/-- All rows of a matrix, if every entry is a number. -/
def numberRows (X : Mat) : Option (List (List ℝ)) := X.mapM numbers

/-- The kernel list, `general_gp.py` L50-53; `smooth` tells whether 'smooth' occurs in the option `kernel`. -/
noncomputable def kernelList (smooth : Bool) (k : Nat) (Z : List (List ℝ)) (dimension : String) :
    Except PyErr (List (Kernel.RawDict k)) :=
  if smooth then smoothKernel k Z dimension else generalKernel k Z dimension

/-- The number of columns of the processed features. -/
def width (st : Prep) : Nat :=
  match st.index with
  | none => 0
  | some index => (truePos index).length

/-- The kernels, `general_gp.py` L50-53, and the process made with them, L55-59: the constructor prepares the kernel
list first (`gaussian_process.py`). -/
noncomputable def makeGP {G : Type}
    (fit : (k : Nat) → List (List ℝ) → List (Option ℝ) → List (Kernel.RawDict k) → Except PyErr G)
    (smooth : Bool) (dimension : String) (k : Nat) (Z : List (List ℝ)) (t : List (Option ℝ)) : Except PyErr G :=
  match kernelList smooth k Z dimension with
  | .error e => .error e
  | .ok ks =>
    match Kernel.prepareKernels ks with
    | .error e => .error e
    | .ok _ => fit k Z t ks

/-- `train_gaussian_process`, `general_gp.py` L32-61, with `_process_train_data`, L81-104: the object afterwards and the
process or the exception.  `d` is the number of features.  The cleaner is replaced first (L99), the process last (L55).
A missing entry left in the features makes the default width nan, which the assertion of the preparation refuses. -/
noncomputable def trainGP {G : Type}
    (fit : (k : Nat) → List (List ℝ) → List (Option ℝ) → List (Kernel.RawDict k) → Except PyErr G)
    (eliminate smooth : Bool) (dimension : String) (o : General G) (d : Nat) (X : Mat) (t : List (Option ℝ)) :
    General G × Except PyErr G :=
  match process eliminate ⟨none, none⟩ d X (some t) none with
  | (st, .error e) => (⟨some st, o.gp⟩, .error e)
  | (st, .ok out) =>
    match numberRows out.train with
    | none => (⟨some st, o.gp⟩, .error .assertion)
    | some Z =>
      match makeGP fit smooth dimension (width st) Z t with
      | .error e => (⟨some st, o.gp⟩, .error e)
      | .ok g => (⟨some st, some g⟩, .ok g)

/-- `gaussian_process_predict`, `general_gp.py` L63-79.  `pred` is `GaussianProcess.predict`. -/
noncomputable def predictGP {G P : Type} (pred : G → Mat → Except PyErr P) (eliminate : Bool) (o : General G) (d : Nat)
    (T : Mat) : Except PyErr P :=
  match o.cleaner with
  | none => .error .attribute
  | some st =>
    match transform eliminate st d T with
    | .error e => .error e
    | .ok Z =>
      match o.gp with
      | none => .error .attribute
      | some g => pred g Z

end CatLearn.Est
