import Verif.Model.Py
import Mathlib.Data.Matrix.Mul
import Mathlib.LinearAlgebra.Matrix.Hadamard
import Mathlib.Analysis.SpecialFunctions.Exp
import Mathlib.Analysis.SpecialFunctions.Pow.Real
import Mathlib.Analysis.Real.Sqrt

/-!
# Model of `catlearn/regression/gpfunctions/kernels.py` and `covariance.py`

A data point is a vector of `N` real features.  Kernel dictionaries are as they leave `prepare_kernels`
(`kernel_setup.py`): widths are lists with one entry per feature used, or one entry in total.
`np.exp` applied to the hyperparameters when they are on a log scale is modelled as in the code.
-/

namespace CatLearn.Kernel

open CatLearn

/-- A kernel dictionary without its optional keys: 'type' and the hyperparameters stored under 'width', 'slope' and
'degree', 'const' or 'hyperparameters'.  `boxed` says that 'degree' is a list with one element instead of a number,
which is what `list2kdict` leaves behind; kernel values do not depend on it. -/
inductive KType where
  | gaussian (width : List ℝ)
  | laplacian (width : List ℝ)
  | sqe (width : List ℝ)
  | quadratic (slope : List ℝ) (degree : ℝ) (boxed : Bool)
  | linear
  | constant (const : ℝ)
  | noiseMulti (hyperparameters : List ℝ)

/-- A kernel dictionary: the optional keys are 'features', 'scaling' and 'operation'; `mult` says that the latter is
'multiplication'. -/
structure KDict (N : Nat) where
  ktype : KType
  features : Option (List (Fin N))
  scaling : Option ℝ
  mult : Bool

/-- A hyperparameter on a log scale or not. -/
noncomputable def unlog (log : Bool) (t : ℝ) : ℝ := if log then Real.exp t else t

/-- Broadcasting of a list of hyperparameters over the columns of a matrix. -/
def pick (ws : List ℝ) (i : Nat) : ℝ := ws.getD (if ws.length = 1 then 0 else i) 0

/-- The features a kernel uses, `covariance.py` L44-47. -/
def columns {N : Nat} (k : KDict N) : List (Fin N) := k.features.getD (List.finRange N)

/-- The sum over the columns used of a function of column number and the two entries. -/
noncomputable def colSum {N : Nat} (cols : List (Fin N)) (x y : Fin N → ℝ) (f : Nat → ℝ → ℝ → ℝ) : ℝ :=
  (cols.zipIdx.map fun c => f c.2 (x c.1) (y c.1)).sum

/-- One entry of a kernel matrix without gradients (`kernels.py`: constant L30-34, noise_multi L131-157, gaussian
L181-199, sqe L324-333, linear L436-439, quadratic L476-490, laplacian L526-535).  `self` says that the entry is on
the diagonal of a covariance of data with itself (`m2` is None); there `pdist` and `squareform` are used instead of
`cdist` and the diagonal is set to 1, which is the value of the formula as well. -/
noncomputable def entry {N : Nat} (k : KType) (cols : List (Fin N)) (log : Bool) (x y : Fin N → ℝ) (self : Bool) :
    ℝ :=
  match k with
  | .gaussian w =>
    Real.exp (-0.5 * colSum cols x y fun i a b => (a / unlog log (pick w i) - b / unlog log (pick w i)) ^ 2)
  | .laplacian w =>
    Real.exp (-colSum cols x y fun i a b => |a / unlog log (pick w i) - b / unlog log (pick w i)|)
  | .sqe w =>
    Real.exp (-0.5 * Real.sqrt (colSum cols x y fun i a b => (a - b) ^ 2 / unlog log (pick w i)))
  | .quadratic slope degree _ =>
    let theta := slope ++ [degree]
    let s := unlog log (theta.getD 0 0)
    let g := unlog log (theta.getD 1 0)
    (1 + 0.5 * colSum cols x y fun _ a b => (a / s * g - b / s * g) ^ 2) ^ (-g)
  | .linear => colSum cols x y fun _ a b => a * b
  | .constant c => unlog log c
  | .noiseMulti h => if self then (unlog log (h.getD 0 0)) ^ 2 else 0

/-- The scaling factor of a kernel, `covariance.py` L50-56: without 'scaling' it is 1, and then on a log scale
`np.exp(1.0)`. -/
noncomputable def scaleFactor {N : Nat} (k : KDict N) (log : Bool) : ℝ :=
  match k.scaling with
  | none => unlog log 1
  | some s => unlog log s

/-- The loop over the kernels, `covariance.py` L37-70, for one entry. -/
noncomputable def covEntry {N : Nat} (ks : List (KDict N)) (log : Bool) (x y : Fin N → ℝ) (self : Bool) : ℝ :=
  ks.foldl (fun cov k =>
    let v := scaleFactor k log * entry k.ktype (columns k) log x y self
    if k.mult then cov * v else cov + v) 0

/-- `get_covariance` of data with itself, L73-76 included.  (An empty kernel list leaves `cov` None; the model gives
the zero matrix.) -/
noncomputable def covSelf {N : Nat} {n : Type} [DecidableEq n] (ks : List (KDict N)) (log : Bool)
    (reg : Option ℝ) (X : n → Fin N → ℝ) : Matrix n n ℝ :=
  Matrix.of (fun i j => covEntry ks log (X i) (X j) (decide (i = j))) +
    match reg with
    | none => 0
    | some r => Matrix.diagonal fun _ => (unlog log r) ^ 2

/-! ### Gradients -/

/-- The Gaussian kernel of two points with all features, one width each, as in `gaussian_kernel` on all features. -/
noncomputable def gauss {N : Nat} (w : Fin N → ℝ) (x y : Fin N → ℝ) : ℝ :=
  Real.exp (-0.5 * ∑ a, (x a / w a - y a / w a) ^ 2)

/-- `gaussian_xx_gradients`, L204-238: covariance of values and partial derivatives.  Rows and columns are first the
values at the points and then the derivatives at point `i` for feature `a`. -/
noncomputable def gaussXX {N : Nat} {n : Type} (w : Fin N → ℝ) (X : n → Fin N → ℝ) :
    Matrix (n ⊕ n × Fin N) (n ⊕ n × Fin N) ℝ :=
  let ldist : n → n → Fin N → ℝ := fun i j a => (w a) ^ (-2 : ℤ) * (X j a - X i a)
  let kgd : Matrix n (n × Fin N) ℝ := Matrix.of fun j ia => ldist ia.1 j ia.2 * gauss w (X ia.1) (X j)
  let kdd : Matrix (n × Fin N) (n × Fin N) ℝ := Matrix.of fun ja ib =>
    ((if ja.2 = ib.2 then (w ja.2) ^ (-2 : ℤ) else 0) - ldist ib.1 ja.1 ib.2 * ldist ib.1 ja.1 ja.2) *
      gauss w (X ib.1) (X ja.1)
  Matrix.fromBlocks (Matrix.of fun i j => gauss w (X i) (X j)) kgd kgd.transpose kdd

/-- The lower right block as computed by the loop for more than 30 features, L229-236, for points numbered
`0, …, n-1`: block `(i, j)` for `i ≤ j` and its transpose at `(j, i)`. -/
noncomputable def gaussKddLoop {N n : Nat} (w : Fin N → ℝ) (X : Fin n → Fin N → ℝ) :
    Matrix (Fin n × Fin N) (Fin n × Fin N) ℝ :=
  let ldist : Fin n → Fin n → Fin N → ℝ := fun i j a => (w a) ^ (-2 : ℤ) * (X j a - X i a)
  let block : Fin n → Fin n → Fin N → Fin N → ℝ := fun i j a b =>
    ((if a = b then (w a) ^ (-2 : ℤ) else 0) - ldist i j a * ldist i j b) * gauss w (X i) (X j)
  fun ia jb => if ia.1 ≤ jb.1 then block ia.1 jb.1 ia.2 jb.2 else block jb.1 ia.1 jb.2 ia.2

/-- `gaussian_xxp_gradients`, L241-266: covariance of the values at new points with values and derivatives at the
training points. -/
noncomputable def gaussXXp {N : Nat} {m n : Type} (w : Fin N → ℝ) (X1 : m → Fin N → ℝ) (X2 : n → Fin N → ℝ) :
    Matrix m (n ⊕ n × Fin N) ℝ :=
  fun i c =>
    match c with
    | .inl j => gauss w (X1 i) (X2 j)
    | .inr (j, a) => -((w a) ^ (-2 : ℤ) * (X2 j a - X1 i a) * gauss w (X1 i) (X2 j))

/-- `linear_kernel` with gradients, L441-448. -/
noncomputable def linearXX {N : Nat} {n : Type} (X : n → Fin N → ℝ) : Matrix (n ⊕ n × Fin N) (n ⊕ n × Fin N) ℝ :=
  let kgd : Matrix n (n × Fin N) ℝ := Matrix.of fun j ia => X j ia.2
  Matrix.fromBlocks (Matrix.of fun i j => ∑ a, X i a * X j a) kgd kgd.transpose (Matrix.of fun _ _ => 1)

/-- `constant_kernel` with gradients, L36-48. -/
noncomputable def constantXX {N : Nat} {n : Type} (c : ℝ) : Matrix (n ⊕ n × Fin N) (n ⊕ n × Fin N) ℝ :=
  Matrix.fromBlocks (Matrix.of fun _ _ => c) 0 0 0

/-- `constant_multi_kernel` with gradients, L92-101. -/
noncomputable def constantMultiXX {N : Nat} {n : Type} (c1 c2 c3 : ℝ) : Matrix (n ⊕ n × Fin N) (n ⊕ n × Fin N) ℝ :=
  Matrix.fromBlocks (Matrix.of fun _ _ => c1) (Matrix.of fun _ _ => c2) (Matrix.of fun _ _ => c2)
    (Matrix.of fun _ _ => c3)

/-- `noise_multi_kernel` with gradients, L146-149. -/
noncomputable def noiseMultiXX {N : Nat} {n : Type} [DecidableEq n] (t1 t2 : ℝ) :
    Matrix (n ⊕ n × Fin N) (n ⊕ n × Fin N) ℝ :=
  Matrix.fromBlocks (Matrix.diagonal fun _ => t1 ^ 2) 0 0 (Matrix.diagonal fun _ => t2 ^ 2)

/-- The kernels that can be evaluated with gradients (`sqe`, `quadratic` and `laplacian` raise
NotImplementedError). -/
inductive GType (N : Nat) where
  | gaussian (width : Fin N → ℝ)
  | linear
  | constant (const : ℝ)
  | constantMulti (c1 c2 c3 : ℝ)
  | noiseMulti (t1 t2 : ℝ)

/-- A kernel dictionary for a covariance with gradients; hyperparameters are not on a log scale and all features are
used. -/
structure GDict (N : Nat) where
  gtype : GType N
  scaling : ℝ
  mult : Bool

/-- The kernel matrix of one kernel with gradients. -/
noncomputable def gMatrix {N : Nat} {n : Type} [DecidableEq n] (g : GType N) (X : n → Fin N → ℝ) :
    Matrix (n ⊕ n × Fin N) (n ⊕ n × Fin N) ℝ :=
  match g with
  | .gaussian w => gaussXX w X
  | .linear => linearXX X
  | .constant c => constantXX c
  | .constantMulti c1 c2 c3 => constantMultiXX c1 c2 c3
  | .noiseMulti t1 t2 => noiseMultiXX t1 t2

/-- `get_covariance` of data with itself and `eval_gradients`, `covariance.py` L37-76.  Multiplication of arrays is
entry by entry. -/
noncomputable def covGrad {N : Nat} {n : Type} [DecidableEq n] (ks : List (GDict N)) (reg : Option ℝ)
    (X : n → Fin N → ℝ) : Matrix (n ⊕ n × Fin N) (n ⊕ n × Fin N) ℝ :=
  ks.foldl (fun cov k =>
    if k.mult then Matrix.hadamard cov (k.scaling • gMatrix k.gtype X) else cov + k.scaling • gMatrix k.gtype X) 0 +
    match reg with
    | none => 0
    | some r => Matrix.diagonal fun _ => r ^ 2

end CatLearn.Kernel
