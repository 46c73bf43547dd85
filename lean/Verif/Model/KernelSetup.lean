import Verif.Model.Kernel

/-!
# Model of `kernel_setup.py` and of the likelihood gradient in `log_marginal_likelihood.py`
(both in `catlearn/regression/gpfunctions`)
-/

namespace CatLearn.Kernel

open CatLearn

/-- `kdict2list`, `kernel_setup.py` L233-264 with `_get_theta`, L267-305: scaling and hyperparameters of a kernel.
A boxed degree makes the list of hyperparameters inhomogeneous, and `np.concatenate` raises ValueError on it. -/
def kdict2list {N : Nat} (k : KDict N) : Except PyErr (List ℝ) :=
  let scaling := k.scaling.toList
  match k.ktype with
  | .gaussian w => .ok (scaling ++ w)
  | .laplacian w => .ok (scaling ++ w)
  | .sqe w => .ok (scaling ++ w)
  | .quadratic s d boxed => if boxed then .error .value else .ok (scaling ++ (s ++ [d]))
  | .linear => .ok scaling
  | .constant c => .ok (scaling ++ [c])
  | .noiseMulti h => .ok (scaling ++ h)

/-- `kdicts2list`, L308-327: `np.concatenate` raises ValueError for an empty list. -/
def kdicts2list {N : Nat} (ks : List (KDict N)) : Except PyErr (List ℝ) :=
  if ks.isEmpty then .error .value
  else do
    let ls ← ks.mapM kdict2list
    pure ls.flatten

/-- `hyperparameters[ki]`. -/
def item (θ : List ℝ) (ki : Nat) : Except PyErr ℝ :=
  match θ[ki]? with
  | none => .error .index
  | some t => .ok t

/-- `hyperparameters[ki:ki + n]`. -/
def slice (θ : List ℝ) (ki n : Nat) : List ℝ := (θ.drop ki).take n

/-- One iteration of `list2kdict`, L347-394: the kernel with new hyperparameters and the new value of `ki`, which the
last branch does not advance. -/
def setKernel {N : Nat} (θ : List ℝ) (ki : Nat) (k : KDict N) : Except PyErr (KDict N × Nat) := do
  let (sc, ki) ← match k.scaling with
    | none => pure (none, ki)
    | some _ => do
      let s ← item θ ki
      pure (some s, ki + 1)
  match k.ktype with
  | .gaussian w => pure ({ k with ktype := .gaussian (slice θ ki w.length), scaling := sc }, ki + w.length)
  | .laplacian w => pure ({ k with ktype := .laplacian (slice θ ki w.length), scaling := sc }, ki + w.length)
  | .sqe w => pure ({ k with ktype := .sqe (slice θ ki w.length), scaling := sc }, ki + w.length)
  | .quadratic s _ _ => do
    let d ← item θ (ki + s.length)
    pure ({ k with ktype := .quadratic (slice θ ki s.length) d true, scaling := sc }, ki + s.length + 1)
  | .linear => pure ({ k with scaling := sc }, ki)
  | .constant _ => do
    let c ← item θ ki
    pure ({ k with ktype := .constant c, scaling := sc }, ki + 1)
  | .noiseMulti h => pure ({ k with ktype := .noiseMulti (slice θ ki h.length), scaling := sc }, ki)

/-- The loop of `list2kdict` from position `ki`.  (For a quadratic kernel at the very end of too short a list the code
leaves an empty 'degree', the model an IndexError.) -/
def list2kdictFrom {N : Nat} (θ : List ℝ) : Nat → List (KDict N) → Except PyErr (List (KDict N))
  | _, [] => .ok []
  | ki, k :: ks => do
    let (k', ki') ← setKernel θ ki k
    let ks' ← list2kdictFrom θ ki' ks
    pure (k' :: ks')

/-- `list2kdict`, L330-396. -/
def list2kdict {N : Nat} (θ : List ℝ) (ks : List (KDict N)) : Except PyErr (List (KDict N)) :=
  list2kdictFrom θ 0 ks

/-! ### Preparation of kernel dictionaries -/

/-- A width or slope as given by the user. -/
inductive Param where
  | scalar (t : ℝ)
  | list (l : List ℝ)

/-- The type of a kernel and the keys with its hyperparameters, as given by the user; `other` stands for all types
without a `_setup` function, among them 'sqe', 'scaled_sqe' and 'AA'. -/
inductive RawType where
  | gaussian (width : Option Param)
  | laplacian (width : Option Param)
  | quadratic (slope : Option Param) (degree : Option ℝ)
  | linear
  | constant (const : Option ℝ)
  | constantMulti (hyperparameters : List ℝ)
  | noiseMulti (hyperparameters : List ℝ)
  | other (name : String)

/-- A kernel dictionary as given by the user.  `single` is the value of 'dimension' if that key is present;
`bounds` and `scalingBounds` give the number of bounds if the user supplies them. -/
structure RawDict (N : Nat) where
  ktype : RawType
  features : Option (List (Fin N))
  single : Option Bool
  scaling : Option ℝ
  mult : Bool
  bounds : Option Nat
  scalingBounds : Option Nat

/-- The hyperparameters of a prepared kernel, with the types that only make sense with gradients. -/
inductive PType where
  | gaussian (width : List ℝ)
  | laplacian (width : List ℝ)
  | quadratic (slope : List ℝ) (degree : ℝ)
  | linear
  | constant (const : ℝ)
  | constantMulti (hyperparameters : List ℝ)
  | noiseMulti (hyperparameters : List ℝ)

/-- A prepared kernel. -/
structure PDict (N : Nat) where
  ktype : PType
  features : Option (List (Fin N))
  scaling : Option ℝ
  mult : Bool

/-- L140-151, L177-188, L211-222: formatting of a width or slope. -/
def formatParam (p : Param) (nd : Nat) : Except PyErr (List ℝ) :=
  match p with
  | .scalar t => .ok (List.replicate nd t)
  | .list l => if l.length = nd then .ok l else .error .assertion

/-- L27-31: the number of features a kernel uses. -/
def featureCount {N : Nat} (k : RawDict N) : Except PyErr Nat :=
  match k.features with
  | none => .ok N
  | some f => if f.length ≤ N then .ok f.length else .error .assertion

/-- One iteration of `prepare_kernels`, L25-54, with the `_setup` functions L63-230: the prepared kernel and the number
of bounds. -/
noncomputable def prepKernel {N : Nat} (k : RawDict N) : Except PyErr (PDict N × Nat) := do
  let nd ← featureCount k
  let nd := if k.single = some true then 1 else nd
  let sb := match k.scaling with
    | none => 0
    | some _ => k.scalingBounds.getD 1
  match k.ktype with
  | .gaussian none => throw .assertion
  | .gaussian (some p) => do
    let w ← formatParam p nd
    if ∀ t ∈ w, 0 < t then pure (⟨.gaussian w, k.features, k.scaling, k.mult⟩, sb + k.bounds.getD nd)
      else throw .assertion
  | .laplacian none => throw .assertion
  | .laplacian (some p) => do
    let w ← formatParam p nd
    pure (⟨.laplacian w, k.features, k.scaling, k.mult⟩, sb + k.bounds.getD nd)
  | .quadratic (some p) (some d) => do
    let s ← formatParam p nd
    pure (⟨.quadratic s d, k.features, k.scaling, k.mult⟩, sb + k.bounds.getD (nd + 1))
  | .quadratic _ _ => throw .assertion
  | .linear => pure (⟨.linear, k.features, k.scaling, k.mult⟩, sb)
  | .constant c =>
    if k.scaling.isSome ∨ k.scalingBounds.isSome then throw .assertion
    else match c with
      | none => throw .key
      | some c => pure (⟨.constant c, k.features, k.scaling, k.mult⟩, sb + k.bounds.getD 1)
  | .constantMulti h =>
    if k.scaling.isSome ∨ k.scalingBounds.isSome ∨ k.features.isSome ∨ k.single.isSome then throw .assertion
    else pure (⟨.constantMulti h, k.features, k.scaling, k.mult⟩, sb + k.bounds.getD 3)
  | .noiseMulti h =>
    if k.scaling.isSome ∨ k.scalingBounds.isSome ∨ k.features.isSome ∨ k.single.isSome then throw .assertion
    else pure (⟨.noiseMulti h, k.features, k.scaling, k.mult⟩, sb + k.bounds.getD 2)
  | .other _ => throw .notImpl

/-- `prepare_kernels`, L5-60: the prepared kernels and the number of bounds, one of them for the regularisation. -/
noncomputable def prepareKernels {N : Nat} (ks : List (RawDict N)) : Except PyErr (List (PDict N) × Nat) := do
  let ps ← ks.mapM prepKernel
  pure (ps.map Prod.fst, (ps.map Prod.snd).sum + 1)

/-- `kdict2list` of a prepared kernel. -/
def hyperparameters {N : Nat} (k : PDict N) : List ℝ :=
  k.scaling.toList ++
  match k.ktype with
  | .gaussian w => w
  | .laplacian w => w
  | .quadratic s d => s ++ [d]
  | .linear => []
  | .constant c => [c]
  | .constantMulti h => h
  | .noiseMulti h => h

/-! ### Derivatives with respect to hyperparameters -/

/-- `gaussian_dk_dwidth`, `kernels.py` L269-295, one entry for width number `a`: `k` is the value of the kernel. -/
noncomputable def gaussDWidth {N : Nat} (w : List ℝ) (k : ℝ) (x y : Fin N → ℝ) (a : Nat) : ℝ :=
  if w.length = 1 then (∑ b, (x b - y b) ^ 2) / (w.getD 0 0) ^ 3 * k
  else if h : a < N then (x ⟨a, h⟩ - y ⟨a, h⟩) ^ 2 / (w.getD a 0) ^ 3 * k else 0

/-- `laplacian_dk_dwidth`, `kernels.py` L540-553, one entry for width number `a`. -/
noncomputable def laplDWidth {N : Nat} (w : List ℝ) (k : ℝ) (x y : Fin N → ℝ) (a : Nat) : ℝ :=
  if w.length = 1 then (∑ b, |x b / (w.getD 0 0) ^ 2 - y b / (w.getD 0 0) ^ 2|) * k
  else if h : a < N then |x ⟨a, h⟩ - y ⟨a, h⟩| / (w.getD a 0) ^ 2 * k else 0

/-- The kernel matrix `dK_dtheta_j` evaluates, `log_marginal_likelihood.py` L105-107: always with all the features of
the training matrix.  Widths of another length cannot be broadcast. -/
noncomputable def jacK {N : Nat} {n : Type} [DecidableEq n] (X : n → Fin N → ℝ) (k : KDict N) :
    Except PyErr (Matrix n n ℝ) :=
  let m : Matrix n n ℝ := Matrix.of fun i j => entry k.ktype (List.finRange N) false (X i) (X j) (decide (i = j))
  match k.ktype with
  | .gaussian w => if w.length = 1 ∨ w.length = N then .ok m else .error .value
  | .laplacian w => if w.length = 1 ∨ w.length = N then .ok m else .error .value
  | .sqe w => if w.length = N then .ok m else .error .value
  | _ => .ok m

/-- One iteration of `dK_dtheta_j`, L97-144: the local variables `k` (possibly left over from the iteration before) and
`ki`, and the matrices appended to `jac`. -/
noncomputable def jacStep {N : Nat} {n : Type} [DecidableEq n] (θ : List ℝ) (X : n → Fin N → ℝ)
    (old : Option (Matrix n n ℝ)) (ki : Nat) (k : KDict N) :
    Except PyErr (Option (Matrix n n ℝ) × Nat × List (Matrix n n ℝ)) := do
  if k.mult then throw .notImpl
  let isGauss := match k.ktype with
    | .gaussian _ => true
    | _ => false
  let cur ← if k.scaling.isSome || isGauss then do
      let m ← jacK X k
      pure (some m)
    else pure old
  let (blk, ki) ← match k.scaling, cur with
    | some _, some m => pure ([m], ki + 1)
    | _, _ => pure ([], ki)
  let sc := k.scaling.getD 1
  match k.ktype with
  | .constant _ => pure (cur, ki + 1, blk ++ [Matrix.of fun _ _ => 1])
  | .linear => pure (cur, ki, blk)
  | .gaussian w =>
    match cur with
    | none => throw .name
    | some m =>
      let kw := slice θ ki w.length
      pure (cur, ki + w.length, blk ++ (List.range w.length).map fun a =>
        Matrix.of fun i j => gaussDWidth kw (m i j) (X i) (X j) a * sc)
  | .laplacian w =>
    match cur with
    | none => throw .name
    | some m =>
      let kw := slice θ ki w.length
      pure (cur, ki + w.length, blk ++ (List.range w.length).map fun a =>
        Matrix.of fun i j => laplDWidth kw (m i j) (X i) (X j) a * sc)
  | _ => throw .notImpl

/-- The loop of `dK_dtheta_j`. -/
noncomputable def jacLoop {N : Nat} {n : Type} [DecidableEq n] (θ : List ℝ) (X : n → Fin N → ℝ) :
    Option (Matrix n n ℝ) → Nat → List (KDict N) → Except PyErr (List (Matrix n n ℝ))
  | _, _, [] => .ok []
  | old, ki, k :: ks => do
    let (cur, ki', blk) ← jacStep θ X old ki k
    let rest ← jacLoop θ X cur ki' ks
    pure (blk ++ rest)

/-- `dK_dtheta_j`, L78-149: the derivative with respect to the regularisation is the identity. -/
noncomputable def dKdTheta {N : Nat} {n : Type} [DecidableEq n] (θ : List ℝ) (X : n → Fin N → ℝ)
    (ks : List (KDict N)) : Except PyErr (List (Matrix n n ℝ)) := do
  let jac ← jacLoop θ X none 0 ks
  pure (jac ++ [1])

end CatLearn.Kernel
