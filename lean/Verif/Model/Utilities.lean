import Verif.Model.Py
import Mathlib.Algebra.BigOperators.Fin
import Mathlib.Algebra.Order.Field.Rat
import Mathlib.Data.Prod.Lex
import Mathlib.Data.Rat.Floor
import Mathlib.Analysis.Real.Sqrt

/-!
# Small utilities

* `catlearn/utilities/utilities.py`: `formal_charges`, `geometry_hash`
* `catlearn/utilities/penalty_functions.py`: `penalty_close`, `penalty_far`
* `catlearn/optimize/io.py`: `ase_to_catlearn`, `array_to_ase`, `array_to_atoms`
-/

namespace CatLearn.Utilities

open CatLearn

/-! ### `formal_charges`, utilities.py L8-39 -/

section Charges

variable {n : Nat}

/-- `row_sums`, L32-35: the row sums of `cm * np.vstack(anion_charges)`; a row whose sum is exactly the charge of the
ion is multiplied by `abs(ion_charge)`. -/
def rowSum (cm : Fin n → Fin n → Rat) (q : Rat) (anion : Fin n → Rat) (i : Fin n) : Rat :=
  let s := ∑ j, cm i j * anion i
  if s = q then s * |q| else s

/-- `shared`, L36: entry `i, j`; `none` is nan.  A division by zero: all entries of a connectivity matrix are
nonnegative, so the numerator vanishes with the row sum and the quotient is nan (0/0), never infinite. -/
def shared (cm : Fin n → Fin n → Rat) (q : Rat) (anion : Fin n → Rat) (i j : Fin n) : Option Rat :=
  if rowSum cm q anion i = 0 then none else some (q * (cm i j * anion i) / rowSum cm q anion i)

/-- `all_charges`, L37-38; `np.nansum` takes nan as 0. -/
def allCharges (cm : Fin n → Fin n → Rat) (q : Rat) (anion : Fin n → Rat) (j : Fin n) : Rat :=
  anion j + -(∑ i, (shared cm q anion i j).getD 0)

/-- One pass of the loop L28-38; the state is `anion_charges` and `all_charges` (unbound at the start). -/
def chargeStep (z : Fin n → Nat) (cm : Fin n → Fin n → Rat) (ion : Nat) (q : Rat)
    (s : (Fin n → Rat) × Option (Fin n → Rat)) (i : Fin n) : (Fin n → Rat) × Option (Fin n → Rat) :=
  if z i = ion then
    let anion := Function.update s.1 i q
    (anion, some (allCharges cm q anion))
  else s

/-- `formal_charges`, L8-39, for the atomic numbers `z` and the connectivity `cm` of an atoms object.  Without any
anion `all_charges` is unbound. -/
def formalCharges (z : Fin n → Nat) (cm : Fin n → Fin n → Rat) (ion : Nat) (q : Rat) :
    Except PyErr (Fin n → Rat) :=
  match ((List.finRange n).foldl (chargeStep z cm ion q) (fun _ => 0, none)).2 with
  | none => .error .name
  | some c => .ok c

end Charges

/-! ### `geometry_hash`, utilities.py L113-154 -/

/-- Cartesian coordinates. -/
abbrev Vec := Rat × Rat × Rat

/-- The sorting key `(x[2], x[1], x[0])`, L129-130, L139-140. -/
def key (v : Vec) : Rat ×ₗ Rat ×ₗ Rat := toLex (v.2.2, toLex (v.2.1, v.1))

/-- Flattening of an `n` by 3 array. -/
def flat {A : Type} (l : List (A × A × A)) : List A := l.flatMap fun v => [v.1, v.2.1, v.2.2]

/-- What the function reads: cell vectors, positions and atomic numbers. -/
structure Geometry where
  cell : List Vec
  atoms : List (Vec × Nat)

/-- What `geometry_hash` calls: the wrapping of a position into the cell (`atoms.wrap`), rounding to three decimals,
the printing of an array of floats or of integers (`np.array_str` and the removal of brackets, blanks and dots, L134-135,
L141-142, L146-147), and `hashlib.md5(string).hexdigest()`. -/
structure Printer where
  wrap : List Vec → Vec → Vec
  round : Rat → Rat
  floats : List Rat → List Char
  ints : List Nat → List Char
  md5 : List Char → Except PyErr (List Char)

/-- The string that is hashed, L126-150. -/
def masterHash (p : Printer) (g : Geometry) : List Char :=
  let atoms := g.atoms.map fun a => (p.wrap g.cell a.1, a.2)
  let cell := sortAsc key g.cell
  let srt := sortAsc (fun a => key a.1) atoms
  p.floats ((flat cell).map p.round) ++ p.floats ((flat (srt.map (·.1))).map p.round) ++ p.ints (srt.map (·.2))

/-- `geometry_hash`, L113-154: the hash and the geometry the caller's object has afterwards (`atoms.wrap()`, L124, moves
the atoms of the object that was passed in). -/
def geometryHash (p : Printer) (g : Geometry) : Except PyErr (List Char) × Geometry :=
  (p.md5 (masterHash p g), { g with atoms := g.atoms.map fun a => (p.wrap g.cell a.1, a.2) })

/-! ### `penalty_functions.py` -/

section Penalty

variable {d : Nat}

/-- `scipy.spatial.distance.cdist(…, 'euclidean')`, one entry. -/
noncomputable def dist (x y : Fin d → ℝ) : ℝ := Real.sqrt (∑ k, (x k - y k) ^ 2)

/-- `np.min(distance.cdist([i], train_features))`, L51-52, L78-79.  An empty training set gives ValueError (an empty
list is not two-dimensional, the minimum of an empty array does not exist). -/
noncomputable def minDist (train : List (Fin d → ℝ)) (x : Fin d → ℝ) : Except PyErr ℝ :=
  match train with
  | [] => .error .value
  | t :: ts => .ok (ts.foldl (fun m y => min m (dist x y)) (dist x t))

/-- `penalty_close`, L33-58. -/
noncomputable def penaltyClose (c dcrit : ℝ) (test train : List (Fin d → ℝ)) : Except PyErr (List ℝ) :=
  test.mapM fun x => match minDist train x with
    | .error e => .error e
    | .ok m => .ok (if m < dcrit then c * (m - dcrit) ^ 2 else 0)

/-- `penalty_far`, L60-85. -/
noncomputable def penaltyFar (c dcrit : ℝ) (test train : List (Fin d → ℝ)) : Except PyErr (List ℝ) :=
  test.mapM fun x => match minDist train x with
    | .error e => .error e
    | .ok m => .ok (if dcrit < m then c * (m - dcrit) ^ 2 else 0)

end Penalty

/-! ### `catlearn/optimize/io.py` -/

/-- What `ase_to_catlearn` reads of an Atoms object; `id` stands for the object itself. -/
structure Image where
  id : Nat
  positions : List Vec
  energy : Rat
  forces : List Vec

/-- `np.reshape(a, (rows, cols))`: rows of `cols` consecutive entries; ValueError when the sizes do not match. -/
def reshape {A : Type} (rows cols : Nat) (a : List A) : Except PyErr (List (List A)) :=
  if a.length = rows * cols then .ok ((List.range rows).map fun k => (a.drop (k * cols)).take cols)
  else .error .value

/-- The dictionary returned by `ase_to_catlearn`, L47-54 (`constraints` is an attribute of the first image). -/
structure Trajectory where
  first : Image
  last : Image
  images : List Image
  train : List (List Rat)
  targets : List (List Rat)
  gradients : List (List Rat)
  numAtoms : Nat

/-- `ase_to_catlearn`, L8-55. -/
def aseToCatlearn (l : List Image) : Except PyErr Trajectory :=
  match l[0]? with
  | none => .error .index                                                                -- L28
  | some first =>
    let n := first.positions.length
    let train := l.flatMap fun i => flat i.positions
    let targets := l.map (·.energy)
    let gradients := l.flatMap fun i => (flat i.forces).map (- ·)
    match reshape l.length (n * 3) train, reshape l.length 1 targets, reshape l.length (n * 3) gradients with
    | .ok t, .ok e, .ok g =>
      match l[1]? with
      | none => .error .index                                                            -- L48
      | some second => .ok ⟨first, second, l, t, e, g, n⟩
    | .error e, _, _ => .error e
    | _, .error e, _ => .error e
    | _, _, .error e => .error e

/-- `array_to_ase`, L58-79: `reshape` to `num_atoms` rows of three, then the columns zipped. -/
def arrayToAse (a : List Rat) (numAtoms : Nat) : Except PyErr (List Vec) :=
  match reshape numAtoms 3 a with
  | .error e => .error e
  | .ok rows => .ok (rows.map fun r => (r.getD 0 0, r.getD 1 0, r.getD 2 0))

/-- `array_to_atoms`, L82-97. -/
def arrayToAtoms (a : List Rat) : Except PyErr (List (List Rat)) := reshape (a.length / 3) 3 a

end CatLearn.Utilities
