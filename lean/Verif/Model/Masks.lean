import Mathlib.Data.Real.Basic
import Mathlib.Analysis.Real.Sqrt
import Verif.Model.Py

/-!
# Constraint masks, the surrogate calculator and forces

`catlearn/optimize/constraints.py`, `ASECalc` and `get_fmax` of `catlearn/optimize/mlneb.py`.

A geometry of `n` atoms is the flattened list of its `3 n` coordinates; coordinate `c` of atom `a` has
the flat index `3 a + c`.
-/

namespace CatLearn.Masks

open CatLearn

/-- An ASE constraint object, reduced to the attributes that `create_mask` reads from `__dict__`
(constraints.py L9-29): `FixCartesian` has `a` (atom) and `mask` (fixed components), `FixAtoms` has
`index`; every other constraint class has none of the three pairs, so all four `try` blocks fail.
Negative atom indices are not modelled. -/
inductive Constraint where
  | cart (a : Nat) (mask : Fin 3 → Bool)
  | atoms (index : List Nat)
  | other

/-- The boolean array `mask_constraints`: `true` for a coordinate that is kept. -/
abbrev MaskArr := Nat → Fin 3 → Bool

/-- `try: mask_constraints[c.a] = ~c.mask except Exception: pass` (L9-13, L20-24, L26-30): an atom index
out of bounds raises IndexError, which is swallowed. -/
def applyCart (n : Nat) (m : MaskArr) : Constraint → MaskArr
  | .cart a mask => if a < n then fun b c => if b = a then !mask c else m b c else m
  | _ => m

/-- `try: mask_constraints[c.index] = False except Exception: pass` (L15-18): numpy checks all indices
before it assigns any. -/
def applyAtoms (n : Nat) (m : MaskArr) : Constraint → MaskArr
  | .atoms index => if index.all (· < n) then fun b c => if b ∈ index then false else m b c else m
  | _ => m

/-- One pass of the loop body L8-30 for constraint `k` of the list `first … last`. -/
def maskStep (n : Nat) (first last : Constraint) (m : MaskArr) (k : Constraint) : MaskArr :=
  applyCart n (applyCart n (applyAtoms n (applyCart n m k) k) first) last

/-- The array after the loop, constraints.py L4-30. -/
def maskArr (n : Nat) (cs : List Constraint) : MaskArr :=
  match cs with
  | [] => fun _ _ => true
  | c :: t => (c :: t).foldl (maskStep n c ((c :: t).getLast (by simp))) fun _ _ => true

/-- `create_mask`, constraints.py L4-34: the flat indices of the coordinates that are kept, ascending
(`np.argwhere` of the flattened array; its trailing axis of length one is dropped). -/
def createMask (n : Nat) (cs : List Constraint) : List Nat :=
  (List.range (3 * n)).filter fun i => maskArr n cs (i / 3) ⟨i % 3, Nat.mod_lt _ (by decide)⟩

/-- Entries of one row at the given indices; out of bounds raises IndexError. -/
def pick {α : Type} (x : List α) (idx : List Nat) : Except PyErr (List α) :=
  idx.mapM fun i => match x[i]? with
    | some v => .ok v
    | none => .error .index

/-- `apply_mask`, constraints.py L36-41: the original list and the masked rows. -/
def applyMask {α : Type} (rows : List (List α)) (idx : List Nat) :
    Except PyErr (List (List α) × List (List α)) := do
  let m ← rows.mapM fun x => pick x idx
  return (rows, m)

/-- The loop L50-51 of `unmask_geometry`. -/
def writeBack {α : Type} : List α → List Nat → List α → Except PyErr (List α)
  | x, [], _ => .ok x
  | _, _ :: _, [] => .error .index
  | x, i :: is, v :: vs => if i < x.length then writeBack (x.set i v) is vs else .error .index

/-- `unmask_geometry`, constraints.py L44-52, for a one-dimensional `masked_geom` (L47-48 wraps it in a
list and the loop reads row 0; a two-dimensional one is read through its row 0). -/
def unmask {α : Type} (orgList : List (List α)) (masked : List α) (idx : List Nat) :
    Except PyErr (List α) :=
  match orgList with
  | [] => .error .index
  | x :: _ => writeBack x idx masked

/-- A trained surrogate: `gp.predict` as a function of one masked point. -/
structure Surrogate where
  energy : List ℝ → ℝ
  unc : List ℝ → ℝ

/-- `ASECalc.calculate`, energy, mlneb.py L776-790. -/
noncomputable def surEnergy (s : Surrogate) (scaling : ℝ) (pos : List ℝ) (idx : List Nat) :
    Except PyErr ℝ := do
  let t ← pick pos idx
  return s.energy t + scaling

/-- `ASECalc.calculate`, the central difference for masked coordinate `i`, mlneb.py L797-811. -/
noncomputable def surGrad (s : Surrogate) (fs : ℝ) (t : List ℝ) (i : Nat) : ℝ :=
  (-s.energy (t.set i (t.getD i 0 - fs)) + s.energy (t.set i (t.getD i 0 + fs))) / (2 * fs)

/-- `ASECalc.calculate`, forces, mlneb.py L792-819: `gradients = np.zeros(...)`, the entries of the kept
coordinates are filled in, the forces are minus the gradients. -/
noncomputable def surForces (s : Surrogate) (fs : ℝ) (pos : List ℝ) (idx : List Nat) :
    Except PyErr (List ℝ) := do
  let t ← pick pos idx
  let g ← writeBack (List.replicate pos.length 0) idx ((List.range idx.length).map fun (i : ℕ) => surGrad s fs t i)
  return g.map fun x => -x

/-- `np.reshape(i, (-1, 3))`. -/
def rows3 : List ℝ → Option (List (ℝ × ℝ × ℝ))
  | [] => some []
  | x :: y :: z :: t => (rows3 t).map ((x, y, z) :: ·)
  | _ => none

/-- `get_fmax` of one gradient row followed by `np.max(np.abs(·))`, mlneb.py L822-835, mlmin.py L397-406
and L347-348: the largest atomic force.  A length that is no multiple of three and an empty array raise
ValueError. -/
noncomputable def getFmax (g : List ℝ) : Except PyErr ℝ :=
  match rows3 (g.map fun x => -x) with
  | none => .error .value
  | some [] => .error .value
  | some (r :: rs) =>
      .ok |(rs.map fun p => Real.sqrt (p.1 ^ 2 + p.2.1 ^ 2 + p.2.2 ^ 2)).foldl max
        (Real.sqrt (r.1 ^ 2 + r.2.1 ^ 2 + r.2.2 ^ 2))|

/-- One step of ASE's `MDMin` (external code): a new velocity `a v + b f` and a displacement `d v'`,
for some numbers `a`, `b`, `d` (`a`, `b` depend on the projection of the velocity on the forces, `d` on the
time step and the step limiter; all zero when the optimiser had already converged). -/
structure Coef where
  a : ℝ
  b : ℝ
  d : ℝ

/-- New position and velocity of an `MDMin` step. -/
def mdmin (c : Coef) (r v f : List ℝ) : List ℝ × List ℝ :=
  let v' := List.zipWith (fun v f => c.a * v + c.b * f) v f
  (List.zipWith (fun r v => r + c.d * v) r v', v')

end CatLearn.Masks
