import Mathlib.Analysis.SpecialFunctions.Exp

/-!
# Model of `catlearn/optimize/functions_calc.py`

Each calculator sets the results 'energy' and 'forces' of an Atoms object with `n + 1` atoms; only the first atom
matters.  Numbers are exact reals.
-/

namespace CatLearn.Pot

/-- The results of `calculate`. -/
structure Results (n : Nat) where
  energy : ℝ
  forces : Fin (n + 1) → Fin 3 → ℝ

/-- `forces[0][0] = -fx; forces[0][1] = -fy; forces[0][2] = -fz` on an array of zeros, multiplied by a factor, e.g.
L23, L69-71, L75-76. -/
def setForces (n : Nat) (c fx fy fz : ℝ) : Fin (n + 1) → Fin 3 → ℝ :=
  fun i a => c * (if i = 0 then (if a = 0 then -fx else if a = 1 then -fy else -fz) else 0)

/-- `multim` in `MultiModal.calculate`, L28-48: value and partial derivatives of one well. -/
noncomputable def multim (x y A B xmin ymin : ℝ) : ℝ × ℝ × ℝ :=
  let e1 := Real.exp (-(x - xmin) ^ 2 / B ^ 2)
  let e2 := Real.exp (-(y - ymin) ^ 2 / B ^ 2)
  let f := -A * e1 * e2
  let e1dx := -2 * (x - xmin) / B ^ 2 * e1
  let e2dx := 0
  let dx := -A * (e1dx * e2 + e1 * e2dx)
  let e1dy := 0
  let e2dy := -2 * (y - ymin) / B ^ 2 * e2
  let dy := -A * (e1dy * e2 + e1 * e2dy)
  (f, dx, dy)

/-- The wells, L50-54: A, B, xmin and ymin. -/
noncomputable def wells : List (ℝ × ℝ × ℝ × ℝ) :=
  [(14.3, 0.9, 0, 0), (13, 0.78, 0, 2), (14.5, 0.81, 0, -2), (13.5, 0.76, 2, 0), (12.5, 0.8, 2, 2), (14, 0.79, 2, -2),
    (13.5, 0.76, -2, 0), (14.2, 0.74, -2, 2), (13, 0.79, -2, -2)]

/-- `MultiModal.calculate`, L15-76. -/
noncomputable def multiModal {n : Nat} (pos : Fin (n + 1) → Fin 3 → ℝ) : Results n :=
  let r := wells.map fun w => multim (pos 0 0) (pos 0 1) w.1 w.2.1 w.2.2.1 w.2.2.2
  ⟨(r.map fun t => t.1).sum, setForces n 1 (r.map fun t => t.2.1).sum (r.map fun t => t.2.2).sum 0⟩

/-- One term of the Müller-Brown potential for parameters `p`, L102-125. -/
noncomputable def mbTerm (p : Fin 6 → ℝ) (x y : ℝ) : ℝ :=
  p 0 * Real.exp (p 1 * (x - p 4) ^ 2 + p 2 * (x - p 4) * (y - p 5) + p 3 * (y - p 5) ^ 2)

/-- `MullerBrown.calculate`, L92-174, with the parameters 'p1' to 'p4', which a user can change. -/
noncomputable def mullerBrown {n : Nat} (p1 p2 p3 p4 : Fin 6 → ℝ) (pos : Fin (n + 1) → Fin 3 → ℝ) : Results n :=
  let x := pos 0 0
  let y := pos 0 1
  let z1 := mbTerm p1 x y
  let z2 := mbTerm p2 x y
  let z3 := mbTerm p3 x y
  let z4 := mbTerm p4 x y
  let dx1 := z1 * (2 * p1 1 * (x - p1 4) + p1 2 * (y - p1 5))
  let dx2 := z2 * (2 * p2 1 * (x - p2 4) + p2 2 * (y - p2 5))
  let dx3 := z3 * (2 * p3 1 * (x - p3 4) + p3 2 * (y - p3 5))
  let dx4 := z4 * (2 * p4 1 * (x - p4 4) + p4 2 * (y - p4 5))
  let dy1 := z1 * (p1 2 * (x - p1 4) + 2 * p1 3 * (y - p1 5))
  let dy2 := z2 * (p2 2 * (x - p2 4) + 2 * p2 3 * (y - p2 5))
  let dy3 := z3 * (p3 2 * (x - p3 4) + 2 * p3 3 * (y - p3 5))
  let dy4 := z4 * (p4 2 * (x - p4 4) + 2 * p4 3 * (y - p4 5))
  ⟨(z1 + z2 + z3 + z4) / 100, setForces n (1 / 100) (dx1 + dx2 + dx3 + dx4) (dy1 + dy2 + dy3 + dy4) 0⟩

/-- `GoldsteinPrice.calculate`, L187-229. -/
noncomputable def goldsteinPrice {n : Nat} (pos : Fin (n + 1) → Fin 3 → ℝ) : Results n :=
  let x := pos 0 0
  let y := pos 0 1
  let energy := (1 + (1 + x + y) ^ 2 * (19 - 14 * x + 3 * x ^ 2 - 14 * y + 6 * x * y + 3 * y ^ 2)) *
    (30 + (2 * x - 3 * y) ^ 2 * (18 - 32 * x + 12 * x ^ 2 + 48 * y - 36 * x * y + 27 * y ^ 2))
  let fx := (1 + (1 + x + y) ^ 2 * (19 - 14 * x + 3 * x ^ 2 - 14 * y + 6 * x * y + 3 * y ^ 2)) *
      ((-32 + 24 * x - 36 * y) * (2 * x - 3 * y) ^ 2 +
        4 * (2 * x - 3 * y) * (18 - 32 * x + 12 * x ^ 2 + 48 * y - 36 * x * y + 27 * y ^ 2)) +
    ((1 + x + y) ^ 2 * (-14 + 6 * x + 6 * y) +
        2 * (1 + x + y) * (19 - 14 * x + 3 * x ^ 2 - 14 * y + 6 * x * y + 3 * y ^ 2)) *
      (30 + (2 * x - 3 * y) ^ 2 * (18 - 32 * x + 12 * x ^ 2 + 48 * y - 36 * x * y + 27 * y ^ 2))
  let fy := (1 + (1 + x + y) ^ 2 * (19 - 14 * x + 3 * x ^ 2 - 14 * y + 6 * x * y + 3 * y ^ 2)) *
      ((2 * x - 3 * y) ^ 2 * (48 - 36 * x + 54 * y) -
        6 * (2 * x - 3 * y) * (18 - 32 * x + 12 * x ^ 2 + 48 * y - 36 * x * y + 27 * y ^ 2)) +
    ((1 + x + y) ^ 2 * (-14 + 6 * x + 6 * y) +
        2 * (1 + x + y) * (19 - 14 * x + 3 * x ^ 2 - 14 * y + 6 * x * y + 3 * y ^ 2)) *
      (30 + (2 * x - 3 * y) ^ 2 * (18 - 32 * x + 12 * x ^ 2 + 48 * y - 36 * x * y + 27 * y ^ 2))
  ⟨0.01 * energy, setForces n 0.01 fx fy 0⟩

/-- `Himmelblau.calculate`, L242-264. -/
noncomputable def himmelblau {n : Nat} (pos : Fin (n + 1) → Fin 3 → ℝ) : Results n :=
  let x := pos 0 0
  let y := pos 0 1
  let energy := (x ^ 2 + y - 11) ^ 2 + (x + y ^ 2 - 7) ^ 2
  let fx := 4 * x * (x ^ 2 + y - 11) + 2 * x + 2 * y ^ 2 - 14
  let fy := 2 * x ^ 2 + 4 * y * (x + y ^ 2 - 7) + 2 * y - 22
  ⟨0.05 * energy, setForces n 0.05 fx fy 0⟩

/-- `ModifiedHimmelblau.calculate`, L277-302. -/
noncomputable def modifiedHimmelblau {n : Nat} (pos : Fin (n + 1) → Fin 3 → ℝ) : Results n :=
  let x := pos 0 0
  let y := pos 0 1
  let energy := (x ^ 2 + y - 11) ^ 2 + (x + y ^ 2 - 7) ^ 2 + 0.5 * x + y
  let fx := 4 * x * (x ^ 2 + y - 11) + 2 * x + 2 * y ^ 2 - 14 + 0.5
  let fy := 2 * x ^ 2 + 4 * y * (x + y ^ 2 - 7) + 2 * y - 22 + 1.0
  ⟨0.05 * energy, setForces n 0.05 fx fy 0⟩

/-- `NoiseHimmelblau.calculate`, L314-342, with the two random numbers drawn for energy and forces. -/
noncomputable def noiseHimmelblau {n : Nat} (re rf : ℝ) (pos : Fin (n + 1) → Fin 3 → ℝ) : Results n :=
  let x := pos 0 0
  let y := pos 0 1
  let energy := (x ^ 2 + y - 11) ^ 2 + (x + y ^ 2 - 7) ^ 2 + 0.5 * x + y
  let fx := 4 * x * (x ^ 2 + y - 11) + 2 * x + 2 * y ^ 2 - 14 + 0.5
  let fy := 2 * x ^ 2 + 4 * y * (x + y ^ 2 - 7) + 2 * y - 22 + 1.0
  ⟨energy + energy * re, fun i a => setForces n 1 fx fy 0 i a + setForces n 1 fx fy 0 i a * rf⟩

/-- `Rosenbrock.calculate`, L355-379. -/
noncomputable def rosenbrock {n : Nat} (pos : Fin (n + 1) → Fin 3 → ℝ) : Results n :=
  let x := pos 0 0
  let y := pos 0 1
  let energy := 0.01 * ((1 - x) ^ 2 + 100 * (y - x ^ 2) ^ 2)
  let fx := 0.01 * (-2 * (1 - x) - 400 * x * (y - x ^ 2))
  let fy := 0.01 * (200 * (y - x ^ 2))
  ⟨0.01 * energy, setForces n 0.01 fx fy 0⟩

end CatLearn.Pot
