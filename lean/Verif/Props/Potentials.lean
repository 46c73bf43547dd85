import Verif.Model.Potentials
import Mathlib.Analysis.Calculus.Deriv.Pow
import Mathlib.Analysis.Calculus.Deriv.Mul
import Mathlib.Analysis.Calculus.Deriv.Add
import Mathlib.Analysis.SpecialFunctions.ExpDeriv
import Mathlib.Tactic.Ring
import Mathlib.Tactic.Linarith
import Mathlib.Tactic.FinCases
import Mathlib.Tactic.NormNum

/-!
# Forces of the model potentials (C52)
-/

namespace CatLearn.Pot

/-- The positions with coordinate `a` of atom `i` replaced. -/
def moveTo {n : Nat} (pos : Fin (n + 1) → Fin 3 → ℝ) (i : Fin (n + 1)) (a : Fin 3) (s : ℝ) : Fin (n + 1) → Fin 3 → ℝ :=
  fun j b => if j = i ∧ b = a then s else pos j b

/-- The forces are minus the derivative of the energy with respect to the positions, for every atom and direction. -/
def Conservative (pot : ∀ {n : Nat}, (Fin (n + 1) → Fin 3 → ℝ) → Results n) : Prop :=
  ∀ (n : Nat) (pos : Fin (n + 1) → Fin 3 → ℝ) (i : Fin (n + 1)) (a : Fin 3),
    HasDerivAt (fun s => (pot (moveTo pos i a s)).energy) (-(pot pos).forces i a) (pos i a)

theorem conservative_of (pot : ∀ {n : Nat}, (Fin (n + 1) → Fin 3 → ℝ) → Results n) (e fx fy : ℝ → ℝ → ℝ) (c : ℝ)
    (h : ∀ (n : Nat) (pos : Fin (n + 1) → Fin 3 → ℝ), pot pos =
      ⟨e (pos 0 0) (pos 0 1), setForces n c (fx (pos 0 0) (pos 0 1)) (fy (pos 0 0) (pos 0 1)) 0⟩)
    (hx : ∀ x y, HasDerivAt (fun s => e s y) (c * fx x y) x) (hy : ∀ x y, HasDerivAt (fun s => e x s) (c * fy x y) y) :
    Conservative pot := by
  intro n pos i a
  simp only [h, setForces, moveTo]
  by_cases hi : i = 0
  · subst hi
    fin_cases a
    · simpa using hx (pos 0 0) (pos 0 1)
    · simpa using hy (pos 0 0) (pos 0 1)
    · simpa using hasDerivAt_const (pos 0 2) (e (pos 0 0) (pos 0 1))
  · have h0 : ¬ (0 = i) := fun h => hi h.symm
    simpa [hi, h0] using hasDerivAt_const (pos i a) (e (pos 0 0) (pos 0 1))

theorem hasDerivAt_list {α : Type} (l : List α) (f f' : α → ℝ → ℝ) (x : ℝ) (h : ∀ w ∈ l, HasDerivAt (f w) (f' w x) x) :
    HasDerivAt (fun s => (l.map fun w => f w s).sum) ((l.map fun w => f' w x).sum) x := by
  induction l with
  | nil => simpa using hasDerivAt_const x (0:ℝ)
  | cons w l ih =>
    simp only [List.map_cons, List.sum_cons]
    exact (h w (by simp)).fun_add (ih fun v hv => h v (by simp [hv]))

theorem multim_dx (x y A B xm ym : ℝ) :
    HasDerivAt (fun s => (multim s y A B xm ym).1) (multim x y A B xm ym).2.1 x := by
  simp only [multim]
  have h1 : HasDerivAt (fun s : ℝ => -(s - xm) ^ 2 / B ^ 2) (-2 * (x - xm) / B ^ 2) x := by
    have := ((((hasDerivAt_id x).sub_const xm).fun_pow 2).fun_neg).div_const (B ^ 2)
    refine this.congr_deriv ?_
    simp
  refine (((h1.exp).const_mul (-A)).mul_const _).congr_deriv ?_
  ring

theorem multim_dy (x y A B xm ym : ℝ) :
    HasDerivAt (fun s => (multim x s A B xm ym).1) (multim x y A B xm ym).2.2 y := by
  simp only [multim]
  have h1 : HasDerivAt (fun s : ℝ => -(s - ym) ^ 2 / B ^ 2) (-2 * (y - ym) / B ^ 2) y := by
    have := ((((hasDerivAt_id y).sub_const ym).fun_pow 2).fun_neg).div_const (B ^ 2)
    refine this.congr_deriv ?_
    simp
  refine ((h1.exp).const_mul (-A * Real.exp (-(x - xm) ^ 2 / B ^ 2))).congr_deriv ?_
  ring

/-- C52 for `MultiModal`. -/
theorem C52_multiModal : Conservative multiModal := by
  refine conservative_of multiModal
    (fun x y => (wells.map fun w => (multim x y w.1 w.2.1 w.2.2.1 w.2.2.2).1).sum)
    (fun x y => (wells.map fun w => (multim x y w.1 w.2.1 w.2.2.1 w.2.2.2).2.1).sum)
    (fun x y => (wells.map fun w => (multim x y w.1 w.2.1 w.2.2.1 w.2.2.2).2.2).sum) 1 ?_ ?_ ?_
  · intro n pos
    simp only [multiModal, List.map_map]
    rfl
  · intro x y
    rw [one_mul]
    exact hasDerivAt_list wells (fun w s => (multim s y w.1 w.2.1 w.2.2.1 w.2.2.2).1)
      (fun w s => (multim s y w.1 w.2.1 w.2.2.1 w.2.2.2).2.1) x (fun w _ => multim_dx _ _ _ _ _ _)
  · intro x y
    rw [one_mul]
    exact hasDerivAt_list wells (fun w s => (multim x s w.1 w.2.1 w.2.2.1 w.2.2.2).1)
      (fun w s => (multim x s w.1 w.2.1 w.2.2.1 w.2.2.2).2.2) y (fun w _ => multim_dy _ _ _ _ _ _)

theorem mb_dx (p : Fin 6 → ℝ) (x y : ℝ) :
    HasDerivAt (fun s => mbTerm p s y) (mbTerm p x y * (2 * p 1 * (x - p 4) + p 2 * (y - p 5))) x := by
  unfold mbTerm
  have h0 := (hasDerivAt_id x).sub_const (p 4)
  have h1 := (((h0.fun_pow 2).const_mul (p 1)).fun_add ((h0.const_mul (p 2)).mul_const (y - p 5))).add_const
    (p 3 * (y - p 5) ^ 2)
  refine ((h1.exp).const_mul (p 0)).congr_deriv ?_
  simp
  ring

theorem mb_dy (p : Fin 6 → ℝ) (x y : ℝ) :
    HasDerivAt (fun s => mbTerm p x s) (mbTerm p x y * (p 2 * (x - p 4) + 2 * p 3 * (y - p 5))) y := by
  unfold mbTerm
  have h0 := (hasDerivAt_id y).sub_const (p 5)
  have h1 := ((h0.const_mul (p 2 * (x - p 4))).const_add (p 1 * (x - p 4) ^ 2)).fun_add ((h0.fun_pow 2).const_mul (p 3))
  refine ((h1.exp).const_mul (p 0)).congr_deriv ?_
  simp
  ring

/-- C52 for `MullerBrown`, whatever its parameters. -/
theorem C52_mullerBrown (p1 p2 p3 p4 : Fin 6 → ℝ) : Conservative (mullerBrown p1 p2 p3 p4) := by
  refine conservative_of (mullerBrown p1 p2 p3 p4)
    (fun x y => (mbTerm p1 x y + mbTerm p2 x y + mbTerm p3 x y + mbTerm p4 x y) / 100)
    (fun x y => mbTerm p1 x y * (2 * p1 1 * (x - p1 4) + p1 2 * (y - p1 5)) +
      mbTerm p2 x y * (2 * p2 1 * (x - p2 4) + p2 2 * (y - p2 5)) +
      mbTerm p3 x y * (2 * p3 1 * (x - p3 4) + p3 2 * (y - p3 5)) +
      mbTerm p4 x y * (2 * p4 1 * (x - p4 4) + p4 2 * (y - p4 5)))
    (fun x y => mbTerm p1 x y * (p1 2 * (x - p1 4) + 2 * p1 3 * (y - p1 5)) +
      mbTerm p2 x y * (p2 2 * (x - p2 4) + 2 * p2 3 * (y - p2 5)) +
      mbTerm p3 x y * (p3 2 * (x - p3 4) + 2 * p3 3 * (y - p3 5)) +
      mbTerm p4 x y * (p4 2 * (x - p4 4) + 2 * p4 3 * (y - p4 5))) (1 / 100) ?_ ?_ ?_
  · intro n pos
    rfl
  · intro x y
    refine (((((mb_dx p1 x y).fun_add (mb_dx p2 x y)).fun_add (mb_dx p3 x y)).fun_add (mb_dx p4 x y)).div_const
      100).congr_deriv ?_
    ring
  · intro x y
    refine (((((mb_dy p1 x y).fun_add (mb_dy p2 x y)).fun_add (mb_dy p3 x y)).fun_add (mb_dy p4 x y)).div_const
      100).congr_deriv ?_
    ring

/-- C52 for `Himmelblau`. -/
theorem C52_himmelblau : Conservative himmelblau := by
  refine conservative_of himmelblau (fun x y => 0.05 * ((x ^ 2 + y - 11) ^ 2 + (x + y ^ 2 - 7) ^ 2))
    (fun x y => 4 * x * (x ^ 2 + y - 11) + 2 * x + 2 * y ^ 2 - 14)
    (fun x y => 2 * x ^ 2 + 4 * y * (x + y ^ 2 - 7) + 2 * y - 22) 0.05 (fun _ _ => rfl) ?_ ?_
  · intro x y
    have hi := hasDerivAt_id x
    refine ((((((hi.fun_pow 2).add_const y).sub_const 11).fun_pow 2).fun_add
      (((hi.add_const (y ^ 2)).sub_const 7).fun_pow 2)).const_mul 0.05).congr_deriv ?_
    simp
    left
    ring
  · intro x y
    have hi := hasDerivAt_id y
    refine ((((hi.const_add (x ^ 2)).sub_const 11).fun_pow 2).fun_add
      ((((hi.fun_pow 2).const_add x).sub_const 7).fun_pow 2)).const_mul 0.05 |>.congr_deriv ?_
    simp
    left
    ring

theorem modified_dx (x y : ℝ) : HasDerivAt (fun s => (s ^ 2 + y - 11) ^ 2 + (s + y ^ 2 - 7) ^ 2 + 0.5 * s + y)
    (4 * x * (x ^ 2 + y - 11) + 2 * x + 2 * y ^ 2 - 14 + 0.5) x := by
  have hi := hasDerivAt_id x
  refine ((((((hi.fun_pow 2).add_const y).sub_const 11).fun_pow 2).fun_add
    (((hi.add_const (y ^ 2)).sub_const 7).fun_pow 2)).fun_add (hi.const_mul 0.5)).add_const y |>.congr_deriv ?_
  simp
  ring

theorem modified_dy (x y : ℝ) : HasDerivAt (fun s => (x ^ 2 + s - 11) ^ 2 + (x + s ^ 2 - 7) ^ 2 + 0.5 * x + s)
    (2 * x ^ 2 + 4 * y * (x + y ^ 2 - 7) + 2 * y - 22 + 1.0) y := by
  have hi := hasDerivAt_id y
  refine ((((((hi.const_add (x ^ 2)).sub_const 11).fun_pow 2).fun_add
    ((((hi.fun_pow 2).const_add x).sub_const 7).fun_pow 2)).add_const (0.5 * x)).fun_add hi) |>.congr_deriv ?_
  norm_num
  ring

/-- C52 for `ModifiedHimmelblau`. -/
theorem C52_modifiedHimmelblau : Conservative modifiedHimmelblau :=
  conservative_of modifiedHimmelblau (fun x y => 0.05 * ((x ^ 2 + y - 11) ^ 2 + (x + y ^ 2 - 7) ^ 2 + 0.5 * x + y))
    (fun x y => 4 * x * (x ^ 2 + y - 11) + 2 * x + 2 * y ^ 2 - 14 + 0.5)
    (fun x y => 2 * x ^ 2 + 4 * y * (x + y ^ 2 - 7) + 2 * y - 22 + 1.0) 0.05 (fun _ _ => rfl)
    (fun x y => (modified_dx x y).const_mul 0.05) (fun x y => (modified_dy x y).const_mul 0.05)

/-- C52 for `Rosenbrock`. -/
theorem C52_rosenbrock : Conservative rosenbrock := by
  refine conservative_of rosenbrock (fun x y => 0.01 * (0.01 * ((1 - x) ^ 2 + 100 * (y - x ^ 2) ^ 2)))
    (fun x y => 0.01 * (-2 * (1 - x) - 400 * x * (y - x ^ 2))) (fun x y => 0.01 * (200 * (y - x ^ 2))) 0.01
    (fun _ _ => rfl) ?_ ?_
  · intro x y
    have hi := hasDerivAt_id x
    refine ((((hi.const_sub 1).fun_pow 2).fun_add (((hi.fun_pow 2).const_sub y).fun_pow 2 |>.const_mul 100)).const_mul
      0.01).const_mul 0.01 |>.congr_deriv ?_
    simp
    left
    ring
  · intro x y
    have hi := hasDerivAt_id y
    refine ((((hi.sub_const (x ^ 2)).fun_pow 2).const_mul 100).const_add ((1 - x) ^ 2) |>.const_mul 0.01).const_mul 0.01
      |>.congr_deriv ?_
    simp
    left
    ring

/-- C52 for `GoldsteinPrice`. -/
theorem C52_goldsteinPrice : Conservative goldsteinPrice := by
  refine conservative_of goldsteinPrice
    (fun x y => 0.01 * ((1 + (1 + x + y) ^ 2 * (19 - 14 * x + 3 * x ^ 2 - 14 * y + 6 * x * y + 3 * y ^ 2)) *
      (30 + (2 * x - 3 * y) ^ 2 * (18 - 32 * x + 12 * x ^ 2 + 48 * y - 36 * x * y + 27 * y ^ 2))))
    (fun x y => (1 + (1 + x + y) ^ 2 * (19 - 14 * x + 3 * x ^ 2 - 14 * y + 6 * x * y + 3 * y ^ 2)) *
      ((-32 + 24 * x - 36 * y) * (2 * x - 3 * y) ^ 2 +
        4 * (2 * x - 3 * y) * (18 - 32 * x + 12 * x ^ 2 + 48 * y - 36 * x * y + 27 * y ^ 2)) +
      ((1 + x + y) ^ 2 * (-14 + 6 * x + 6 * y) +
        2 * (1 + x + y) * (19 - 14 * x + 3 * x ^ 2 - 14 * y + 6 * x * y + 3 * y ^ 2)) *
      (30 + (2 * x - 3 * y) ^ 2 * (18 - 32 * x + 12 * x ^ 2 + 48 * y - 36 * x * y + 27 * y ^ 2)))
    (fun x y => (1 + (1 + x + y) ^ 2 * (19 - 14 * x + 3 * x ^ 2 - 14 * y + 6 * x * y + 3 * y ^ 2)) *
      ((2 * x - 3 * y) ^ 2 * (48 - 36 * x + 54 * y) -
        6 * (2 * x - 3 * y) * (18 - 32 * x + 12 * x ^ 2 + 48 * y - 36 * x * y + 27 * y ^ 2)) +
      ((1 + x + y) ^ 2 * (-14 + 6 * x + 6 * y) +
        2 * (1 + x + y) * (19 - 14 * x + 3 * x ^ 2 - 14 * y + 6 * x * y + 3 * y ^ 2)) *
      (30 + (2 * x - 3 * y) ^ 2 * (18 - 32 * x + 12 * x ^ 2 + 48 * y - 36 * x * y + 27 * y ^ 2))) 0.01
    (fun _ _ => rfl) ?_ ?_
  · intro x y
    refine HasDerivAt.const_mul 0.01 ?_
    have hi := hasDerivAt_id x
    have a1 : HasDerivAt (fun s => 1 + s + y) 1 x := (hi.const_add 1).add_const y
    have a2 : HasDerivAt (fun s => 19 - 14 * s + 3 * s ^ 2 - 14 * y + 6 * s * y + 3 * y ^ 2) (-14 + 6 * x + 6 * y) x := by
      refine (((((hi.const_mul 14).const_sub 19).fun_add ((hi.fun_pow 2).const_mul 3)).sub_const (14 * y)).fun_add
        ((hi.const_mul 6).mul_const y)).add_const (3 * y ^ 2) |>.congr_deriv ?_
      simp
      ring
    have a3 : HasDerivAt (fun s => 2 * s - 3 * y) 2 x := by
      refine (hi.const_mul 2).sub_const (3 * y) |>.congr_deriv ?_
      ring
    have a4 : HasDerivAt (fun s => 18 - 32 * s + 12 * s ^ 2 + 48 * y - 36 * s * y + 27 * y ^ 2) (-32 + 24 * x - 36 * y) x := by
      refine (((((hi.const_mul 32).const_sub 18).fun_add ((hi.fun_pow 2).const_mul 12)).add_const (48 * y)).fun_sub
        ((hi.const_mul 36).mul_const y)).add_const (27 * y ^ 2) |>.congr_deriv ?_
      simp
      ring
    refine ((((a1.fun_pow 2).fun_mul a2).const_add 1).fun_mul (((a3.fun_pow 2).fun_mul a4).const_add 30)).congr_deriv ?_
    simp
    ring
  · intro x y
    refine HasDerivAt.const_mul 0.01 ?_
    have hi := hasDerivAt_id y
    have a1 : HasDerivAt (fun s => 1 + x + s) 1 y := hi.const_add (1 + x)
    have a2 : HasDerivAt (fun s => 19 - 14 * x + 3 * x ^ 2 - 14 * s + 6 * x * s + 3 * s ^ 2) (-14 + 6 * x + 6 * y) y := by
      refine ((((hi.const_mul 14).const_sub (19 - 14 * x + 3 * x ^ 2)).fun_add (hi.const_mul (6 * x))).fun_add
        ((hi.fun_pow 2).const_mul 3)) |>.congr_deriv ?_
      simp
      ring
    have a3 : HasDerivAt (fun s => 2 * x - 3 * s) (-3) y := by
      refine (hi.const_mul 3).const_sub (2 * x) |>.congr_deriv ?_
      ring
    have a4 : HasDerivAt (fun s => 18 - 32 * x + 12 * x ^ 2 + 48 * s - 36 * x * s + 27 * s ^ 2) (48 - 36 * x + 54 * y) y := by
      refine ((((hi.const_mul 48).const_add (18 - 32 * x + 12 * x ^ 2)).fun_sub (hi.const_mul (36 * x))).fun_add
        ((hi.fun_pow 2).const_mul 27)) |>.congr_deriv ?_
      simp
      ring
    refine ((((a1.fun_pow 2).fun_mul a2).const_add 1).fun_mul (((a3.fun_pow 2).fun_mul a4).const_add 30)).congr_deriv ?_
    simp
    ring

/-- C52 holds for `NoiseHimmelblau` only if the two random numbers agree, as the noise of the forces is independent of that
of the energy. -/
theorem C52_noise (re rf : ℝ) : Conservative (noiseHimmelblau re rf) ↔ re = rf := by
  have hf : ∀ (n : Nat) (pos : Fin (n + 1) → Fin 3 → ℝ), (noiseHimmelblau re rf pos).forces =
      setForces n (1 + rf) (4 * pos 0 0 * (pos 0 0 ^ 2 + pos 0 1 - 11) + 2 * pos 0 0 + 2 * pos 0 1 ^ 2 - 14 + 0.5)
        (2 * pos 0 0 ^ 2 + 4 * pos 0 1 * (pos 0 0 + pos 0 1 ^ 2 - 7) + 2 * pos 0 1 - 22 + 1.0) 0 := by
    intro n pos
    funext i a
    simp only [noiseHimmelblau, setForces]
    ring
  constructor
  · intro h
    have h1 := h 0 (fun _ _ => 0) 0 0
    rw [hf] at h1
    have h2 : HasDerivAt (fun s => (noiseHimmelblau re rf (moveTo (n := 0) (fun _ _ => 0) 0 0 s)).energy)
        ((1 + re) * (-14 + 0.5)) 0 := by
      have := (modified_dx 0 0).const_mul (1 + re)
      refine (this.congr_deriv (by norm_num)).congr_of_eventuallyEq (Filter.Eventually.of_forall fun s => ?_)
      simp [noiseHimmelblau, moveTo]
      ring
    have := h1.unique h2
    simp [setForces] at this
    norm_num at this
    linarith
  · rintro rfl
    refine conservative_of (noiseHimmelblau re re)
      (fun x y => (1 + re) * ((x ^ 2 + y - 11) ^ 2 + (x + y ^ 2 - 7) ^ 2 + 0.5 * x + y))
      (fun x y => 4 * x * (x ^ 2 + y - 11) + 2 * x + 2 * y ^ 2 - 14 + 0.5)
      (fun x y => 2 * x ^ 2 + 4 * y * (x + y ^ 2 - 7) + 2 * y - 22 + 1.0) (1 + re) ?_
      (fun x y => (modified_dx x y).const_mul _) (fun x y => (modified_dy x y).const_mul _)
    intro n pos
    rw [← hf]
    have : (noiseHimmelblau re re pos).energy = (1 + re) * ((pos 0 0 ^ 2 + pos 0 1 - 11) ^ 2 +
        (pos 0 0 + pos 0 1 ^ 2 - 7) ^ 2 + 0.5 * pos 0 0 + pos 0 1) := by
      simp only [noiseHimmelblau]
      ring
    rw [← this]

example : (himmelblau (n := 1) ![![1, 2, 3], ![4, 5, 6]]).energy = 3.4 := by
  simp [himmelblau]
  norm_num

end CatLearn.Pot
