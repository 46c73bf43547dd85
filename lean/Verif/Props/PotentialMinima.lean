import Verif.Props.Potentials
import Mathlib.Tactic.Linarith
import Mathlib.Tactic.NormNum
import Mathlib.Tactic.FieldSimp
import Mathlib.Tactic.LinearCombination

/-!
# Where the test potentials have their minima (C308)
-/

namespace CatLearn.Pot

/-- No force acts on any atom. -/
def AtRest {n : Nat} (r : Results n) : Prop := ∀ i a, r.forces i a = 0

private theorem rest_iff {n : Nat} (e c fx fy : ℝ) (hc : c ≠ 0) : AtRest (⟨e, setForces n c fx fy 0⟩ : Results n) ↔ fx = 0 ∧ fy = 0 := by
  constructor
  · intro h
    have h0 := h 0 0
    have h1 := h 0 1
    simp [setForces, hc] at h0 h1
    exact ⟨h0, h1⟩
  · rintro ⟨rfl, rfl⟩ i a
    simp [setForces]

/-- C308, Rosenbrock: the energy is nowhere negative, it vanishes at (1, 1) only, and the atoms are at rest there only. -/
theorem C308_rosenbrock {n : Nat} (pos : Fin (n + 1) → Fin 3 → ℝ) : 0 ≤ (rosenbrock pos).energy ∧
    ((rosenbrock pos).energy = 0 ↔ pos 0 0 = 1 ∧ pos 0 1 = 1) ∧ (AtRest (rosenbrock pos) ↔ pos 0 0 = 1 ∧ pos 0 1 = 1) := by
  unfold rosenbrock
  rw [rest_iff _ _ _ _ (by norm_num)]
  set x := pos 0 0
  set y := pos 0 1
  simp only
  refine ⟨by positivity, ⟨fun h => ?_, ?_⟩, ⟨fun h => ?_, ?_⟩⟩
  · have h1 : (1 - x) ^ 2 = 0 := by nlinarith [sq_nonneg (1 - x), sq_nonneg (y - x ^ 2)]
    have h2 : (y - x ^ 2) ^ 2 = 0 := by nlinarith [sq_nonneg (1 - x), sq_nonneg (y - x ^ 2)]
    have h3 : x = 1 := by have := pow_eq_zero_iff (two_ne_zero) |>.1 h1; linarith
    have h4 := pow_eq_zero_iff (two_ne_zero) |>.1 h2
    rw [h3] at h4
    exact ⟨h3, by linarith⟩
  · rintro ⟨h1, h2⟩
    rw [h1, h2]
    norm_num
  · obtain ⟨h1, h2⟩ := h
    have h3 : y - x ^ 2 = 0 := by linarith
    rw [h3] at h1
    have h4 : x = 1 := by linarith
    rw [h4] at h3
    exact ⟨h4, by linarith⟩
  · rintro ⟨h1, h2⟩
    rw [h1, h2]
    norm_num

/-- C308, Himmelblau: the energy is nowhere negative; where it vanishes — on both parabolas, for instance at (3, 2) — the atoms are at rest. -/
theorem C308_himmelblau {n : Nat} (pos : Fin (n + 1) → Fin 3 → ℝ) : 0 ≤ (himmelblau pos).energy ∧
    ((himmelblau pos).energy = 0 ↔ pos 0 0 ^ 2 + pos 0 1 = 11 ∧ pos 0 0 + pos 0 1 ^ 2 = 7) ∧ ((himmelblau pos).energy = 0 → AtRest (himmelblau pos)) ∧
    (pos 0 0 = 3 ∧ pos 0 1 = 2 → (himmelblau pos).energy = 0) := by
  unfold himmelblau
  rw [rest_iff _ _ _ _ (by norm_num)]
  set x := pos 0 0
  set y := pos 0 1
  simp only
  have key : 0.05 * ((x ^ 2 + y - 11) ^ 2 + (x + y ^ 2 - 7) ^ 2) = 0 ↔ x ^ 2 + y = 11 ∧ x + y ^ 2 = 7 := by
    constructor
    · intro h
      have h1 : (x ^ 2 + y - 11) ^ 2 = 0 := by nlinarith [sq_nonneg (x ^ 2 + y - 11), sq_nonneg (x + y ^ 2 - 7)]
      have h2 : (x + y ^ 2 - 7) ^ 2 = 0 := by nlinarith [sq_nonneg (x ^ 2 + y - 11), sq_nonneg (x + y ^ 2 - 7)]
      have h3 := pow_eq_zero_iff (two_ne_zero) |>.1 h1
      have h4 := pow_eq_zero_iff (two_ne_zero) |>.1 h2
      constructor <;> linarith
    · rintro ⟨h1, h2⟩
      rw [show x ^ 2 + y - 11 = 0 by linarith, show x + y ^ 2 - 7 = 0 by linarith]
      norm_num
  refine ⟨by positivity, key, fun h => ?_, ?_⟩
  · obtain ⟨h1, h2⟩ := key.1 h
    constructor
    · linear_combination 4 * x * h1 + 2 * h2
    · linear_combination 2 * h1 + 4 * y * h2
  · rintro ⟨h1, h2⟩
    rw [h1, h2]
    norm_num

private theorem gp_a (s : ℝ) : 1 ≤ 1 + (1 + s) ^ 2 * (19 - 14 * s + 3 * s ^ 2) ∧ (1 + (1 + s) ^ 2 * (19 - 14 * s + 3 * s ^ 2) = 1 ↔ s = -1) := by
  have h : 0 < 19 - 14 * s + 3 * s ^ 2 := by nlinarith [sq_nonneg (3 * s - 7)]
  refine ⟨by nlinarith [mul_nonneg (sq_nonneg (1 + s)) h.le], fun e => ?_, fun e => by rw [e]; norm_num⟩
  have h1 : (1 + s) ^ 2 * (19 - 14 * s + 3 * s ^ 2) = 0 := by linarith
  have h2 := (mul_eq_zero.1 h1).resolve_right h.ne'
  have h3 := pow_eq_zero_iff (two_ne_zero) |>.1 h2
  linarith

private theorem gp_b (d : ℝ) : 3 ≤ 30 + d ^ 2 * (18 - 16 * d + 3 * d ^ 2) ∧ (30 + d ^ 2 * (18 - 16 * d + 3 * d ^ 2) = 3 ↔ d = 3) := by
  have h : 0 < 3 * d ^ 2 + 2 * d + 3 := by nlinarith [sq_nonneg (3 * d + 1)]
  have e : 30 + d ^ 2 * (18 - 16 * d + 3 * d ^ 2) = 3 + (d - 3) ^ 2 * (3 * d ^ 2 + 2 * d + 3) := by ring
  rw [e]
  refine ⟨by nlinarith [mul_nonneg (sq_nonneg (d - 3)) h.le], fun e => ?_, fun e => by rw [e]; norm_num⟩
  have h1 : (d - 3) ^ 2 * (3 * d ^ 2 + 2 * d + 3) = 0 := by linarith
  have h2 := (mul_eq_zero.1 h1).resolve_right h.ne'
  have h3 := pow_eq_zero_iff (two_ne_zero) |>.1 h2
  linarith

/-- C308, Goldstein-Price: the lowest energy is 0.03, at (0, -1) only. -/
theorem C308_goldstein {n : Nat} (pos : Fin (n + 1) → Fin 3 → ℝ) : 0.03 ≤ (goldsteinPrice pos).energy ∧
    ((goldsteinPrice pos).energy = 0.03 ↔ pos 0 0 = 0 ∧ pos 0 1 = -1) := by
  unfold goldsteinPrice
  set x := pos 0 0
  set y := pos 0 1
  simp only
  have ea : 1 + (1 + x + y) ^ 2 * (19 - 14 * x + 3 * x ^ 2 - 14 * y + 6 * x * y + 3 * y ^ 2) =
      1 + (1 + (x + y)) ^ 2 * (19 - 14 * (x + y) + 3 * (x + y) ^ 2) := by ring
  have eb : 30 + (2 * x - 3 * y) ^ 2 * (18 - 32 * x + 12 * x ^ 2 + 48 * y - 36 * x * y + 27 * y ^ 2) =
      30 + (2 * x - 3 * y) ^ 2 * (18 - 16 * (2 * x - 3 * y) + 3 * (2 * x - 3 * y) ^ 2) := by ring
  rw [ea, eb]
  obtain ⟨a1, a2⟩ := gp_a (x + y)
  obtain ⟨b1, b2⟩ := gp_b (2 * x - 3 * y)
  set A := 1 + (1 + (x + y)) ^ 2 * (19 - 14 * (x + y) + 3 * (x + y) ^ 2)
  set B := 30 + (2 * x - 3 * y) ^ 2 * (18 - 16 * (2 * x - 3 * y) + 3 * (2 * x - 3 * y) ^ 2)
  have h : 3 ≤ A * B := by nlinarith
  refine ⟨by norm_num; linarith, fun e => ?_, fun e => ?_⟩
  · have e3 : A * B = 3 := by norm_num at e; linarith
    have hB : B = 3 := by nlinarith
    have hA : A = 1 := by rw [hB] at e3; linarith
    have h1 := a2.1 hA
    have h2 := b2.1 hB
    constructor <;> linarith
  · obtain ⟨e1, e2⟩ := e
    have hA := a2.2 (by rw [e1, e2]; norm_num)
    have hB := b2.2 (by rw [e1, e2]; norm_num)
    rw [hA, hB]
    norm_num

/-- C308, Goldstein-Price: the atoms are at rest at nine points, and at these only. -/
theorem C308_goldstein_rest {n : Nat} (pos : Fin (n + 1) → Fin 3 → ℝ) : AtRest (goldsteinPrice pos) ↔
    (pos 0 0 + pos 0 1 = -1 ∨ pos 0 0 + pos 0 1 = 1 ∨ pos 0 0 + pos 0 1 = 2) ∧
    (2 * pos 0 0 - 3 * pos 0 1 = 0 ∨ 2 * pos 0 0 - 3 * pos 0 1 = 1 ∨ 2 * pos 0 0 - 3 * pos 0 1 = 3) := by
  unfold goldsteinPrice
  rw [rest_iff _ _ _ _ (by norm_num)]
  set x := pos 0 0
  set y := pos 0 1
  set s := x + y with hs
  set d := 2 * x - 3 * y with hd
  obtain ⟨a1, -⟩ := gp_a s
  obtain ⟨b1, -⟩ := gp_b d
  have hx : x = (3 * s + d) / 5 := by rw [hs, hd]; ring
  have hy : y = (2 * s - d) / 5 := by rw [hs, hd]; ring
  set A := 1 + (1 + s) ^ 2 * (19 - 14 * s + 3 * s ^ 2) with hA
  set B := 30 + d ^ 2 * (18 - 16 * d + 3 * d ^ 2) with hB
  have efx : (1 + (1 + x + y) ^ 2 * (19 - 14 * x + 3 * x ^ 2 - 14 * y + 6 * x * y + 3 * y ^ 2)) *
      ((-32 + 24 * x - 36 * y) * d ^ 2 + 4 * d * (18 - 32 * x + 12 * x ^ 2 + 48 * y - 36 * x * y + 27 * y ^ 2)) +
      ((1 + x + y) ^ 2 * (-14 + 6 * x + 6 * y) + 2 * (1 + x + y) * (19 - 14 * x + 3 * x ^ 2 - 14 * y + 6 * x * y + 3 * y ^ 2)) *
      (30 + d ^ 2 * (18 - 32 * x + 12 * x ^ 2 + 48 * y - 36 * x * y + 27 * y ^ 2)) =
      2 * (A * (12 * d * (d - 1) * (d - 3))) + B * (12 * (s + 1) * (s - 1) * (s - 2)) := by
    rw [hA, hB, hs, hd]; ring
  have efy : (1 + (1 + x + y) ^ 2 * (19 - 14 * x + 3 * x ^ 2 - 14 * y + 6 * x * y + 3 * y ^ 2)) *
      (d ^ 2 * (48 - 36 * x + 54 * y) - 6 * d * (18 - 32 * x + 12 * x ^ 2 + 48 * y - 36 * x * y + 27 * y ^ 2)) +
      ((1 + x + y) ^ 2 * (-14 + 6 * x + 6 * y) + 2 * (1 + x + y) * (19 - 14 * x + 3 * x ^ 2 - 14 * y + 6 * x * y + 3 * y ^ 2)) *
      (30 + d ^ 2 * (18 - 32 * x + 12 * x ^ 2 + 48 * y - 36 * x * y + 27 * y ^ 2)) =
      -3 * (A * (12 * d * (d - 1) * (d - 3))) + B * (12 * (s + 1) * (s - 1) * (s - 2)) := by
    rw [hA, hB, hs, hd]; ring
  rw [efx, efy]
  have hA0 : A ≠ 0 := by linarith
  have hB0 : B ≠ 0 := by linarith
  constructor
  · rintro ⟨h1, h2⟩
    have h3 : A * (12 * d * (d - 1) * (d - 3)) = 0 := by linarith
    have h4 : B * (12 * (s + 1) * (s - 1) * (s - 2)) = 0 := by linarith
    have h5 := (mul_eq_zero.1 h3).resolve_left hA0
    have h6 := (mul_eq_zero.1 h4).resolve_left hB0
    simp only [mul_eq_zero] at h5 h6
    constructor
    · rcases h6 with ((h | h) | h) | h
      · norm_num at h
      · left; linarith
      · right; left; linarith
      · right; right; linarith
    · rcases h5 with ((h | h) | h) | h
      · norm_num at h
      · left; exact h
      · right; left; linarith
      · right; right; linarith
  · rintro ⟨h1, h2⟩
    have h5 : 12 * d * (d - 1) * (d - 3) = 0 := by rcases h2 with h | h | h <;> rw [h] <;> norm_num
    have h6 : 12 * (s + 1) * (s - 1) * (s - 2) = 0 := by rcases h1 with h | h | h <;> rw [h] <;> norm_num
    rw [h5, h6]
    norm_num

/-- C308, MultiModal: the energy is negative everywhere and above minus the sum of the depths of the wells. -/
theorem C308_multiModal {n : Nat} (pos : Fin (n + 1) → Fin 3 → ℝ) : -122.5 ≤ (multiModal pos).energy ∧ (multiModal pos).energy < 0 := by
  have h : ∀ A B xm ym : ℝ, 0 < A → -A ≤ (multim (pos 0 0) (pos 0 1) A B xm ym).1 ∧ (multim (pos 0 0) (pos 0 1) A B xm ym).1 < 0 := by
    intro A B xm ym hA
    have e : ∀ t : ℝ, Real.exp (-t ^ 2 / B ^ 2) ≤ 1 := fun t => Real.exp_le_one_iff.2 (by
      rw [neg_div, neg_nonpos]
      positivity)
    have p1 := Real.exp_pos (-(pos 0 0 - xm) ^ 2 / B ^ 2)
    have p2 := Real.exp_pos (-(pos 0 1 - ym) ^ 2 / B ^ 2)
    have hle := mul_le_one₀ (e (pos 0 0 - xm)) p2.le (e (pos 0 1 - ym))
    simp only [multim]
    constructor
    · nlinarith
    · have := mul_pos (mul_pos hA p1) p2
      linarith
  have h1 := h 14.3 0.9 0 0 (by norm_num)
  have h2 := h 13 0.78 0 2 (by norm_num)
  have h3 := h 14.5 0.81 0 (-2) (by norm_num)
  have h4 := h 13.5 0.76 2 0 (by norm_num)
  have h5 := h 12.5 0.8 2 2 (by norm_num)
  have h6 := h 14 0.79 2 (-2) (by norm_num)
  have h7 := h 13.5 0.76 (-2) 0 (by norm_num)
  have h8 := h 14.2 0.74 (-2) 2 (by norm_num)
  have h9 := h 13 0.79 (-2) (-2) (by norm_num)
  simp only [multiModal, wells, List.map_cons, List.map_nil, List.sum_cons, List.sum_nil]
  constructor
  · linarith [h1.1, h2.1, h3.1, h4.1, h5.1, h6.1, h7.1, h8.1, h9.1]
  · linarith [h1.2, h2.2, h3.2, h4.2, h5.2, h6.2, h7.2, h8.2, h9.2]

/-- C308, Müller-Brown with its default parameters (L83-86): the energy is above -4.7 everywhere. -/
theorem C308_mullerBrown {n : Nat} (pos : Fin (n + 1) → Fin 3 → ℝ) :
    -4.7 < (mullerBrown ![-200, -1, 0, -10, 1, 0] ![-100, -1, 0, -10, 0, 0.5] ![-170, -6.5, 11, -6.5, -0.5, 1.5] ![15, 0.7, 0.6, 0.7, -1, 1] pos).energy := by
  have e : ∀ t : ℝ, t ≤ 0 → Real.exp t ≤ 1 := fun t h => Real.exp_le_one_iff.2 h
  simp only [mullerBrown, mbTerm]
  set x := pos 0 0
  set y := pos 0 1
  simp only [Matrix.cons_val_zero, Matrix.cons_val_one, Matrix.cons_val]
  have h1 := e (-1 * (x - 1) ^ 2 + 0 * (x - 1) * (y - 0) + -10 * (y - 0) ^ 2) (by nlinarith [sq_nonneg (x - 1), sq_nonneg (y - 0)])
  have h2 := e (-1 * (x - 0) ^ 2 + 0 * (x - 0) * (y - 0.5) + -10 * (y - 0.5) ^ 2) (by nlinarith [sq_nonneg (x - 0), sq_nonneg (y - 0.5)])
  have h3 := e (-6.5 * (x - -0.5) ^ 2 + 11 * (x - -0.5) * (y - 1.5) + -6.5 * (y - 1.5) ^ 2)
    (by nlinarith [sq_nonneg ((x - -0.5) - (y - 1.5)), sq_nonneg (x - -0.5), sq_nonneg (y - 1.5)])
  have h4 := Real.exp_pos (0.7 * (x - -1) ^ 2 + 0.6 * (x - -1) * (y - 1) + 0.7 * (y - 1) ^ 2)
  rw [lt_div_iff₀ (by norm_num)]
  generalize Real.exp (-1 * (x - 1) ^ 2 + 0 * (x - 1) * (y - 0) + -10 * (y - 0) ^ 2) = E1 at h1 ⊢
  generalize Real.exp (-1 * (x - 0) ^ 2 + 0 * (x - 0) * (y - 0.5) + -10 * (y - 0.5) ^ 2) = E2 at h2 ⊢
  generalize Real.exp (-6.5 * (x - -0.5) ^ 2 + 11 * (x - -0.5) * (y - 1.5) + -6.5 * (y - 1.5) ^ 2) = E3 at h3 ⊢
  generalize Real.exp (0.7 * (x - -1) ^ 2 + 0.6 * (x - -1) * (y - 1) + 0.7 * (y - 1) ^ 2) = E4 at h4 ⊢
  norm_num
  linarith

/-- C308 on one atom: (0, -1) is the minimum of Goldstein-Price, and (1, 1) the minimum of Rosenbrock while the atom does not rest at (1, 2) on Goldstein-Price. -/
example : (goldsteinPrice (n := 0) (fun _ => ![0, -1, 5])).energy = 0.03 ∧ AtRest (goldsteinPrice (n := 0) (fun _ => ![0, -1, 5])) ∧
    AtRest (rosenbrock (n := 0) (fun _ => ![1, 1, 5])) ∧ ¬AtRest (goldsteinPrice (n := 0) (fun _ => ![1, 2, 5])) := by
  refine ⟨(C308_goldstein _).2.2 (by simp), (C308_goldstein_rest _).2 (by norm_num), (C308_rosenbrock _).2.2.2 (by simp), fun h => ?_⟩
  have := (C308_goldstein_rest _).1 h
  norm_num at this

end CatLearn.Pot
