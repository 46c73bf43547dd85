import Verif.Props.RidgeData

/-!
# What errors of the targets do to ridge regression (C305)
-/

set_option linter.unusedSectionVars false

namespace CatLearn.RidgeSearch

open CatLearn CatLearn.Ridge CatLearn.Linalg CatLearn.Props Matrix

variable {n d : Type} [Fintype n] [Fintype d] [DecidableEq n] [DecidableEq d]

private theorem diff_normal {svd : Svd d} (hs : SvdOk svd) (X : Matrix n d ℝ) (Y Y' : n → ℝ) (w p : ℝ) (hw : 0 < w) :
    (Xᵀ * X + w • (1 : Matrix d d ℝ)) *ᵥ (fit svd X Y w p - fit svd X Y' w p) = Xᵀ *ᵥ (Y - Y') := by
  rw [mulVec_sub, fit_normal hs X Y w p hw, fit_normal hs X Y' w p hw, mulVec_sub, add_sub_add_right_eq_sub]

private theorem diff_energy {svd : Svd d} (hs : SvdOk svd) (X : Matrix n d ℝ) (Y Y' : n → ℝ) (w p : ℝ) (hw : 0 < w) :
    (X *ᵥ (fit svd X Y w p - fit svd X Y' w p)) ⬝ᵥ (X *ᵥ (fit svd X Y w p - fit svd X Y' w p)) +
      w * ((fit svd X Y w p - fit svd X Y' w p) ⬝ᵥ (fit svd X Y w p - fit svd X Y' w p)) =
      (X *ᵥ (fit svd X Y w p - fit svd X Y' w p)) ⬝ᵥ (Y - Y') := by
  have h := congrArg ((fit svd X Y w p - fit svd X Y' w p) ⬝ᵥ ·) (diff_normal hs X Y Y' w p hw)
  simp only [add_mulVec, smul_mulVec, one_mulVec, ← mulVec_mulVec, dotProduct_add, dotProduct_smul, smul_eq_mul] at h
  have e : ∀ (a : d → ℝ) (b : n → ℝ), a ⬝ᵥ Xᵀ *ᵥ b = (X *ᵥ a) ⬝ᵥ b := fun a b => by
    rw [dotProduct_mulVec, vecMul_transpose]
  rwa [e, e] at h

/-- C305: of two ridge regressions that differ in their targets, the sum of the squared differences of the predictions of the training data and twice the
regularisation times that of the coefficients is at most that of the targets. -/
theorem C305_errors (svd : Svd d) (hs : SvdOk svd) (X : Matrix n d ℝ) (Y Y' : n → ℝ) (w p : ℝ) (hw : 0 < w) :
    ∑ i, (predict (rr svd ⟨none, none⟩ X Y w p false).1 X i - predict (rr svd ⟨none, none⟩ X Y' w p false).1 X i) ^ 2 +
      2 * w * ∑ j, ((rr svd ⟨none, none⟩ X Y w p false).1 j - (rr svd ⟨none, none⟩ X Y' w p false).1 j) ^ 2 ≤ ∑ i, (Y i - Y' i) ^ 2 := by
  change ∑ i, ((X *ᵥ fit svd X Y w p) i - (X *ᵥ fit svd X Y' w p) i) ^ 2 + 2 * w * ∑ j, (fit svd X Y w p j - fit svd X Y' w p j) ^ 2 ≤ _
  have h := diff_energy hs X Y Y' w p hw
  set a := fit svd X Y w p - fit svd X Y' w p with ha
  have h1 : ∑ i, ((X *ᵥ fit svd X Y w p) i - (X *ᵥ fit svd X Y' w p) i) ^ 2 = (X *ᵥ a) ⬝ᵥ (X *ᵥ a) := by
    rw [ha, mulVec_sub, dotProduct]
    exact Finset.sum_congr rfl fun i _ => sq _
  have h2 : ∑ j, (fit svd X Y w p j - fit svd X Y' w p j) ^ 2 = a ⬝ᵥ a := Finset.sum_congr rfl fun i _ => sq _
  have h3 : ∑ i, (Y i - Y' i) ^ 2 = (Y - Y') ⬝ᵥ (Y - Y') := Finset.sum_congr rfl fun i _ => sq _
  rw [h1, h2, h3]
  have h4 : ∀ u v : n → ℝ, 2 * (u ⬝ᵥ v) ≤ u ⬝ᵥ u + v ⬝ᵥ v := fun u v => by
    simp only [dotProduct, Finset.mul_sum, ← Finset.sum_add_distrib]
    exact Finset.sum_le_sum fun i _ => by nlinarith [sq_nonneg (u i - v i)]
  have h5 := h4 (X *ᵥ a) (Y - Y')
  linarith

/-- C305: when the target of one data point is changed, the prediction at the point moves the same way, by at most as much as the target. -/
theorem C305_one (svd : Svd d) (hs : SvdOk svd) (X : Matrix n d ℝ) (Y : n → ℝ) (w p : ℝ) (hw : 0 < w) (i : n) (v : ℝ) :
    ∃ c : ℝ, 0 ≤ c ∧ c ≤ 1 ∧ predict (rr svd ⟨none, none⟩ X (Function.update Y i v) w p false).1 X i - predict (rr svd ⟨none, none⟩ X Y w p false).1 X i =
      c * (v - Y i) := by
  change ∃ c : ℝ, 0 ≤ c ∧ c ≤ 1 ∧ (X *ᵥ fit svd X (Function.update Y i v) w p) i - (X *ᵥ fit svd X Y w p) i = c * (v - Y i)
  by_cases hv : v = Y i
  · refine ⟨0, le_rfl, zero_le_one, ?_⟩
    rw [hv, Function.update_eq_self]
    ring
  have h := diff_energy hs X (Function.update Y i v) Y w p hw
  set a := fit svd X (Function.update Y i v) w p - fit svd X Y w p with ha
  have hd : Function.update Y i v - Y = Pi.single i (v - Y i) := by
    funext j
    by_cases hj : j = i
    · subst hj; simp
    · simp [hj]
  rw [hd, dotProduct_single] at h
  have hp : (X *ᵥ fit svd X (Function.update Y i v) w p) i - (X *ᵥ fit svd X Y w p) i = (X *ᵥ a) i := by rw [ha, mulVec_sub]; rfl
  rw [hp]
  set m := (X *ᵥ a) i with hm
  have hδ : v - Y i ≠ 0 := sub_ne_zero.2 hv
  have h1 : m * m ≤ (X *ᵥ a) ⬝ᵥ (X *ᵥ a) := by
    rw [dotProduct]
    exact Finset.single_le_sum (f := fun j => (X *ᵥ a) j * (X *ᵥ a) j) (fun j _ => mul_self_nonneg _) (Finset.mem_univ i)
  have h2 : 0 ≤ w * (a ⬝ᵥ a) := by
    refine mul_nonneg hw.le ?_
    simp only [dotProduct]; exact Finset.sum_nonneg fun i _ => mul_self_nonneg _
  have h3 : m * m ≤ m * (v - Y i) := by linarith
  have h4 : 0 ≤ m * (v - Y i) := (mul_self_nonneg m).trans h3
  have hsq : 0 < (v - Y i) ^ 2 := by positivity
  refine ⟨m / (v - Y i), ?_, ?_, by field_simp⟩
  · rw [show m / (v - Y i) = m * (v - Y i) / (v - Y i) ^ 2 by field_simp]
    exact div_nonneg h4 hsq.le
  · rw [show m / (v - Y i) = m * (v - Y i) / (v - Y i) ^ 2 by field_simp, div_le_one hsq]
    nlinarith [sq_nonneg (m - (v - Y i))]

example : ∃ svd : Svd (Fin 2), SvdOk svd ∧ (0 : ℝ) < 1 := by
  obtain ⟨s, h⟩ := svdOk_exists (d := Fin 2)
  exact ⟨s, h, one_pos⟩

end CatLearn.RidgeSearch
