import Verif.Props.RidgeData

/-!
# The effective number of parameters of ridge regression (C311)
-/

set_option linter.unusedSectionVars false

namespace CatLearn.RidgeSearch

open CatLearn CatLearn.Ridge CatLearn.Linalg CatLearn.Props Matrix

variable {n d : Type} [Fintype n] [Fintype d] [DecidableEq n] [DecidableEq d]

private theorem params_eq (svd : Svd d) (X : Matrix n d ℝ) (Y : n → ℝ) (w p : ℝ) : (rr svd ⟨none, none⟩ X Y w p false).2.1 =
    ∑ i, (svd (Xᵀ * X)).1 i * ((svd (Xᵀ * X)).1 i + w)⁻¹ := by
  unfold rr decompose
  rfl

private theorem xtx (X : Matrix n d ℝ) : (Xᵀ * X).PosSemidef := by
  have := posSemidef_conjTranspose_mul_self X
  rwa [conjTranspose_eq_transpose_of_trivial] at this

/-- C311: the effective number of parameters does not depend on targets and prior, and more regularisation never makes it larger. -/
theorem C311_monotone (svd : Svd d) (hs : SvdOk svd) (X : Matrix n d ℝ) (Y Y' : n → ℝ) (v w p p' : ℝ) (hv : 0 < v) (hvw : v ≤ w) :
    (rr svd ⟨none, none⟩ X Y w p false).2.1 ≤ (rr svd ⟨none, none⟩ X Y' v p' false).2.1 := by
  rw [params_eq, params_eq]
  obtain ⟨V, h⟩ := hs (Xᵀ * X) (xtx X)
  refine Finset.sum_le_sum fun i _ => mul_le_mul_of_nonneg_left ?_ (h.nonneg i)
  have := h.nonneg i
  exact inv_anti₀ (by linarith) (by linarith)

/-- C311: it tends to zero as the regularisation grows. -/
theorem C311_limit (svd : Svd d) (X : Matrix n d ℝ) (Y : n → ℝ) (p : ℝ) :
    Filter.Tendsto (fun w => (rr svd ⟨none, none⟩ X Y w p false).2.1) Filter.atTop (nhds 0) := by
  simp only [params_eq]
  have : (0 : ℝ) = ∑ i : d, (svd (Xᵀ * X)).1 i * 0 := by simp
  rw [this]
  refine tendsto_finsetSum _ fun i _ => Filter.Tendsto.const_mul _ ?_
  exact tendsto_inv_atTop_zero.comp (Filter.tendsto_atTop_add_const_left _ _ Filter.tendsto_id)

/-- C311: it is at most the number of data points, and smaller than the number of features. -/
theorem C311_bounds (svd : Svd d) (hs : SvdOk svd) (X : Matrix n d ℝ) (Y : n → ℝ) (w p : ℝ) (hw : 0 < w) :
    (rr svd ⟨none, none⟩ X Y w p false).2.1 ≤ Fintype.card n ∧
      (Nonempty d → (rr svd ⟨none, none⟩ X Y w p false).2.1 < Fintype.card d) := by
  obtain ⟨V, h⟩ := hs (Xᵀ * X) (xtx X)
  constructor
  · rw [(C103_effective_parameters svd ⟨none, none⟩ X Y w p hw false (Or.inl rfl) V h).1]
    have hpd : (Xᵀ * X + w • (1 : Matrix d d ℝ)).PosDef := PosDef.posSemidef_add (xtx X) (PosDef.one.smul hw)
    have hu := hpd.det_pos.ne'.isUnit
    set A := Xᵀ * X + w • (1 : Matrix d d ℝ) with hA
    have hle : ∀ i, (X * A⁻¹ * Xᵀ) i i ≤ 1 := by
      intro i
      set z := A⁻¹ *ᵥ X i with hz
      have e1 : (X * A⁻¹ * Xᵀ) i i = X i ⬝ᵥ z := by
        rw [hz, dotProduct_mulVec, Matrix.mul_apply]
        rfl
      have e2 : A *ᵥ z = X i := by rw [hz, mulVec_mulVec, mul_nonsing_inv _ hu, one_mulVec]
      have e3 : z ⬝ᵥ A *ᵥ z = (X *ᵥ z) ⬝ᵥ (X *ᵥ z) + w * (z ⬝ᵥ z) := by
        rw [hA, add_mulVec, smul_mulVec, one_mulVec, ← mulVec_mulVec, dotProduct_add, dotProduct_smul, smul_eq_mul]
        congr 1
        rw [dotProduct_mulVec, vecMul_transpose]
      rw [e2, dotProduct_comm] at e3
      have e4 : (X i ⬝ᵥ z) ^ 2 ≤ (X *ᵥ z) ⬝ᵥ (X *ᵥ z) := by
        have : (X i ⬝ᵥ z) ^ 2 = (X *ᵥ z) i * (X *ᵥ z) i := sq _
        rw [this]
        exact Finset.single_le_sum (f := fun q => (X *ᵥ z) q * (X *ᵥ z) q) (fun q _ => mul_self_nonneg _) (Finset.mem_univ i)
      have e5 : 0 ≤ z ⬝ᵥ z := Finset.sum_nonneg fun _ _ => mul_self_nonneg _
      rw [e1]
      nlinarith [mul_nonneg hw.le e5]
    calc (X * A⁻¹ * Xᵀ).trace ≤ ∑ _i : n, (1 : ℝ) := Finset.sum_le_sum fun i _ => hle i
      _ = _ := by simp
  · intro hne
    rw [params_eq]
    calc _ < ∑ _i : d, (1 : ℝ) := Finset.sum_lt_sum_of_nonempty Finset.univ_nonempty fun i _ => by
            have := h.nonneg i
            rw [← div_eq_mul_inv, div_lt_one (by linarith)]
            linarith
      _ = _ := by simp

/-- C311: of data without variation, all features zero, there are no effective parameters. -/
theorem C311_zero (svd : Svd d) (hs : SvdOk svd) (Y : n → ℝ) (w p : ℝ) (hw : 0 < w) : (rr svd ⟨none, none⟩ (0 : Matrix n d ℝ) Y w p false).2.1 = 0 := by
  obtain ⟨V, h⟩ := hs ((0 : Matrix n d ℝ)ᵀ * 0) (xtx 0)
  rw [(C103_effective_parameters svd ⟨none, none⟩ 0 Y w p hw false (Or.inl rfl) V h).1]
  simp

/-- C311: a decomposition as numpy gives it exists. -/
example : ∃ svd : Svd (Fin 3), SvdOk svd ∧ (0 : ℝ) < 1 ∧ (1 : ℝ) ≤ 2 := by
  obtain ⟨s, h⟩ := svdOk_exists (d := Fin 3)
  exact ⟨s, h, one_pos, one_le_two⟩

end CatLearn.RidgeSearch
