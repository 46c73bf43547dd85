import Verif.Props.RidgeErrors

/-!
# The errors of leaving one out and the errors of the training data (C310)
-/

set_option linter.unusedSectionVars false

namespace CatLearn.RidgeSearch

open CatLearn CatLearn.Ridge CatLearn.Linalg CatLearn.Props Matrix

variable {n d : Type} [Fintype n] [Fintype d] [DecidableEq n] [DecidableEq d]

/-- The fit without row `i` is the fit of all rows when the target of row `i` is what that fit predicts. -/
private theorem fit_dropped {svd : Svd d} (hs : SvdOk svd) (X : Matrix n d ℝ) (Y : n → ℝ) (w p : ℝ) (hw : 0 < w) (i : n) :
    fit svd X (Function.update Y i ((X *ᵥ fit svd (dropRow X i) (fun j => Y j.1) w p) i)) w p = fit svd (dropRow X i) (fun j => Y j.1) w p := by
  refine fit_of hs _ _ w p hw _ fun j => ?_
  have h := fit_eq hs (dropRow X i) (fun j => Y j.1) w p hw j
  set b := fit svd (dropRow X i) (fun j => Y j.1) w p
  rw [← h]
  congr 1
  rw [← Finset.add_sum_erase _ _ (Finset.mem_univ i), Function.update_self, sub_self, mul_zero, zero_add]
  rw [Finset.sum_subtype (p := fun q => q ≠ i) (Finset.univ.erase i) (fun q => by simp) fun q => X q j * ((X *ᵥ b) q - Function.update Y i ((X *ᵥ b) i) q)]
  refine Finset.sum_congr rfl fun q _ => ?_
  rw [Function.update_of_ne q.2]
  rfl

/-- C310: the prediction of a training point lies between its target and what the model predicts that is fitted without the point. -/
theorem C310_between (svd : Svd d) (hs : SvdOk svd) (X : Matrix n d ℝ) (Y : n → ℝ) (w p : ℝ) (hw : 0 < w) (i : n) :
    ∃ c : ℝ, 0 ≤ c ∧ c ≤ 1 ∧ predict (rr svd ⟨none, none⟩ X Y w p false).1 X i =
      (1 - c) * predict (rr svd ⟨none, none⟩ (dropRow X i) (fun j => Y j.1) w p false).1 X i + c * Y i := by
  have hd := fit_dropped hs X Y w p hw i
  set b := fit svd (dropRow X i) (fun j => Y j.1) w p with hb
  obtain ⟨c, h0, h1, h2⟩ := C305_one svd hs X (Function.update Y i ((X *ᵥ b) i)) w p hw i (Y i)
  rw [Function.update_idem, Function.update_eq_self, Function.update_self] at h2
  change (X *ᵥ fit svd X Y w p) i - (X *ᵥ fit svd X (Function.update Y i ((X *ᵥ b) i)) w p) i = _ at h2
  rw [hd] at h2
  refine ⟨c, h0, h1, ?_⟩
  change (X *ᵥ fit svd X Y w p) i = (1 - c) * (X *ᵥ b) i + c * Y i
  linarith

/-- C310: so the error of a point that was left out is at least its training error. -/
theorem C310_point (svd : Svd d) (hs : SvdOk svd) (X : Matrix n d ℝ) (Y : n → ℝ) (w p : ℝ) (hw : 0 < w) (i : n) :
    |Y i - predict (rr svd ⟨none, none⟩ X Y w p false).1 X i| ≤
      |Y i - predict (rr svd ⟨none, none⟩ (dropRow X i) (fun j => Y j.1) w p false).1 X i| := by
  obtain ⟨c, h0, h1, h⟩ := C310_between svd hs X Y w p hw i
  rw [h, show Y i - ((1 - c) * predict (rr svd ⟨none, none⟩ (dropRow X i) (fun j => Y j.1) w p false).1 X i + c * Y i) =
    (1 - c) * (Y i - predict (rr svd ⟨none, none⟩ (dropRow X i) (fun j => Y j.1) w p false).1 X i) by ring, abs_mul, abs_of_nonneg (by linarith)]
  exact mul_le_of_le_one_left (abs_nonneg _) (by linarith)

/-- C310: the estimate of leaving one out that is computed from the singular values is at least the root mean squared training error. -/
theorem C310_loocv {k : Type} [Fintype k] [DecidableEq k] (svd : Svd d) (hs : SvdOk svd) (X : Matrix n d ℝ) (Y : n → ℝ) (w p : ℝ) (hw : 0 < w)
    (U : Matrix n k ℝ) (W : k → ℝ) (Vh : Matrix k d ℝ) (h : IsThinSVD X U W Vh) :
    Real.sqrt ((Fintype.card n : ℝ)⁻¹ * ∑ i, (Y i - predict (rr svd ⟨none, none⟩ X Y w p false).1 X i) ^ 2) ≤ loocv X Y p w U W := by
  rw [C39_loocv svd hs X Y w p hw U W Vh h]
  refine Real.sqrt_le_sqrt (mul_le_mul_of_nonneg_left (Finset.sum_le_sum fun i _ => ?_) (by positivity))
  exact sq_le_sq.2 (C310_point svd hs X Y w p hw i)

/-- C310: all points are fitted exactly if all are predicted exactly when they are left out, and then all the models agree. -/
theorem C310_zero {k : Type} [Fintype k] [DecidableEq k] [Nonempty n] (svd : Svd d) (hs : SvdOk svd) (X : Matrix n d ℝ) (Y : n → ℝ) (w p : ℝ) (hw : 0 < w)
    (U : Matrix n k ℝ) (W : k → ℝ) (Vh : Matrix k d ℝ) (h : IsThinSVD X U W Vh) (h0 : loocv X Y p w U W = 0) (i : n) :
    predict (rr svd ⟨none, none⟩ X Y w p false).1 X i = Y i ∧
      (rr svd ⟨none, none⟩ (dropRow X i) (fun j => Y j.1) w p false).1 = (rr svd ⟨none, none⟩ X Y w p false).1 := by
  rw [C39_loocv svd hs X Y w p hw U W Vh h, Real.sqrt_eq_zero (by positivity)] at h0
  have hn : (0 : ℝ) < Fintype.card n := by exact_mod_cast Fintype.card_pos
  have h1 := (mul_eq_zero.1 h0).resolve_left (inv_ne_zero hn.ne')
  have h2 := (Finset.sum_eq_zero_iff_of_nonneg fun i _ => sq_nonneg _).1 h1 i (Finset.mem_univ i)
  have h3 := pow_eq_zero_iff (two_ne_zero) |>.1 h2
  have h4 := C310_point svd hs X Y w p hw i
  rw [h3, abs_zero] at h4
  refine ⟨by linarith [abs_nonpos_iff.1 h4], ?_⟩
  have h5 := fit_dropped hs X Y w p hw i
  have h6 : (X *ᵥ fit svd (dropRow X i) (fun j => Y j.1) w p) i = Y i := by
    have : predict (rr svd ⟨none, none⟩ (dropRow X i) (fun j => Y j.1) w p false).1 X i = (X *ᵥ fit svd (dropRow X i) (fun j => Y j.1) w p) i := rfl
    rw [← this]
    linarith
  rw [h6, Function.update_eq_self] at h5
  exact h5.symm

/-- C310 for two points and one feature: a thin singular value decomposition and one for the fits exist. -/
example : (∃ svd : Svd (Fin 1), SvdOk svd) ∧
    IsThinSVD (!![3; 4] : Matrix (Fin 2) (Fin 1) ℝ) (!![3 / 5; 4 / 5] : Matrix (Fin 2) (Fin 1) ℝ) (fun _ => 5) (1 : Matrix (Fin 1) (Fin 1) ℝ) := by
  refine ⟨svdOk_exists (d := Fin 1), ⟨?_, by simp, fun _ => by norm_num, ?_⟩⟩
  · ext i j
    fin_cases i; fin_cases j
    simp [Matrix.mul_apply, Fin.sum_univ_succ]
    norm_num
  · ext i j
    fin_cases i <;> fin_cases j <;> simp [Matrix.mul_apply, Matrix.diagonal, Fin.sum_univ_succ, Matrix.vecHead]

end CatLearn.RidgeSearch
