import Verif.Model.Ridge
import Verif.Lemmas.Linalg
import Verif.Lemmas.Py

/-!
# Properties of ridge regression (C38–C40, C103, C104)
-/

set_option linter.unusedSectionVars false

namespace CatLearn.Props

open CatLearn CatLearn.Ridge CatLearn.Linalg Matrix

variable {n d k : Type} [Fintype n] [Fintype d] [Fintype k] [DecidableEq n] [DecidableEq d] [DecidableEq k]

/-! ### C38: the solution -/

omit [DecidableEq n] in
theorem solve_of (X Z : Matrix n d ℝ) (Y : n → ℝ) (w p : ℝ) (hw : 0 < w) (V : Matrix d d ℝ) (W : d → ℝ)
    (Vh : Matrix d d ℝ) (h : IsSVD (Xᵀ * X) V W Vh) :
    (Xᵀ * X + w • (1 : Matrix d d ℝ)) *ᵥ solve W Vh Z Y w p = Zᵀ *ᵥ Y + fun _ => w * p := by
  have hA := svd_psd (xtx_psd X) h
  have hr' : Vhᵀ * Vh = 1 := mul_eq_one_comm.mp h.right
  have e : Xᵀ * X + w • (1 : Matrix d d ℝ) = Vhᵀ * diagonal (fun i => W i + w) * Vh := by
    have h1 : diagonal (fun i => W i + w) = diagonal W + w • (1 : Matrix d d ℝ) := by
      ext i j
      by_cases hij : i = j
      · subst hij; simp
      · simp [hij]
    rw [h1, Matrix.mul_add, Matrix.add_mul, hA, Matrix.mul_smul, Matrix.smul_mul, Matrix.mul_one, hr']
  unfold solve
  rw [mulVec_mulVec]
  have : (Xᵀ * X + w • (1 : Matrix d d ℝ)) * (Vhᵀ * diagonal (fun i => (W i + w)⁻¹) * Vh) = 1 := by
    rw [e]
    calc _ = Vhᵀ * diagonal (fun i => W i + w) * (Vh * Vhᵀ) * (diagonal (fun i => (W i + w)⁻¹) * Vh) := by
          simp only [Matrix.mul_assoc]
      _ = Vhᵀ * (diagonal (fun i => W i + w) * diagonal (fun i => (W i + w)⁻¹)) * Vh := by
          rw [h.right, Matrix.mul_one]; simp only [Matrix.mul_assoc]
      _ = 1 := by
          rw [diagonal_mul_diagonal]
          have : (fun i => (W i + w) * (W i + w)⁻¹) = fun _ : d => (1:ℝ) := by
            funext i
            exact mul_inv_cancel₀ (by have := h.nonneg i; positivity)
          rw [this, diagonal_one, Matrix.mul_one, hr']
  rw [this, one_mulVec]

theorem solve_spec (X : Matrix n d ℝ) (Y : n → ℝ) (w p : ℝ) (hw : 0 < w) (V : Matrix d d ℝ) (W : d → ℝ)
    (Vh : Matrix d d ℝ) (h : IsSVD (Xᵀ * X) V W Vh) :
    (Xᵀ * X + w • (1 : Matrix d d ℝ)) *ᵥ solve W Vh X Y w p = Xᵀ *ᵥ Y + fun _ => w * p :=
  solve_of X X Y w p hw V W Vh h

/-- C38: on an object without stored decomposition, `RR` returns the solution of the regularised normal equations,
for every data set, every positive regularisation and every prior. -/
theorem C38_normal_equations (svd : Svd d) (s : Obj d) (X : Matrix n d ℝ) (Y : n → ℝ) (w p : ℝ) (hw : 0 < w)
    (fv : Bool) (hs : s.W2 = none ∨ s.Vh = none) (V : Matrix d d ℝ)
    (h : IsSVD (Xᵀ * X) V (svd (Xᵀ * X)).1 (svd (Xᵀ * X)).2) :
    (Xᵀ * X + w • (1 : Matrix d d ℝ)) *ᵥ (rr svd s X Y w p fv).1 = Xᵀ *ᵥ Y + fun _ => w * p := by
  have hd : decompose svd s X = svd (Xᵀ * X) := by
    unfold decompose
    split
    · rename_i h1 h2
      rcases hs with hs | hs
      · rw [hs] at h1; simp at h1
      · rw [hs] at h2; simp at h2
    · rfl
  unfold rr
  rw [hd]
  exact solve_spec X Y w p hw V _ _ h

omit [DecidableEq n] in
theorem min_of_normal (X : Matrix n d ℝ) (Y : n → ℝ) (w p : ℝ) (hw : 0 < w) (a b : d → ℝ)
    (ha : (Xᵀ * X + w • (1 : Matrix d d ℝ)) *ᵥ a = Xᵀ *ᵥ Y + fun _ => w * p) (hb : b ≠ a) :
    ridgeCost X Y w p a < ridgeCost X Y w p b := by
  set h := b - a with hh
  have hb' : b = a + h := by rw [hh]; abel
  have hgrad : Xᵀ *ᵥ (X *ᵥ a - Y) + w • (a - fun _ => p) = 0 := by
    rw [add_mulVec, smul_mulVec, one_mulVec] at ha
    rw [mulVec_sub, mulVec_mulVec, smul_sub]
    have : (w • fun _ : d => p) = fun _ : d => w * p := rfl
    rw [this]
    have h2 : (Xᵀ * X) *ᵥ a = Xᵀ *ᵥ Y + (fun _ => w * p) - w • a := by rw [← ha]; abel
    rw [h2]; abel
  have hcross : (X *ᵥ h) ⬝ᵥ (X *ᵥ a - Y) + w * (h ⬝ᵥ (a - fun _ => p)) = 0 := by
    have h3 : h ⬝ᵥ (Xᵀ *ᵥ (X *ᵥ a - Y) + w • (a - fun _ => p)) = 0 := by rw [hgrad, dotProduct_zero]
    rw [dotProduct_add, dotProduct_smul, smul_eq_mul, dotProduct_mulVec, vecMul_transpose] at h3
    exact h3
  have e : ridgeCost X Y w p b = ridgeCost X Y w p a +
      2 * ((X *ᵥ h) ⬝ᵥ (X *ᵥ a - Y) + w * (h ⬝ᵥ (a - fun _ => p))) +
      (∑ i, (X *ᵥ h) i ^ 2 + w * ∑ j, h j ^ 2) := by
    rw [hb']
    unfold ridgeCost dotProduct
    rw [mulVec_add]
    simp only [Pi.add_apply, Pi.sub_apply, mul_add, Finset.mul_sum]
    rw [show ∀ a b c d e f : ℝ, a + b + (c + d) + (e + f) = (a + c + e) + (b + d + f) from by intros; ring]
    rw [← Finset.sum_add_distrib, ← Finset.sum_add_distrib, ← Finset.sum_add_distrib, ← Finset.sum_add_distrib]
    congr 1
    · apply Finset.sum_congr rfl; intro i _; ring
    · apply Finset.sum_congr rfl; intro i _; ring
  rw [e, hcross]
  have hne : h ≠ 0 := by
    intro h0
    exact hb (by rw [hb', h0, add_zero])
  obtain ⟨j, hj⟩ := Function.ne_iff.mp hne
  have h1 : 0 ≤ ∑ i, (X *ᵥ h) i ^ 2 := Finset.sum_nonneg fun i _ => sq_nonneg _
  have h2 : 0 < ∑ j, h j ^ 2 :=
    Finset.sum_pos' (fun i _ => sq_nonneg _) ⟨j, Finset.mem_univ j, by have : h j ≠ 0 := hj; positivity⟩
  have := mul_pos hw h2
  linarith

/-- C38: the coefficients returned by `RR` are the unique minimiser of the ridge cost. -/
theorem C38_unique_minimiser (svd : Svd d) (s : Obj d) (X : Matrix n d ℝ) (Y : n → ℝ) (w p : ℝ) (hw : 0 < w)
    (fv : Bool) (hs : s.W2 = none ∨ s.Vh = none) (V : Matrix d d ℝ)
    (h : IsSVD (Xᵀ * X) V (svd (Xᵀ * X)).1 (svd (Xᵀ * X)).2) (b : d → ℝ) (hb : b ≠ (rr svd s X Y w p fv).1) :
    ridgeCost X Y w p (rr svd s X Y w p fv).1 < ridgeCost X Y w p b :=
  min_of_normal X Y w p hw _ b (C38_normal_equations svd s X Y w p hw fv hs V h) hb

/-- A function meeting the contract of `np.linalg.svd` exists, so the hypotheses can be met for all data. -/
example (X : Matrix n d ℝ) : ∃ (svd : Svd d) (V : Matrix d d ℝ),
    IsSVD (Xᵀ * X) V (svd (Xᵀ * X)).1 (svd (Xᵀ * X)).2 := by
  obtain ⟨V, W, Vh, h⟩ := exists_svd (xtx_psd X)
  exact ⟨fun _ => (W, Vh), V, h⟩

/-- C103: the effective number of parameters is the trace of the matrix that maps targets to fitted values; it is
between 0 and the number of features. -/
theorem C103_effective_parameters (svd : Svd d) (s : Obj d) (X : Matrix n d ℝ) (Y : n → ℝ) (w p : ℝ) (hw : 0 < w)
    (fv : Bool) (hs : s.W2 = none ∨ s.Vh = none) (V : Matrix d d ℝ)
    (h : IsSVD (Xᵀ * X) V (svd (Xᵀ * X)).1 (svd (Xᵀ * X)).2) :
    (rr svd s X Y w p fv).2.1 = (X * (Xᵀ * X + w • (1 : Matrix d d ℝ))⁻¹ * Xᵀ).trace ∧
    0 ≤ (rr svd s X Y w p fv).2.1 ∧ (rr svd s X Y w p fv).2.1 ≤ Fintype.card d := by
  have hd : decompose svd s X = svd (Xᵀ * X) := by
    unfold decompose
    split
    · rename_i h1 h2
      rcases hs with hs | hs
      · rw [hs] at h1; simp at h1
      · rw [hs] at h2; simp at h2
    · rfl
  have e : (rr svd s X Y w p fv).2.1 =
      ∑ i, (svd (Xᵀ * X)).1 i * ((svd (Xᵀ * X)).1 i + w)⁻¹ := by
    unfold rr; rw [hd]
  rw [e]
  clear e hd
  generalize (svd (Xᵀ * X)).1 = W at h
  generalize (svd (Xᵀ * X)).2 = Vh at h
  have hA := svd_psd (xtx_psd X) h
  have hr' : Vhᵀ * Vh = 1 := mul_eq_one_comm.mp h.right
  refine ⟨?_, ?_, ?_⟩
  · have e1 : Xᵀ * X + w • (1 : Matrix d d ℝ) = Vhᵀ * diagonal (fun i => W i + w) * Vh := by
      have h1 : diagonal (fun i => W i + w) = diagonal W + w • (1 : Matrix d d ℝ) := by
        ext i j
        by_cases hij : i = j
        · subst hij; simp
        · simp [hij]
      rw [h1, Matrix.mul_add, Matrix.add_mul, hA, Matrix.mul_smul, Matrix.smul_mul, Matrix.mul_one, hr']
    have e2 : (Xᵀ * X + w • (1 : Matrix d d ℝ))⁻¹ = Vhᵀ * diagonal (fun i => (W i + w)⁻¹) * Vh := by
      apply inv_eq_right_inv
      rw [e1]
      calc _ = Vhᵀ * diagonal (fun i => W i + w) * (Vh * Vhᵀ) * (diagonal (fun i => (W i + w)⁻¹) * Vh) := by
            simp only [Matrix.mul_assoc]
        _ = Vhᵀ * (diagonal (fun i => W i + w) * diagonal (fun i => (W i + w)⁻¹)) * Vh := by
            rw [h.right, Matrix.mul_one]; simp only [Matrix.mul_assoc]
        _ = 1 := by
            rw [diagonal_mul_diagonal]
            have : (fun i => (W i + w) * (W i + w)⁻¹) = fun _ : d => (1:ℝ) := by
              funext i
              exact mul_inv_cancel₀ (by have := h.nonneg i; positivity)
            rw [this, diagonal_one, Matrix.mul_one, hr']
    rw [trace_mul_comm, ← Matrix.mul_assoc, e2, ← hA]
    have e3 : Vhᵀ * diagonal W * Vh * (Vhᵀ * diagonal (fun i => (W i + w)⁻¹) * Vh) =
        Vhᵀ * (diagonal (fun i => W i * (W i + w)⁻¹) * Vh) := by
      calc _ = Vhᵀ * diagonal W * (Vh * Vhᵀ) * (diagonal (fun i => (W i + w)⁻¹) * Vh) := by
            simp only [Matrix.mul_assoc]
        _ = _ := by
            rw [h.right, Matrix.mul_one, ← diagonal_mul_diagonal]; simp only [Matrix.mul_assoc]
    rw [e3, trace_mul_comm, Matrix.mul_assoc, h.right, Matrix.mul_one, trace_diagonal]
  · exact Finset.sum_nonneg fun i _ => mul_nonneg (h.nonneg i) (inv_nonneg.mpr (by have := h.nonneg i; positivity))
  · calc ∑ i, W i * (W i + w)⁻¹ ≤ ∑ _i : d, (1:ℝ) := by
          apply Finset.sum_le_sum
          intro i _
          have := h.nonneg i
          rw [← div_eq_mul_inv, div_le_one (by positivity)]
          linarith
      _ = _ := by simp

/-! ### C39: leave-one-out cross validation -/

omit [DecidableEq n] in
private theorem hat_eq (X : Matrix n d ℝ) (w : ℝ) (hw : 0 < w) (U : Matrix n k ℝ) (W : k → ℝ) (Vh : Matrix k d ℝ)
    (h : IsThinSVD X U W Vh) :
    U * diagonal (fun i => (W i ^ 2 + w)⁻¹ * W i ^ 2) * Uᵀ =
      X * (Xᵀ * X + w • (1 : Matrix d d ℝ))⁻¹ * Xᵀ := by
  set A := Xᵀ * X + w • (1 : Matrix d d ℝ) with hA
  have hu : IsUnit A.det := (Matrix.isUnit_iff_isUnit_det A).mp (reg_posDef X hw).isUnit
  have hX : X = U * diagonal W * Vh := h.prod.symm
  have hXt : Xᵀ = Vhᵀ * diagonal W * Uᵀ := by
    rw [hX]; simp only [transpose_mul, diagonal_transpose, Matrix.mul_assoc]
  have h1 : A * Vhᵀ = Vhᵀ * diagonal (fun i => W i ^ 2 + w) := by
    have h2 : Xᵀ * X = Vhᵀ * (diagonal W * diagonal W) * Vh := by
      rw [hXt]
      conv_lhs => rw [hX]
      calc _ = Vhᵀ * diagonal W * (Uᵀ * U) * (diagonal W * Vh) := by simp only [Matrix.mul_assoc]
        _ = _ := by rw [h.left, Matrix.mul_one]; simp only [Matrix.mul_assoc]
    rw [hA, Matrix.add_mul, h2, Matrix.mul_assoc, h.right, Matrix.mul_one, Matrix.smul_mul, Matrix.one_mul,
      diagonal_mul_diagonal]
    have h3 : diagonal (fun i => W i ^ 2 + w) = diagonal (fun i => W i * W i) + w • (1 : Matrix k k ℝ) := by
      ext i j
      by_cases hij : i = j
      · subst hij; simp [sq]
      · simp [hij]
    rw [h3, Matrix.mul_add, Matrix.mul_smul, Matrix.mul_one]
  have h4 : A⁻¹ * Vhᵀ = Vhᵀ * diagonal (fun i => (W i ^ 2 + w)⁻¹) := by
    have h5 : Vhᵀ = A⁻¹ * (Vhᵀ * diagonal (fun i => W i ^ 2 + w)) := by
      rw [← h1, ← Matrix.mul_assoc, nonsing_inv_mul A hu, Matrix.one_mul]
    have h6 : diagonal (fun i => W i ^ 2 + w) * diagonal (fun i => (W i ^ 2 + w)⁻¹) = (1 : Matrix k k ℝ) := by
      rw [diagonal_mul_diagonal]
      have : (fun i => (W i ^ 2 + w) * (W i ^ 2 + w)⁻¹) = fun _ : k => (1:ℝ) := by
        funext i
        exact mul_inv_cancel₀ (by positivity)
      rw [this, diagonal_one]
    calc A⁻¹ * Vhᵀ = A⁻¹ * Vhᵀ * (diagonal (fun i => W i ^ 2 + w) * diagonal (fun i => (W i ^ 2 + w)⁻¹)) := by
          rw [h6, Matrix.mul_one]
      _ = A⁻¹ * (Vhᵀ * diagonal (fun i => W i ^ 2 + w)) * diagonal (fun i => (W i ^ 2 + w)⁻¹) := by
          simp only [Matrix.mul_assoc]
      _ = _ := by rw [← h5]
  calc U * diagonal (fun i => (W i ^ 2 + w)⁻¹ * W i ^ 2) * Uᵀ
      = U * (diagonal W * diagonal (fun i => (W i ^ 2 + w)⁻¹) * diagonal W) * Uᵀ := by
        rw [diagonal_mul_diagonal, diagonal_mul_diagonal]
        congr 3; funext i; ring
    _ = U * diagonal W * (Vh * Vhᵀ) * diagonal (fun i => (W i ^ 2 + w)⁻¹) * diagonal W * Uᵀ := by
        rw [h.right, Matrix.mul_one]; simp only [Matrix.mul_assoc]
    _ = (U * diagonal W * Vh) * (Vhᵀ * diagonal (fun i => (W i ^ 2 + w)⁻¹)) * (diagonal W * Uᵀ) := by
        simp only [Matrix.mul_assoc]
    _ = X * (A⁻¹ * Vhᵀ) * (diagonal W * Uᵀ) := by rw [h.prod, h4]
    _ = X * A⁻¹ * Xᵀ := by rw [hXt]; simp only [Matrix.mul_assoc]

omit [DecidableEq d] in
private theorem drop_normal (X : Matrix n d ℝ) (i : n) :
    (dropRow X i)ᵀ * dropRow X i = Xᵀ * X - vecMulVec (X i) (X i) := by
  ext a b
  simp only [Matrix.mul_apply, Matrix.sub_apply, vecMulVec_apply, transpose_apply, dropRow, submatrix_apply, id]
  rw [← Finset.sum_erase_eq_sub (Finset.mem_univ i)]
  rw [← Finset.sum_subtype (Finset.univ.erase i) (p := fun j => j ≠ i) (by simp) (fun j => X j a * X j b)]

omit [DecidableEq d] [Fintype d] in
private theorem drop_rhs (X : Matrix n d ℝ) (Y : n → ℝ) (i : n) :
    (dropRow X i)ᵀ *ᵥ (fun j => Y j.1) = Xᵀ *ᵥ Y - Y i • X i := by
  ext a
  simp only [Matrix.mulVec, dotProduct, Pi.sub_apply, transpose_apply, dropRow, submatrix_apply, id, Pi.smul_apply,
    smul_eq_mul]
  rw [mul_comm (Y i), ← Finset.sum_erase_eq_sub (Finset.mem_univ i)]
  rw [← Finset.sum_subtype (Finset.univ.erase i) (p := fun j => j ≠ i) (by simp) (fun j => X j a * Y j)]

/-- The key identity: the residual without row `i` times the diagonal of the residual matrix is the residual. -/
private theorem loo_identity (X : Matrix n d ℝ) (Y : n → ℝ) (w p : ℝ) (hw : 0 < w) (i : n) (a : d → ℝ)
    (ha : ((dropRow X i)ᵀ * dropRow X i + w • (1 : Matrix d d ℝ)) *ᵥ a =
      (dropRow X i)ᵀ *ᵥ (fun j => Y j.1) + fun _ => w * p) :
    let P := 1 - X * (Xᵀ * X + w • (1 : Matrix d d ℝ))⁻¹ * Xᵀ
    0 < P i i ∧ (P *ᵥ (Y - X *ᵥ fun _ => p)) i = P i i * (Y i - (X *ᵥ a) i) := by
  intro P
  set A := Xᵀ * X + w • (1 : Matrix d d ℝ) with hA
  have hpd : A.PosDef := reg_posDef X hw
  have hu : IsUnit A.det := (Matrix.isUnit_iff_isUnit_det A).mp hpd.isUnit
  set x : d → ℝ := X i with hx
  set v : d → ℝ := A⁻¹ *ᵥ x with hv
  have hAv : A *ᵥ v = x := by rw [hv, mulVec_mulVec, mul_nonsing_inv A hu, one_mulVec]
  have hPe : ∀ z : n → ℝ, (P *ᵥ z) i = z i - x ⬝ᵥ (A⁻¹ *ᵥ (Xᵀ *ᵥ z)) := by
    intro z
    simp only [P]
    rw [sub_mulVec, one_mulVec, Pi.sub_apply, ← mulVec_mulVec, ← mulVec_mulVec]
    rfl
  have hPii : P i i = 1 - x ⬝ᵥ v := by
    have h1 := hPe (Pi.single i 1)
    rw [mulVec_single_one, mulVec_single_one] at h1
    simp only [col_apply, Pi.single_eq_same] at h1
    rw [h1]
    rfl
  have hdpd : ((dropRow X i)ᵀ * dropRow X i + w • (1 : Matrix d d ℝ)).PosDef := reg_posDef _ hw
  have hsplit : ∀ z : d → ℝ, ((dropRow X i)ᵀ * dropRow X i + w • (1 : Matrix d d ℝ)) *ᵥ z =
      A *ᵥ z - (x ⬝ᵥ z) • x := by
    intro z
    rw [drop_normal, hA, add_mulVec, add_mulVec, sub_mulVec, vecMulVec_mulVec]
    rw [op_smul_eq_smul]
    abel
  have hpos : 0 < 1 - x ⬝ᵥ v := by
    by_cases hv0 : v = 0
    · rw [hv0, dotProduct_zero]; norm_num
    · have h1 := hdpd.dotProduct_mulVec_pos hv0
      rw [hsplit, hAv] at h1
      simp only [star_trivial, dotProduct_sub, dotProduct_smul, smul_eq_mul] at h1
      rw [dotProduct_comm v x] at h1
      nlinarith [sq_nonneg (x ⬝ᵥ v)]
  refine ⟨by rw [hPii]; exact hpos, ?_⟩
  rw [hsplit, drop_rhs] at ha
  -- `a` in terms of the inverse
  have h2 : A *ᵥ (a - fun _ => p) = Xᵀ *ᵥ (Y - X *ᵥ fun _ => p) - (Y i - x ⬝ᵥ a) • x := by
    have h3 : A *ᵥ (fun _ => p) = Xᵀ *ᵥ (X *ᵥ fun _ => p) + fun _ => w * p := by
      rw [hA, add_mulVec, smul_mulVec, one_mulVec, mulVec_mulVec]
      rfl
    have h4 : A *ᵥ a = Xᵀ *ᵥ Y - Y i • X i + (fun _ => w * p) + (x ⬝ᵥ a) • x := by rw [← ha]; abel
    rw [mulVec_sub, mulVec_sub, h3, h4, sub_smul, ← hx]
    abel
  have h5 : a - (fun _ => p) = A⁻¹ *ᵥ (Xᵀ *ᵥ (Y - X *ᵥ fun _ => p)) - (Y i - x ⬝ᵥ a) • v := by
    have := congrArg (fun z => A⁻¹ *ᵥ z) h2
    simp only at this
    rw [mulVec_mulVec, nonsing_inv_mul A hu, one_mulVec, mulVec_sub, mulVec_smul] at this
    rw [this]
  rw [hPe, hPii]
  have h6 : x ⬝ᵥ (A⁻¹ *ᵥ (Xᵀ *ᵥ (Y - X *ᵥ fun _ => p))) =
      x ⬝ᵥ a - x ⬝ᵥ (fun _ => p) + (Y i - x ⬝ᵥ a) * (x ⬝ᵥ v) := by
    have : A⁻¹ *ᵥ (Xᵀ *ᵥ (Y - X *ᵥ fun _ => p)) = a - (fun _ => p) + (Y i - x ⬝ᵥ a) • v := by rw [h5]; abel
    rw [this, dotProduct_add, dotProduct_sub, dotProduct_smul, smul_eq_mul]
  rw [h6]
  have h7 : (X *ᵥ fun _ => p) i = x ⬝ᵥ fun _ => p := rfl
  have h8 : (X *ᵥ a) i = x ⬝ᵥ a := rfl
  rw [Pi.sub_apply, h7, h8]
  ring

/-- C39: the closed-form leave-one-out error is the root mean square of the errors made on each row by a new ridge
regression (on a new object) on all other rows. -/
theorem C39_loocv (svd : Svd d) (hsvd : ∀ A : Matrix d d ℝ, A.PosSemidef → ∃ V, IsSVD A V (svd A).1 (svd A).2)
    (X : Matrix n d ℝ) (Y : n → ℝ) (w p : ℝ) (hw : 0 < w)
    (U : Matrix n k ℝ) (W : k → ℝ) (Vh : Matrix k d ℝ) (h : IsThinSVD X U W Vh) :
    loocv X Y p w U W = Real.sqrt ((Fintype.card n : ℝ)⁻¹ * ∑ i,
      (Y i - predict (rr svd ⟨none, none⟩ (dropRow X i) (fun j => Y j.1) w p false).1 X i) ^ 2) := by
  unfold loocv
  simp only
  rw [hat_eq X w hw U W Vh h]
  congr 2
  set P := 1 - X * (Xᵀ * X + w • (1 : Matrix d d ℝ))⁻¹ * Xᵀ with hP
  have hsym : Pᵀ = P := by
    rw [hP, transpose_sub, transpose_one, transpose_mul, transpose_mul, transpose_transpose, transpose_nonsing_inv]
    simp only [transpose_add, transpose_mul, transpose_transpose, transpose_smul, transpose_one, Matrix.mul_assoc]
  set Z : n → ℝ := Y - X *ᵥ fun _ => p with hZ
  have e1 : Z ᵥ* P ᵥ* diagonal (fun i => (P i i ^ 2)⁻¹) ᵥ* P ⬝ᵥ Z =
      ∑ i, (P *ᵥ Z) i ^ 2 * (P i i ^ 2)⁻¹ := by
    rw [← dotProduct_mulVec]
    have : Z ᵥ* P = P *ᵥ Z := by rw [← hsym, vecMul_transpose, hsym]
    rw [this]
    unfold dotProduct
    apply Finset.sum_congr rfl
    intro i _
    rw [vecMul_diagonal]
    ring
  rw [e1]
  apply Finset.sum_congr rfl
  intro i _
  obtain ⟨V, hV⟩ := hsvd _ (xtx_psd (dropRow X i))
  have hn := C38_normal_equations svd ⟨none, none⟩ (dropRow X i) (fun j => Y j.1) w p hw false (.inl rfl) V hV
  obtain ⟨h1, h2⟩ := loo_identity X Y w p hw i _ hn
  rw [h2]
  unfold predict
  have h3 : P i i ≠ 0 := h1.ne'
  rw [← hP, mul_pow, mul_right_comm, mul_inv_cancel₀ (pow_ne_zero 2 h3), one_mul]

/-- A function meeting the contract of `np.linalg.svd` exists. -/
example : ∃ svd : Svd d, ∀ A : Matrix d d ℝ, A.PosSemidef → ∃ V, IsSVD A V (svd A).1 (svd A).2 := by
  classical
  refine ⟨fun A => if h : A.PosSemidef then
    ((exists_svd h).choose_spec.choose, (exists_svd h).choose_spec.choose_spec.choose) else (0, 0), ?_⟩
  intro A hA
  simp only [hA, dif_pos]
  exact ⟨_, (exists_svd hA).choose_spec.choose_spec.choose_spec⟩

/-- A thin decomposition: the identity matrix. -/
example : IsThinSVD (1 : Matrix (Fin 2) (Fin 2) ℝ) (1 : Matrix (Fin 2) (Fin 2) ℝ) (fun _ => 1) 1 := by
  refine ⟨by simp, by simp, fun _ => zero_le_one, ?_⟩
  rw [show (fun _ : Fin 2 => (1:ℝ)) = 1 from rfl]
  simp

/-! ### C40: the regularisation of the user -/

/-- C40 (partial): without a given regularisation, on a new object, the coefficients are the ridge solution for the
regularisation chosen by the search, which is reported with them. -/
theorem C40_searched_reg_partial (svd : Svd d) (find : Obj d → Matrix n d ℝ → (n → ℝ) → ℝ → ℝ)
    (X : Matrix n d ℝ) (Y : n → ℝ) (p : ℝ) (V : Matrix d d ℝ)
    (h : IsSVD (Xᵀ * X) V (svd (Xᵀ * X)).1 (svd (Xᵀ * X)).2) (hfind : ∀ s, 0 < find s X Y p) :
    ∃ (w : ℝ) (a : d → ℝ) (s' : Obj d),
      getCoefficients svd find ⟨none, none⟩ X Y none p = .ok (w, a, s') ∧
      ∀ b, b ≠ a → ridgeCost X Y w p a < ridgeCost X Y w p b := by
  refine ⟨_, _, _, rfl, ?_⟩
  intro b hb
  refine min_of_normal X Y _ p (hfind _) _ b ?_ hb
  exact solve_spec X Y _ p (hfind _) V _ _ h

/-- C40 is violated: a regularisation given by the user is not used; for every data set the call fails. -/
theorem C40_user_reg_violated (svd : Svd d) (find : Obj d → Matrix n d ℝ → (n → ℝ) → ℝ → ℝ) (s : Obj d)
    (X : Matrix n d ℝ) (Y : n → ℝ) (reg p : ℝ) :
    getCoefficients svd find s X Y (some reg) p = .error .value := rfl

/-- C40 is violated when an object is used twice: the decomposition of the first data set is used for the second.
For one row and one feature, fitting 1 = 1·a and then 1 = 2·a with regularisation 1 gives 1 instead of 2/5, whatever
singular value decomposition is used. -/
theorem C40_stale_violated (svd : Svd (Fin 1))
    (hsvd : ∀ A : Matrix (Fin 1) (Fin 1) ℝ, A.PosSemidef → ∃ V, IsSVD A V (svd A).1 (svd A).2) :
    let X1 : Matrix (Fin 1) (Fin 1) ℝ := of fun _ _ => 1
    let X2 : Matrix (Fin 1) (Fin 1) ℝ := of fun _ _ => 2
    let Y : Fin 1 → ℝ := fun _ => 1
    let first := rr svd ⟨none, none⟩ X1 Y 1 0 false
    let second := rr svd first.2.2 X2 Y 1 0 false
    second.1 = (fun _ => 1) ∧ (rr svd ⟨none, none⟩ X2 Y 1 0 false).1 = fun _ => 2 / 5 := by
  intro X1 X2 Y first second
  obtain ⟨V1, h1⟩ := hsvd _ (xtx_psd X1)
  obtain ⟨V2, h2⟩ := hsvd _ (xtx_psd X2)
  have hA1 := svd_psd (xtx_psd X1) h1
  have key : ∀ (Vh : Matrix (Fin 1) (Fin 1) ℝ) (W : Fin 1 → ℝ) (A : Matrix (Fin 1) (Fin 1) ℝ),
      Vh * Vhᵀ = 1 → Vhᵀ * diagonal W * Vh = A → Vh 0 0 * Vh 0 0 = 1 ∧ W 0 = A 0 0 := by
    intro Vh W A h h'
    have e1 := congrFun (congrFun h 0) 0
    simp [Matrix.mul_apply] at e1
    have e2 := congrFun (congrFun h' 0) 0
    simp [Matrix.mul_apply, diagonal_apply] at e2
    exact ⟨e1, by rw [← e2]; linear_combination (-W 0) * e1⟩
  obtain ⟨hv1, hw1⟩ := key _ _ _ h1.right hA1
  obtain ⟨hv2, hw2⟩ := key _ _ _ h2.right (svd_psd (xtx_psd X2) h2)
  constructor
  · funext i
    fin_cases i
    have hw1' : (svd (X1ᵀ * X1)).1 0 = 1 := by rw [hw1]; simp [X1, Matrix.mul_apply]
    simp only [second, first, rr, decompose, solve]
    generalize (svd (X1ᵀ * X1)).1 = W at hw1'
    generalize (svd (X1ᵀ * X1)).2 = Vh at hv1
    simp [Matrix.mul_apply, mulVec, dotProduct, diagonal_apply, hw1', X2, Y]
    linear_combination hv1
  · funext i
    fin_cases i
    have hw2' : (svd (X2ᵀ * X2)).1 0 = 4 := by rw [hw2]; simp [X2, Matrix.mul_apply]; norm_num
    simp only [rr, decompose, solve]
    generalize (svd (X2ᵀ * X2)).1 = W at hw2'
    generalize (svd (X2ᵀ * X2)).2 = Vh at hv2
    simp [Matrix.mul_apply, mulVec, dotProduct, diagonal_apply, hw2', X2, Y]
    linear_combination (2 / 5) * hv2

/-- C40 is violated when `get_coefficients` is called again on the same object: for all data, the second call solves the normal
equations with the products of the features of the first call, `X₁ᵀX₁`, in place of `X₂ᵀX₂`. -/
theorem C40_calls_violated (svd : Svd d) (find : Obj d → Matrix n d ℝ → (n → ℝ) → ℝ → ℝ) (X₁ X₂ : Matrix n d ℝ) (Y₁ Y₂ : n → ℝ)
    (p : ℝ) (V : Matrix d d ℝ) (h : IsSVD (X₁ᵀ * X₁) V (svd (X₁ᵀ * X₁)).1 (svd (X₁ᵀ * X₁)).2) (hfind : ∀ s, 0 < find s X₂ Y₂ p) :
    ∃ (w₁ : ℝ) (a₁ : d → ℝ) (s : Obj d) (w₂ : ℝ) (a₂ : d → ℝ) (s' : Obj d),
      getCoefficients svd find ⟨none, none⟩ X₁ Y₁ none p = .ok (w₁, a₁, s) ∧
      getCoefficients svd find s X₂ Y₂ none p = .ok (w₂, a₂, s') ∧
      (X₁ᵀ * X₁ + w₂ • (1 : Matrix d d ℝ)) *ᵥ a₂ = X₂ᵀ *ᵥ Y₂ + fun _ => w₂ * p := by
  refine ⟨_, _, _, _, _, _, rfl, rfl, ?_⟩
  exact solve_of X₁ X₂ Y₂ _ p (hfind _) V _ _ h

/-! ### C104: bootstrap estimate -/

/-- C104: the bootstrap error of a point uses only models that were not trained on it: errors of models trained on
the point may be changed at will without any effect. -/
theorem C104_bootstrap_out_of_sample (nd : Nat) (errors errors' : List (Nat → ℝ)) (samples : List (List Nat))
    (hl : errors.length = samples.length) (hl' : errors'.length = samples.length)
    (h : ∀ (s i : Nat) (hs : s < samples.length), i < nd → i ∉ samples[s] →
      (errors[s]'(by omega)) i = (errors'[s]'(by omega)) i) :
    bootstrapErr nd errors samples = bootstrapErr nd errors' samples := by
  have key : ∀ i < nd, bootstrapErrI errors samples i = bootstrapErrI errors' samples i := by
    intro i hi
    have : ∀ (e e' : List (Nat → ℝ)) (sm : List (List Nat)) (he : e.length = sm.length) (he' : e'.length = sm.length),
        (∀ (s : Nat) (hs : s < sm.length), i ∉ sm[s] → (e[s]'(by omega)) i = (e'[s]'(by omega)) i) →
        ((List.zip e sm).filter fun es => !es.2.contains i).map (fun es => es.1 i ^ 2) =
        ((List.zip e' sm).filter fun es => !es.2.contains i).map (fun es => es.1 i ^ 2) := by
      intro e
      induction e with
      | nil =>
        intro e' sm he he' _
        have : sm = [] := by simpa using he.symm
        subst this
        simp
      | cons x e ih =>
        intro e' sm he he' hh
        cases sm with
        | nil => simp at he
        | cons s0 sm =>
          cases e' with
          | nil => simp at he'
          | cons x' e' =>
            have ih' := ih e' sm (by simpa using he) (by simpa using he') (fun s hs hn => by
              have := hh (s + 1) (by simp; omega) (by simpa using hn)
              simpa using this)
            rw [List.zip_cons_cons, List.zip_cons_cons, List.filter_cons, List.filter_cons]
            by_cases hc : i ∈ s0
            · simpa [hc] using ih'
            · have h0 := hh 0 (by simp) (by simpa using hc)
              simp only [List.getElem_cons_zero] at h0
              have hcb : (!s0.contains i) = true := by simpa using hc
              rw [if_pos hcb, if_pos hcb, List.map_cons, List.map_cons, ih']
              simp only [h0]
    have h1 := this errors errors' samples hl hl' (fun s hs hn => h s i hs hi hn)
    have h2 := congrArg List.length h1
    simp only [List.length_map] at h2
    unfold bootstrapErrI
    simp only
    rw [h1, h2]
  unfold bootstrapErr
  congr 1
  have : ∀ l : List Nat, (∀ i ∈ l, i < nd) →
      l.mapM (bootstrapErrI errors samples) = l.mapM (bootstrapErrI errors' samples) := by
    intro l
    induction l with
    | nil => intro _; rfl
    | cons a l ih =>
      intro hl
      rw [List.mapM_cons, List.mapM_cons, key a (hl a (by simp)), ih fun i hi => hl i (by simp [hi])]
  exact this _ fun i hi => List.mem_range.mp hi

/-- C104: the combined estimate lies between the training error and the out-of-sample error. -/
theorem C104_epe_between (err out : ℝ) (h : err ≤ out) :
    Real.sqrt err ≤ epe632 err out ∧ epe632 err out ≤ Real.sqrt out := by
  unfold epe632
  exact ⟨Real.sqrt_le_sqrt (by linarith), Real.sqrt_le_sqrt (by linarith)⟩

example : ([fun _ => 1, fun _ => 2] : List (Nat → ℝ)).length = ([[0, 0], [1, 0]] : List (List Nat)).length ∧
    (1 : Nat) ∉ [0, 0] := by simp

end CatLearn.Props
