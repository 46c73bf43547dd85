import Verif.Model.RidgeFit
import Verif.Props.RidgeRelations
import Mathlib.LinearAlgebra.Matrix.Rank
import Mathlib.Analysis.InnerProductSpace.PiL2
import Mathlib.Data.Fin.Tuple.Sort

/-!
# Ridge regression from data to coefficients (C245, C269)
-/

set_option linter.unusedSectionVars false

namespace CatLearn.RidgeSearch

open CatLearn CatLearn.Ridge CatLearn.Linalg CatLearn.Props Matrix

variable {n d k : Type} [Fintype n] [Fintype d] [Fintype k] [DecidableEq n] [DecidableEq d] [DecidableEq k]
variable {n' k' : Type} [Fintype n'] [DecidableEq n'] [Fintype k'] [DecidableEq k']

/-- The contract of `np.linalg.svd(X, full_matrices=False)`, for every matrix it is called with. -/
def ThinOk (thin : ThinSvd n d k) : Prop := ∀ X : Matrix n d ℝ, ∃ Vh, IsThinSVD X (thin X).1 (thin X).2 Vh

/-- Singular values are returned in descending order. -/
def Sorted {D : ℕ} (svd : Svd (Fin (D + 1))) : Prop := ∀ A, Antitone (svd A).1

/-! ### The leave-one-out estimate depends on the products of the data points only -/

section Hat

variable {X : Matrix n d ℝ} {U : Matrix n k ℝ} {W : k → ℝ} {Vh : Matrix k d ℝ}

theorem thin_gram (h : IsThinSVD X U W Vh) : X * Xᵀ = U * diagonal (fun i => W i ^ 2) * Uᵀ := by
  rw [← h.prod]
  simp only [transpose_mul, diagonal_transpose]
  calc U * diagonal W * Vh * (Vhᵀ * (diagonal W * Uᵀ)) = U * diagonal W * (Vh * Vhᵀ) * (diagonal W * Uᵀ) := by simp only [Matrix.mul_assoc]
    _ = U * (diagonal W * diagonal W) * Uᵀ := by rw [h.right, Matrix.mul_one]; simp only [Matrix.mul_assoc]
    _ = _ := by rw [diagonal_mul_diagonal]; simp only [sq]

theorem gram_mul_left (h : IsThinSVD X U W Vh) (e : k → ℝ) :
    X * Xᵀ * (U * diagonal e * Uᵀ) = U * diagonal (fun i => W i ^ 2 * e i) * Uᵀ := by
  rw [thin_gram h]
  calc U * diagonal (fun i => W i ^ 2) * Uᵀ * (U * diagonal e * Uᵀ)
      = U * diagonal (fun i => W i ^ 2) * (Uᵀ * U) * diagonal e * Uᵀ := by simp only [Matrix.mul_assoc]
    _ = U * (diagonal (fun i => W i ^ 2) * diagonal e) * Uᵀ := by rw [h.left, Matrix.mul_one]; simp only [Matrix.mul_assoc]
    _ = _ := by rw [diagonal_mul_diagonal]

theorem diag_add (a b : k → ℝ) : U * diagonal a * Uᵀ + U * diagonal b * Uᵀ = U * diagonal (fun i => a i + b i) * Uᵀ := by
  rw [← Matrix.add_mul, ← Matrix.mul_add, diagonal_add]

theorem diag_smul (w : ℝ) (a : k → ℝ) : w • (U * diagonal a * Uᵀ) = U * diagonal (fun i => w * a i) * Uᵀ := by
  rw [← Matrix.smul_mul, ← Matrix.mul_smul]
  congr 2
  ext i j
  by_cases hij : i = j
  · subst hij; simp
  · simp [hij]

/-- With a regularisation other than zero, the estimate is not defined exactly if the regularised matrix of products is singular. -/
theorem thin_singular (h : IsThinSVD X U W Vh) (w : ℝ) (hw : w ≠ 0) :
    (∃ i, W i ^ 2 + w = 0) ↔ (X * Xᵀ + w • (1 : Matrix n n ℝ)).det = 0 := by
  constructor
  · rintro ⟨i, hi⟩
    rw [← exists_mulVec_eq_zero_iff]
    refine ⟨U *ᵥ Pi.single i 1, fun h0 => ?_, ?_⟩
    · have : Uᵀ *ᵥ (U *ᵥ Pi.single i 1) = 0 := by rw [h0, mulVec_zero]
      rw [mulVec_mulVec, h.left, one_mulVec] at this
      have := congrFun this i
      simp at this
    · have e : (X * Xᵀ + w • (1 : Matrix n n ℝ)) * U = U * diagonal (fun i => W i ^ 2 + w) := by
        rw [Matrix.add_mul, thin_gram h, Matrix.mul_assoc, h.left, Matrix.mul_one, Matrix.smul_mul, Matrix.one_mul]
        ext a b
        simp [mul_diagonal, mul_add, mul_comm]
      rw [mulVec_mulVec, e, ← mulVec_mulVec, diagonal_mulVec_single, hi, zero_mul, Pi.single_zero, mulVec_zero]
  · intro h0
    by_contra hne
    push Not at hne
    have : (X * Xᵀ + w • (1 : Matrix n n ℝ)) * (w⁻¹ • (1 : Matrix n n ℝ) + U * diagonal (fun i => (W i ^ 2 + w)⁻¹ - w⁻¹) * Uᵀ) = 1 := by
      rw [Matrix.mul_add, Matrix.add_mul _ _ (U * _ * Uᵀ), gram_mul_left h, Matrix.smul_mul, Matrix.one_mul, diag_smul, diag_add, Matrix.add_mul,
        Matrix.mul_smul, Matrix.mul_one, Matrix.smul_mul, Matrix.one_mul, smul_smul, mul_inv_cancel₀ hw, one_smul, thin_gram h, diag_smul,
        add_right_comm, diag_add]
      have : (fun i => w⁻¹ * W i ^ 2 + (W i ^ 2 * ((W i ^ 2 + w)⁻¹ - w⁻¹) + w * ((W i ^ 2 + w)⁻¹ - w⁻¹))) = fun _ : k => (0:ℝ) := by
        funext i
        have := hne i
        field_simp
        ring
      rw [this]
      simp
    have hd := congrArg Matrix.det this
    rw [det_mul, h0, zero_mul, det_one] at hd
    exact zero_ne_one hd

/-- Without regularisation, the estimate is not defined if there are fewer independent data than singular values. -/
theorem thin_rank (h : IsThinSVD X U W Vh) : (∃ i, W i ^ 2 + 0 = 0) ↔ (X * Xᵀ).rank ≠ Fintype.card k := by
  have hr : (X * Xᵀ).rank = (diagonal fun i => W i ^ 2).rank := by
    apply le_antisymm
    · rw [thin_gram h]
      exact (rank_mul_le_left _ _).trans (rank_mul_le_right _ _)
    · have e : diagonal (fun i => W i ^ 2) = Uᵀ * (X * Xᵀ) * U := by
        rw [thin_gram h]
        calc _ = (Uᵀ * U) * diagonal (fun i => W i ^ 2) * (Uᵀ * U) := by rw [h.left, Matrix.one_mul, Matrix.mul_one]
          _ = _ := by simp only [Matrix.mul_assoc]
      rw [e]
      exact (rank_mul_le_left _ _).trans (rank_mul_le_right _ _)
  rw [hr, rank_diagonal]
  constructor
  · rintro ⟨i, hi⟩
    exact (Fintype.card_subtype_lt (x := i) (by simpa using hi)).ne
  · intro hne
    by_contra hall
    push Not at hall
    apply hne
    rw [Fintype.card_subtype, Finset.filter_true_of_mem, Finset.card_univ]
    intro i _
    simpa using hall i

/-- What `_LOOCV` computes from the hat matrix and the targets without prior. -/
noncomputable def estimate (H : Matrix n n ℝ) (Z : n → ℝ) : Fl :=
  open Classical in
  if ∃ i, (1 - H) i i = 0 then .nan
  else .fin (Real.sqrt ((Fintype.card n : ℝ)⁻¹ * ((Z ᵥ* (1 - H) ᵥ* diagonal (fun i => ((1 - H) i i ^ 2)⁻¹) ᵥ* (1 - H)) ⬝ᵥ Z)))

theorem estimate_submatrix (H : Matrix n n ℝ) (Z : n → ℝ) (f : n' ≃ n) (c : ℝ) (hc : c ≠ 0) :
    estimate (H.submatrix f f) (c • Z ∘ f) = (estimate H Z).scale |c| := by
  have e1 : (1 : Matrix n' n' ℝ) - H.submatrix f f = (1 - H).submatrix f f := by
    ext i j
    simp [one_apply]
  have e2 : diagonal (fun i => (((1 - H).submatrix f f) i i ^ 2)⁻¹) = (diagonal fun i => ((1 - H) i i ^ 2)⁻¹).submatrix f f := by
    ext i j
    simp [diagonal_apply]
  unfold estimate
  rw [e1, e2]
  have e3 : (∃ i, (1 - H).submatrix f f i i = 0) ↔ ∃ i, (1 - H) i i = 0 :=
    ⟨fun ⟨i, hi⟩ => ⟨f i, hi⟩, fun ⟨i, hi⟩ => ⟨f.symm i, by simpa using hi⟩⟩
  by_cases hi : ∃ i, (1 - H) i i = 0
  · rw [if_pos (e3.2 hi), if_pos hi]; rfl
  · rw [if_neg (mt e3.1 hi), if_neg hi]
    have v : ∀ (M : Matrix n n ℝ) (z : n → ℝ), (z ∘ f) ᵥ* M.submatrix f f = (z ᵥ* M) ∘ f := by
      intro M z
      rw [submatrix_vecMul_equiv]
      simp [Function.comp_assoc]
    rw [smul_vecMul, v, smul_vecMul, v, smul_vecMul, v, smul_dotProduct, dotProduct_smul, comp_equiv_dotProduct_comp_equiv,
      Fintype.card_congr f]
    simp only [Fl.scale, smul_eq_mul]
    congr 1
    rw [← mul_assoc c c, ← sq, mul_left_comm, Real.sqrt_mul (sq_nonneg c), Real.sqrt_sq_eq_abs]

variable {d' : Type} [Fintype d'] [DecidableEq d'] {X' : Matrix n' d' ℝ} {U' : Matrix n' k ℝ} {W' : k → ℝ} {Vh' : Matrix k d' ℝ}

theorem hat_normal (h : IsThinSVD X U W Vh) (w : ℝ) (hne : ∀ i, W i ^ 2 + w ≠ 0) :
    (X * Xᵀ + w • (1 : Matrix n n ℝ)) * (U * diagonal (fun i => (W i ^ 2 + w)⁻¹ * W i ^ 2) * Uᵀ) = X * Xᵀ := by
  rw [Matrix.add_mul, gram_mul_left h, Matrix.smul_mul, Matrix.one_mul, diag_smul, diag_add, thin_gram h]
  congr 3
  funext i
  have := hne i
  field_simp

theorem hat_zero (h : IsThinSVD X U W Vh) (hne : ∀ i, W i ^ 2 ≠ 0) : U * Uᵀ * (X * Xᵀ) = X * Xᵀ ∧ ∃ M, U * Uᵀ = X * Xᵀ * M := by
  constructor
  · rw [thin_gram h]
    calc U * Uᵀ * (U * diagonal (fun i => W i ^ 2) * Uᵀ) = U * (Uᵀ * U) * diagonal (fun i => W i ^ 2) * Uᵀ := by simp only [Matrix.mul_assoc]
      _ = _ := by rw [h.left, Matrix.mul_one]
  · refine ⟨U * diagonal (fun i => (W i ^ 2)⁻¹) * Uᵀ, ?_⟩
    rw [gram_mul_left h]
    have : (fun i => W i ^ 2 * (W i ^ 2)⁻¹) = fun _ : k => (1 : ℝ) := by
      funext i
      exact mul_inv_cancel₀ (hne i)
    rw [this, diagonal_one, Matrix.mul_one]

theorem projection_unique {G A B : Matrix n n ℝ} (hA : Aᵀ = A) (hB : Bᵀ = B) (a : A * G = G) (b : B * G = G) (a' : ∃ M, A = G * M)
    (b' : ∃ M, B = G * M) : A = B := by
  obtain ⟨M, hM⟩ := a'
  obtain ⟨L, hL⟩ := b'
  have h1 : B * A = A := by
    conv_lhs => rw [hM]
    rw [← Matrix.mul_assoc, b, ← hM]
  have h2 : A * B = B := by
    conv_lhs => rw [hL]
    rw [← Matrix.mul_assoc, a, ← hL]
  have h3 := congrArg transpose h1
  rw [transpose_mul, hA, hB, h2] at h3
  exact h3.symm

/-- The hat matrix of data with the same products of data points (in other units and order) is the same, whatever the decompositions. -/
theorem hat_same (h : IsThinSVD X U W Vh) (h' : IsThinSVD X' U' W' Vh') (f : n' ≃ n) (β : ℝ) (hβ : β ≠ 0)
    (hG : X' * X'ᵀ = β • (X * Xᵀ).submatrix f f) (w : ℝ) :
    ((∃ i, W' i ^ 2 + β * w = 0) ↔ ∃ i, W i ^ 2 + w = 0) ∧ ((∀ i, W i ^ 2 + w ≠ 0) →
      U' * diagonal (fun i => (W' i ^ 2 + β * w)⁻¹ * W' i ^ 2) * U'ᵀ = (U * diagonal (fun i => (W i ^ 2 + w)⁻¹ * W i ^ 2) * Uᵀ).submatrix f f) := by
  have e1 : X' * X'ᵀ + (β * w) • (1 : Matrix n' n' ℝ) = β • (X * Xᵀ + w • (1 : Matrix n n ℝ)).submatrix f f := by
    rw [hG]
    ext i j
    simp [one_apply, mul_add]
  have hiff : (∃ i, W' i ^ 2 + β * w = 0) ↔ ∃ i, W i ^ 2 + w = 0 := by
    by_cases hw : w = 0
    · subst hw
      rw [mul_zero, thin_rank h', thin_rank h, hG]
      have : (β • (X * Xᵀ).submatrix f f).rank = (X * Xᵀ).rank := by
        have e : β • (X * Xᵀ).submatrix f f = (β • (X * Xᵀ)).submatrix f f := rfl
        rw [e, rank_submatrix]
        have e' : β • (X * Xᵀ) = (β • (1 : Matrix n n ℝ)) * (X * Xᵀ) := by rw [Matrix.smul_mul, Matrix.one_mul]
        rw [e', rank_mul_eq_right_of_isUnit_det]
        rw [det_smul, det_one, mul_one]
        exact (pow_ne_zero _ hβ).isUnit
      rw [this]
    · rw [thin_singular h' _ (mul_ne_zero hβ hw), thin_singular h _ hw, e1, det_smul, det_submatrix_equiv_self]
      simp [hβ]
  refine ⟨hiff, fun hne => ?_⟩
  have hne' : ∀ i, W' i ^ 2 + β * w ≠ 0 := fun i hi => by
    obtain ⟨j, hj⟩ := hiff.1 ⟨i, hi⟩
    exact hne j hj
  by_cases hw : w = 0
  · subst hw
    simp only [mul_zero, add_zero] at hne hne' ⊢
    have q : ∀ V : k → ℝ, (∀ i, V i ^ 2 ≠ 0) → (fun i => (V i ^ 2)⁻¹ * V i ^ 2) = fun _ => (1 : ℝ) := fun V hV => by
      funext i
      exact inv_mul_cancel₀ (hV i)
    rw [q W hne, q W' hne', diagonal_one, Matrix.mul_one, Matrix.mul_one]
    obtain ⟨a, M, hM⟩ := hat_zero h hne
    obtain ⟨a', L, hL⟩ := hat_zero h' hne'
    refine projection_unique (by simp) (by simp) a' ?_ ⟨L, hL⟩ ⟨β⁻¹ • M.submatrix f f, ?_⟩
    · rw [hG, Matrix.mul_smul, submatrix_mul_equiv, a]
    · rw [hG, Matrix.mul_smul, Matrix.smul_mul, smul_smul, inv_mul_cancel₀ hβ, one_smul, submatrix_mul_equiv, ← hM]
  · have hd : IsUnit (X' * X'ᵀ + (β * w) • (1 : Matrix n' n' ℝ)).det := by
      rw [isUnit_iff_ne_zero, Ne, ← thin_singular h' _ (mul_ne_zero hβ hw)]
      push Not
      exact hne'
    have k1 := hat_normal h' _ hne'
    have k2 : (X' * X'ᵀ + (β * w) • (1 : Matrix n' n' ℝ)) * (U * diagonal (fun i => (W i ^ 2 + w)⁻¹ * W i ^ 2) * Uᵀ).submatrix f f = X' * X'ᵀ := by
      rw [e1, Matrix.smul_mul, submatrix_mul_equiv, hat_normal h _ hne, hG]
    calc _ = (X' * X'ᵀ + (β * w) • (1 : Matrix n' n' ℝ))⁻¹ * ((X' * X'ᵀ + (β * w) • (1 : Matrix n' n' ℝ)) *
          (U' * diagonal (fun i => (W' i ^ 2 + β * w)⁻¹ * W' i ^ 2) * U'ᵀ)) := by rw [← Matrix.mul_assoc, nonsing_inv_mul _ hd, Matrix.one_mul]
      _ = _ := by rw [k1.trans k2.symm, ← Matrix.mul_assoc, nonsing_inv_mul _ hd, Matrix.one_mul]

/-- The error estimates of data in other units, order and axes. -/
theorem epe_same (h : IsThinSVD X U W Vh) (h' : IsThinSVD X' U' W' Vh') (f : n' ≃ n) (β c : ℝ) (hβ : 0 < β) (hc : c ≠ 0)
    (hG : X' * X'ᵀ = β • (X * Xᵀ).submatrix f f) (Y : n → ℝ) (Y' : n' → ℝ) (p p' : ℝ)
    (hY : (Y' - X' *ᵥ fun _ => p') = c • (Y - X *ᵥ fun _ => p) ∘ f) (x : Fl) :
    epeLoocv X' Y' p' U' W' (x.scale β) = (epeLoocv X Y p U W x).scale |c| := by
  have hz : loocvFrom X' Y' p' U' 0 = (loocvFrom X Y p U 0).scale |c| := by
    have := estimate_submatrix (0 : Matrix n n ℝ) (Y - X *ᵥ fun _ => p) f c hc
    rw [← hY] at this
    have z : ∀ {m : Type} [Fintype m] (V : Matrix m k ℝ), V * diagonal (0 : k → ℝ) * Vᵀ = 0 := by
      intro m _ V
      simp
    unfold loocvFrom
    simp only [z]
    exact this
  cases x with
  | nan => rfl
  | ninf => simpa only [Fl.scale, hβ, hβ.ne', if_true, if_false, epeLoocv] using hz
  | pinf => simpa only [Fl.scale, hβ, hβ.ne', if_true, if_false, epeLoocv] using hz
  | fin w =>
    obtain ⟨h1, h2⟩ := hat_same h h' f β hβ.ne' hG w
    simp only [Fl.scale, epeLoocv]
    by_cases hw : ∃ i, W i ^ 2 + w = 0
    · rw [if_pos (h1.2 hw), if_pos hw]
    · rw [if_neg (mt h1.1 hw), if_neg hw]
      push Not at hw
      have := estimate_submatrix (U * diagonal (fun i => (W i ^ 2 + w)⁻¹ * W i ^ 2) * Uᵀ) (Y - X *ᵥ fun _ => p) f c hc
      rw [← hY, ← h2 hw] at this
      exact this

end Hat

/-! ### Singular values and coefficients -/

theorem svd_shift {A V : Matrix d d ℝ} {W : d → ℝ} {Vh : Matrix d d ℝ} (hA : A.PosSemidef) (h : IsSVD A V W Vh) (w : ℝ) :
    A + w • (1 : Matrix d d ℝ) = Vhᵀ * diagonal (fun i => W i + w) * Vh := by
  have hr' : Vhᵀ * Vh = 1 := mul_eq_one_comm.mp h.right
  have h1 : diagonal (fun i => W i + w) = diagonal W + w • (1 : Matrix d d ℝ) := by
    ext i j
    by_cases hij : i = j
    · subst hij; simp
    · simp [hij]
  rw [h1, Matrix.mul_add, Matrix.add_mul, svd_psd hA h, Matrix.mul_smul, Matrix.smul_mul, Matrix.mul_one, hr']

theorem svd_singular {A V : Matrix d d ℝ} {W : d → ℝ} {Vh : Matrix d d ℝ} (hA : A.PosSemidef) (h : IsSVD A V W Vh) (w : ℝ) :
    (∃ i, W i + w = 0) ↔ (A + w • (1 : Matrix d d ℝ)).det = 0 := by
  have hd : Vh.det ≠ 0 := by
    intro h0
    have := congrArg Matrix.det h.right
    rw [det_mul, h0, zero_mul, det_one] at this
    exact zero_ne_one this
  rw [svd_shift hA h, det_mul, det_mul, det_transpose, det_diagonal]
  simp only [mul_eq_zero, hd, or_false, false_or, Finset.prod_eq_zero_iff, Finset.mem_univ, true_and]

theorem solve_normal (X : Matrix n d ℝ) (Y : n → ℝ) (w p : ℝ) {V : Matrix d d ℝ} {W : d → ℝ} {Vh : Matrix d d ℝ}
    (h : IsSVD (Xᵀ * X) V W Vh) (hne : ∀ i, W i + w ≠ 0) :
    (Xᵀ * X + w • (1 : Matrix d d ℝ)) *ᵥ solve W Vh X Y w p = Xᵀ *ᵥ Y + fun _ => w * p := by
  have hr' : Vhᵀ * Vh = 1 := mul_eq_one_comm.mp h.right
  unfold solve
  rw [mulVec_mulVec, svd_shift (xtx_psd X) h]
  have : Vhᵀ * diagonal (fun i => W i + w) * Vh * (Vhᵀ * diagonal (fun i => (W i + w)⁻¹) * Vh) = 1 := by
    calc _ = Vhᵀ * diagonal (fun i => W i + w) * (Vh * Vhᵀ) * (diagonal (fun i => (W i + w)⁻¹) * Vh) := by
          simp only [Matrix.mul_assoc]
      _ = Vhᵀ * (diagonal (fun i => W i + w) * diagonal (fun i => (W i + w)⁻¹)) * Vh := by
          rw [h.right, Matrix.mul_one]; simp only [Matrix.mul_assoc]
      _ = 1 := by
          rw [diagonal_mul_diagonal]
          have : (fun i => (W i + w) * (W i + w)⁻¹) = fun _ : d => (1:ℝ) := by
            funext i
            exact mul_inv_cancel₀ (hne i)
          rw [this, diagonal_one, Matrix.mul_one, hr']
  rw [this, one_mulVec]

theorem extremes {D : ℕ} {svd svd' : Svd (Fin (D + 1))} (hs : SvdOk svd) (ho : Sorted svd) (hs' : SvdOk svd') (ho' : Sorted svd')
    {A A' : Matrix (Fin (D + 1)) (Fin (D + 1)) ℝ} (hA : A.PosSemidef) (hA' : A'.PosSemidef) (β : ℝ) (hβ : 0 < β)
    (hd : ∀ v, (A' + (β * v) • (1 : Matrix (Fin (D + 1)) (Fin (D + 1)) ℝ)).det = 0 ↔
      (A + v • (1 : Matrix (Fin (D + 1)) (Fin (D + 1)) ℝ)).det = 0) :
    (svd' A').1 0 = β * (svd A).1 0 ∧ (svd' A').1 (Fin.last D) = β * (svd A).1 (Fin.last D) := by
  obtain ⟨V, hV⟩ := hs A hA
  obtain ⟨V', hV'⟩ := hs' A' hA'
  have to' : ∀ i, ∃ j, (svd' A').1 j = β * (svd A).1 i := by
    intro i
    obtain ⟨j, hj⟩ := (svd_singular hA' hV' _).2 ((hd _).2 ((svd_singular hA hV (-(svd A).1 i)).1 ⟨i, by ring⟩))
    exact ⟨j, by linarith⟩
  have fro : ∀ j, ∃ i, (svd' A').1 j = β * (svd A).1 i := by
    intro j
    have e : -(svd' A').1 j = β * (-(svd' A').1 j / β) := by field_simp
    obtain ⟨i, hi⟩ := (svd_singular hA hV _).2 ((hd (-(svd' A').1 j / β)).1 ((svd_singular hA' hV' _).1 ⟨j, by rw [← e]; ring⟩))
    refine ⟨i, ?_⟩
    have : (svd A).1 i = (svd' A').1 j / β := by rw [neg_div] at hi; linarith
    rw [this]
    field_simp
  constructor
  · obtain ⟨j, hj⟩ := to' 0
    obtain ⟨i, hi⟩ := fro 0
    apply le_antisymm
    · rw [hi]
      exact mul_le_mul_of_nonneg_left (ho A (Fin.zero_le i)) hβ.le
    · rw [← hj]
      exact ho' A' (Fin.zero_le j)
  · obtain ⟨j, hj⟩ := to' (Fin.last D)
    obtain ⟨i, hi⟩ := fro (Fin.last D)
    apply le_antisymm
    · rw [← hj]
      exact ho' A' (Fin.le_last j)
    · rw [hi]
      exact mul_le_mul_of_nonneg_left (ho A (Fin.le_last i)) hβ.le

/-- Data in other units, order and axes: the regularisation found and the coefficients. -/
theorem getLoocv_same {D : ℕ} {svd svd' : Svd (Fin (D + 1))} (hs : SvdOk svd) (ho : Sorted svd) (hs' : SvdOk svd') (ho' : Sorted svd')
    {thin : ThinSvd n (Fin (D + 1)) k} {thin' : ThinSvd n' (Fin (D + 1)) k} (ht : ThinOk thin) (ht' : ThinOk thin') (wsteps rsteps : ℕ)
    (X : Matrix n (Fin (D + 1)) ℝ) (Y : n → ℝ) (p p' b c : ℝ) (hb : b ≠ 0) (hc : c ≠ 0) (f : n' ≃ n)
    (Q : Matrix (Fin (D + 1)) (Fin (D + 1)) ℝ) (hQ : Q * Qᵀ = 1) (hp : (fun _ => p') = (c / b) • Qᵀ *ᵥ fun _ => p) :
    getLoocv svd' thin' wsteps rsteps (b • (X.submatrix f id * Q)) (c • Y ∘ f) p' =
      (getLoocv svd thin wsteps rsteps X Y p).map fun r => (r.1.scale (b ^ 2), r.2.map fun a => (c / b) • Qᵀ *ᵥ a) := by
  have hβ : 0 < b ^ 2 := by positivity
  have hQ' : Qᵀ * Q = 1 := mul_eq_one_comm.mp hQ
  set X' := b • (X.submatrix f id * Q) with hX'
  have hX't : X'ᵀ = b • (Qᵀ * (X.submatrix f id)ᵀ) := by rw [hX', transpose_smul, transpose_mul]
  have hG : X' * X'ᵀ = b ^ 2 • (X * Xᵀ).submatrix f f := by
    rw [hX't, hX', Matrix.smul_mul, Matrix.mul_smul, smul_smul, ← sq]
    congr 1
    calc X.submatrix f id * Q * (Qᵀ * (X.submatrix f id)ᵀ) = X.submatrix f id * (Q * Qᵀ) * (X.submatrix f id)ᵀ := by simp only [Matrix.mul_assoc]
      _ = X.submatrix f id * Xᵀ.submatrix id f := by rw [hQ, Matrix.mul_one, transpose_submatrix]
      _ = _ := by
        ext i j
        simp [mul_apply]
  have hff : (X.submatrix f id)ᵀ * X.submatrix f id = Xᵀ * X := by
    rw [transpose_submatrix]
    have := submatrix_mul_equiv Xᵀ X (id : Fin (D + 1) → Fin (D + 1)) f (id : Fin (D + 1) → Fin (D + 1))
    simpa using this
  have hA' : X'ᵀ * X' = b ^ 2 • (Qᵀ * (Xᵀ * X) * Q) := by
    rw [hX't, hX', Matrix.smul_mul, Matrix.mul_smul, smul_smul, ← sq]
    congr 1
    calc Qᵀ * (X.submatrix f id)ᵀ * (X.submatrix f id * Q) = Qᵀ * ((X.submatrix f id)ᵀ * X.submatrix f id) * Q := by simp only [Matrix.mul_assoc]
      _ = _ := by rw [hff]
  have hshift : ∀ w : ℝ, X'ᵀ * X' + (b ^ 2 * w) • (1 : Matrix (Fin (D + 1)) (Fin (D + 1)) ℝ) =
      b ^ 2 • (Qᵀ * (Xᵀ * X + w • (1 : Matrix (Fin (D + 1)) (Fin (D + 1)) ℝ)) * Q) := by
    intro w
    rw [hA', Matrix.mul_add, Matrix.add_mul, Matrix.mul_smul, Matrix.smul_mul, Matrix.mul_one, hQ', smul_add, smul_smul]
  have hQd : Q.det ≠ 0 := by
    intro h0
    have := congrArg Matrix.det hQ
    rw [det_mul, h0, zero_mul, det_one] at this
    exact zero_ne_one this
  have hd : ∀ w, (X'ᵀ * X' + (b ^ 2 * w) • (1 : Matrix (Fin (D + 1)) (Fin (D + 1)) ℝ)).det = 0 ↔
      (Xᵀ * X + w • (1 : Matrix (Fin (D + 1)) (Fin (D + 1)) ℝ)).det = 0 := by
    intro w
    rw [hshift, det_smul, det_mul, det_mul, det_transpose]
    simp [hQd, hb]
  have hY : ((c • Y ∘ f) - X' *ᵥ fun _ => p') = c • (Y - X *ᵥ fun _ => p) ∘ f := by
    have : X' *ᵥ (fun _ => p') = c • (X *ᵥ fun _ => p) ∘ f := by
      rw [hp, hX', smul_mulVec, mulVec_smul, smul_smul, mul_div_cancel₀ _ hb, mulVec_mulVec, Matrix.mul_assoc, hQ, Matrix.mul_one]
      rfl
    rw [this, ← smul_sub]
    rfl
  obtain ⟨Vt, hVt⟩ := ht X
  obtain ⟨Vt', hVt'⟩ := ht' X'
  obtain ⟨V, hV⟩ := hs _ (xtx_psd X)
  obtain ⟨V', hV'⟩ := hs' _ (xtx_psd X')
  obtain ⟨x1, x2⟩ := extremes hs ho hs' ho' (xtx_psd X) (xtx_psd X') (b ^ 2) hβ hd
  have hE := epe_same hVt hVt' f (b ^ 2) c hβ hc hG Y (c • Y ∘ f) p p' hY
  have hsearch : findOptimal (epeLoocv X' (c • Y ∘ f) p' (thin' X').1 (thin' X').2) ((svd' (X'ᵀ * X')).1 0)
      ((svd' (X'ᵀ * X')).1 (Fin.last D)) wsteps rsteps =
      (findOptimal (epeLoocv X Y p (thin X).1 (thin X).2) ((svd (Xᵀ * X)).1 0) ((svd (Xᵀ * X)).1 (Fin.last D)) wsteps rsteps).map
        (Fl.scale (b ^ 2)) := by
    rw [x1, x2, C245_search_features (fun x => (epeLoocv X Y p (thin X).1 (thin X).2 x).scale |c|) _ b hb hE]
    rw [C245_search_targets (epeLoocv X Y p (thin X).1 (thin X).2) (fun x => (epeLoocv X Y p (thin X).1 (thin X).2 x).scale |c|) |c|
      (abs_pos.2 hc) (fun _ => rfl)]
  unfold getLoocv
  simp only [bind, Except.bind, hsearch]
  cases findOptimal (epeLoocv X Y p (thin X).1 (thin X).2) ((svd (Xᵀ * X)).1 0) ((svd (Xᵀ * X)).1 (Fin.last D)) wsteps rsteps with
  | error e => rfl
  | ok x =>
    cases x with
    | nan => rfl
    | ninf => simp [Except.map, pure, Except.pure, Fl.scale, hb, hβ]
    | pinf => simp [Except.map, pure, Except.pure, Fl.scale, hb, hβ]
    | fin w =>
      simp only [Except.map, pure, Except.pure, Fl.scale, Except.ok.injEq, Prod.mk.injEq, true_and]
      have hiff : (∃ i, (svd' (X'ᵀ * X')).1 i + b ^ 2 * w = 0) ↔ ∃ i, (svd (Xᵀ * X)).1 i + w = 0 := by
        rw [svd_singular (xtx_psd X') hV', svd_singular (xtx_psd X) hV, hd]
      by_cases hne : ∃ i, (svd (Xᵀ * X)).1 i + w = 0
      · rw [if_pos (hiff.2 hne), if_pos hne]; rfl
      · rw [if_neg (mt hiff.1 hne), if_neg hne]
        have hne' := mt hiff.1 hne
        have hu : IsUnit (X'ᵀ * X' + (b ^ 2 * w) • (1 : Matrix (Fin (D + 1)) (Fin (D + 1)) ℝ)) := by
          rw [isUnit_iff_isUnit_det, isUnit_iff_ne_zero, Ne, ← svd_singular (xtx_psd X') hV']
          exact hne'
        push Not at hne hne'
        simp only [Option.map_some, Option.some.injEq]
        have e1 := solve_normal X' (c • Y ∘ f) (b ^ 2 * w) p' hV' hne'
        have e2 := solve_normal X Y w p hV hne
        apply mulVec_injective_of_isUnit hu
        refine e1.trans ?_
        rw [hshift, smul_mulVec, mulVec_smul (Qᵀ * _ * Q), mulVec_mulVec, Matrix.mul_assoc, hQ, Matrix.mul_one, ← mulVec_mulVec]
        change _ = b ^ 2 • ((c / b) • (Qᵀ *ᵥ ((Xᵀ * X + w • (1 : Matrix (Fin (D + 1)) (Fin (D + 1)) ℝ)) *ᵥ
          solve (svd (Xᵀ * X)).1 (svd (Xᵀ * X)).2 X Y w p)))
        rw [e2, smul_smul, mulVec_add, smul_add]
        have cb : b ^ 2 * (c / b) = b * c := by field_simp
        congr 1
        · rw [hX't, smul_mulVec, mulVec_smul, smul_smul, cb, ← mulVec_mulVec, transpose_submatrix]
          congr 2
          funext i
          simp only [mulVec, dotProduct, submatrix_apply, id, Function.comp]
          exact f.sum_comp fun j => Xᵀ i j * Y j
        · have h1 : (fun _ : Fin (D + 1) => b ^ 2 * w * p') = (b ^ 2 * w) • fun _ => p' := rfl
          have h2 : (fun _ : Fin (D + 1) => w * p) = w • fun _ => p := rfl
          rw [h1, h2, hp, mulVec_smul, smul_smul, smul_smul]
          congr 1
          ring

/-- C245, from data to coefficients: with features multiplied by `b` and targets by `c`, `get_coefficients` with leave-one-out cross
validation finds a regularisation `b²` times as large and coefficients `c / b` times as large, and fails if it failed before, whatever
singular value decompositions are returned. -/
theorem C245_get_units {D : ℕ} (svd svd' : Svd (Fin (D + 1))) (hs : SvdOk svd) (ho : Sorted svd) (hs' : SvdOk svd') (ho' : Sorted svd')
    (thin thin' : ThinSvd n (Fin (D + 1)) k) (ht : ThinOk thin) (ht' : ThinOk thin') (wsteps rsteps : ℕ)
    (X : Matrix n (Fin (D + 1)) ℝ) (Y : n → ℝ) (p b c : ℝ) (hb : b ≠ 0) (hc : c ≠ 0) :
    getLoocv svd' thin' wsteps rsteps (b • X) (c • Y) (c / b * p) =
      (getLoocv svd thin wsteps rsteps X Y p).map fun r => (r.1.scale (b ^ 2), r.2.map fun a => (c / b) • a) := by
  have := getLoocv_same hs ho hs' ho' ht ht' wsteps rsteps X Y p (c / b * p) b c hb hc (Equiv.refl n) 1 (by simp)
    (by rw [transpose_one, one_mulVec]; rfl)
  simpa using this

/-- C245, from data to coefficients: `get_coefficients` of reordered features and data points finds the same regularisation and the
reordered coefficients. -/
theorem C245_get_order {D : ℕ} (svd svd' : Svd (Fin (D + 1))) (hs : SvdOk svd) (ho : Sorted svd) (hs' : SvdOk svd') (ho' : Sorted svd')
    (thin : ThinSvd n (Fin (D + 1)) k) (thin' : ThinSvd n' (Fin (D + 1)) k) (ht : ThinOk thin) (ht' : ThinOk thin') (wsteps rsteps : ℕ)
    (X : Matrix n (Fin (D + 1)) ℝ) (Y : n → ℝ) (p : ℝ) (f : n' ≃ n) (e : Equiv.Perm (Fin (D + 1))) :
    getLoocv svd' thin' wsteps rsteps (X.submatrix f e) (Y ∘ f) p =
      (getLoocv svd thin wsteps rsteps X Y p).map fun r => (r.1, r.2.map fun a => a ∘ e) := by
  have hq : ∀ a : Fin (D + 1) → ℝ, ((1 : Matrix (Fin (D + 1)) (Fin (D + 1)) ℝ).submatrix id e)ᵀ *ᵥ a = a ∘ e := by
    intro a
    funext i
    simp [mulVec, dotProduct, one_apply]
  have := getLoocv_same hs ho hs' ho' ht ht' wsteps rsteps X Y p p 1 1 one_ne_zero one_ne_zero f
    ((1 : Matrix (Fin (D + 1)) (Fin (D + 1)) ℝ).submatrix id e)
    (by rw [transpose_submatrix, submatrix_mul_equiv]; simp) (by rw [hq]; simp; rfl)
  simp only [hq] at this
  have e1 : X.submatrix f id * (1 : Matrix (Fin (D + 1)) (Fin (D + 1)) ℝ).submatrix id e = X.submatrix f e := by
    ext i j
    simp [mul_apply, one_apply]
  have e2 : ∀ x : Fl, x.scale 1 = x := by
    intro x
    cases x <;> simp [Fl.scale]
  simpa [e1, e2] using this

/-- C245, from data to coefficients: without a prior, `get_coefficients` of features in other orthogonal axes finds the same
regularisation and the coefficients in these axes, so that predictions are the same. -/
theorem C245_get_axes {D : ℕ} (svd svd' : Svd (Fin (D + 1))) (hs : SvdOk svd) (ho : Sorted svd) (hs' : SvdOk svd') (ho' : Sorted svd')
    (thin thin' : ThinSvd n (Fin (D + 1)) k) (ht : ThinOk thin) (ht' : ThinOk thin') (wsteps rsteps : ℕ)
    (X : Matrix n (Fin (D + 1)) ℝ) (Y : n → ℝ) (Q : Matrix (Fin (D + 1)) (Fin (D + 1)) ℝ) (hQ : Q * Qᵀ = 1) {m : Type}
    (T : Matrix m (Fin (D + 1)) ℝ) :
    (getLoocv svd' thin' wsteps rsteps (X * Q) Y 0).map (fun r => (r.1, r.2.map fun a => predict a (T * Q))) =
      (getLoocv svd thin wsteps rsteps X Y 0).map fun r => (r.1, r.2.map fun a => predict a T) := by
  have := getLoocv_same hs ho hs' ho' ht ht' wsteps rsteps X Y 0 0 1 1 one_ne_zero one_ne_zero (Equiv.refl n) Q hQ
    (by
      have : (fun _ : Fin (D + 1) => (0 : ℝ)) = 0 := rfl
      rw [this, mulVec_zero, smul_zero])
  have e2 : ∀ x : Fl, x.scale (1 ^ 2) = x := by
    intro x
    cases x <;> simp [Fl.scale]
  have e3 : (1 : ℝ) • (X.submatrix (Equiv.refl n) id * Q) = X * Q := by simp
  have e4 : (1 : ℝ) • Y ∘ (Equiv.refl n) = Y := by simp
  rw [e3, e4] at this
  rw [this]
  cases getLoocv svd thin wsteps rsteps X Y 0 with
  | error e => rfl
  | ok r =>
    simp only [Except.map, e2, Option.map_map, Except.ok.injEq, Prod.mk.injEq, true_and]
    congr 1
    funext a
    simp only [Function.comp, predict, div_one, one_smul]
    rw [mulVec_mulVec, Matrix.mul_assoc, hQ, Matrix.mul_one]

/-! ### The result -/

theorem epe_pos (X : Matrix n d ℝ) (Y : n → ℝ) (p : ℝ) {U : Matrix n k ℝ} {W : k → ℝ} {Vh : Matrix k d ℝ} (h : IsThinSVD X U W Vh)
    (w : ℝ) (hw : 0 < w) : epeLoocv X Y p U W (.fin w) = .fin (loocv X Y p w U W) := by
  have hne : ∀ i, W i ^ 2 + w ≠ 0 := fun i => by positivity
  have hpd : (X * Xᵀ + w • (1 : Matrix n n ℝ)).PosDef := by simpa using reg_posDef Xᵀ hw
  have hu : IsUnit (X * Xᵀ + w • (1 : Matrix n n ℝ)).det := (isUnit_iff_isUnit_det _).1 hpd.isUnit
  have hP : 1 - U * diagonal (fun i => (W i ^ 2 + w)⁻¹ * W i ^ 2) * Uᵀ = w • (X * Xᵀ + w • (1 : Matrix n n ℝ))⁻¹ := by
    have e : (X * Xᵀ + w • (1 : Matrix n n ℝ)) * (1 - U * diagonal (fun i => (W i ^ 2 + w)⁻¹ * W i ^ 2) * Uᵀ) = w • 1 := by
      rw [Matrix.mul_sub, hat_normal h w hne, Matrix.mul_one, add_sub_cancel_left]
    calc _ = (X * Xᵀ + w • (1 : Matrix n n ℝ))⁻¹ * ((X * Xᵀ + w • (1 : Matrix n n ℝ)) *
          (1 - U * diagonal (fun i => (W i ^ 2 + w)⁻¹ * W i ^ 2) * Uᵀ)) := by rw [← Matrix.mul_assoc, nonsing_inv_mul _ hu, Matrix.one_mul]
      _ = _ := by rw [e, Matrix.mul_smul, Matrix.mul_one]
  have hd : ¬ ∃ i, ((1 : Matrix n n ℝ) - U * diagonal (fun i => (W i ^ 2 + w)⁻¹ * W i ^ 2) * Uᵀ) i i = 0 := by
    rintro ⟨i, hi⟩
    rw [hP, Matrix.smul_apply, smul_eq_mul] at hi
    have := hpd.inv.diag_pos (i := i)
    exact (mul_pos hw this).ne' hi
  have hn : ¬ ∃ i, W i ^ 2 + w = 0 := by push Not; exact hne
  simp only [epeLoocv, loocvFrom, loocv, if_neg hd, if_neg hn]

/-- C102, from data to coefficients (`_partial`: for independent features and at least two values on the grid): on a new object,
`get_coefficients` finds a positive regularisation whose leave-one-out error (of ridge regressions without each data point) is not larger
than that of any value on the initial grid, and returns the coefficients that minimise the cost with this regularisation, which no others do. -/
theorem C102_fit_partial {D : ℕ} (svd : Svd (Fin (D + 1))) (hs : SvdOk svd) (thin : ThinSvd n (Fin (D + 1)) k) (ht : ThinOk thin)
    (wsteps rsteps : ℕ) (hw : 2 ≤ wsteps ∨ rsteps = 0) (X : Matrix n (Fin (D + 1)) ℝ) (hX : (Xᵀ * X).det ≠ 0) (Y : n → ℝ) (p : ℝ) :
    ∃ (e : ℝ → ℝ) (w : ℝ) (a : Fin (D + 1) → ℝ), getLoocv svd thin wsteps (rsteps + 1) X Y p = .ok (.fin w, some a) ∧ 0 < w ∧
      (∀ v > 0, e v = Real.sqrt ((Fintype.card n : ℝ)⁻¹ * ∑ i,
        (Y i - predict (rr svd ⟨none, none⟩ (dropRow X i) (fun j => Y j.1) v p false).1 X i) ^ 2)) ∧
      e w ≤ e (1e-6 * ((svd (Xᵀ * X)).1 (Fin.last D) * 0.5)) ∧ e w ≤ e (1e6 * ((svd (Xᵀ * X)).1 0 * 2)) ∧
      (∀ i < wsteps, e w ≤ e (Real.exp (Real.log ((svd (Xᵀ * X)).1 (Fin.last D) * 0.5) +
        i * ((Real.log ((svd (Xᵀ * X)).1 0 * 2) - Real.log ((svd (Xᵀ * X)).1 (Fin.last D) * 0.5)) / (wsteps - 1 : ℕ))))) ∧
      ∀ a', a' ≠ a → ridgeCost X Y w p a < ridgeCost X Y w p a' := by
  obtain ⟨V, hV⟩ := hs _ (xtx_psd X)
  obtain ⟨Vt, hVt⟩ := ht X
  have hpos : ∀ i, 0 < (svd (Xᵀ * X)).1 i := by
    intro i
    refine lt_of_le_of_ne (hV.nonneg i) fun h0 => hX ?_
    have := (svd_singular (xtx_psd X) hV 0).1 ⟨i, by rw [← h0]; ring⟩
    simpa using this
  obtain ⟨w, h1, h2, h3, h4, h5⟩ := C102_search_partial (epeLoocv X Y p (thin X).1 (thin X).2) (fun v => loocv X Y p v (thin X).1 (thin X).2)
    (fun v hv => epe_pos X Y p hVt v hv) _ _ (hpos 0) (hpos (Fin.last D)) wsteps rsteps hw
  have hne : ¬ ∃ i, (svd (Xᵀ * X)).1 i + w = 0 := by
    rintro ⟨i, hi⟩
    have := hpos i
    linarith
  refine ⟨fun v => loocv X Y p v (thin X).1 (thin X).2, w, fit svd X Y w p, ?_, h2, fun v hv => C39_loocv svd hs X Y v p hv _ _ Vt hVt, h3, h4, h5, ?_⟩
  · unfold getLoocv
    simp only [bind, Except.bind, h1, if_neg hne]
    rfl
  · exact C38_unique_minimiser svd ⟨none, none⟩ X Y w p h2 false (Or.inl rfl) V hV

/-- C102 is violated for features that are not independent: whatever the data, the coefficients `get_coefficients` returns are not
numbers. -/
theorem C102_fit_violated {D : ℕ} (svd : Svd (Fin (D + 1))) (hs : SvdOk svd) (ho : Sorted svd) (thin : ThinSvd n (Fin (D + 1)) k)
    (wsteps rsteps : ℕ) (hw : 2 ≤ wsteps) (X : Matrix n (Fin (D + 1)) ℝ) (hX : (Xᵀ * X).det = 0) (Y : n → ℝ) (p : ℝ) :
    ∃ x, getLoocv svd thin wsteps (rsteps + 1) X Y p = .ok (x, none) := by
  obtain ⟨V, hV⟩ := hs _ (xtx_psd X)
  have h0 : (svd (Xᵀ * X)).1 (Fin.last D) = 0 := by
    obtain ⟨i, hi⟩ := (svd_singular (xtx_psd X) hV 0).2 (by simpa using hX)
    rw [add_zero] at hi
    exact le_antisymm (hi ▸ ho _ (Fin.le_last i)) (hV.nonneg _)
  unfold getLoocv
  simp only [bind, Except.bind, h0]
  rcases C102_singular_violated (epeLoocv X Y p (thin X).1 (thin X).2) rfl ((svd (Xᵀ * X)).1 0) wsteps rsteps hw with h | ⟨h, -⟩
  · rw [h]; exact ⟨_, rfl⟩
  · rw [h]
    refine ⟨.fin 0, ?_⟩
    simp only [if_pos (show ∃ i, (svd (Xᵀ * X)).1 i + 0 = 0 from ⟨Fin.last D, by rw [h0, add_zero]⟩)]
    rfl

/-! ### The decompositions exist -/

theorem sorted_exists (D : ℕ) : ∃ svd : Svd (Fin (D + 1)), SvdOk svd ∧ Sorted svd := by
  obtain ⟨svd, hs⟩ := svdOk_exists (d := Fin (D + 1))
  let σ : Matrix (Fin (D + 1)) (Fin (D + 1)) ℝ → Equiv.Perm (Fin (D + 1)) := fun A => Tuple.sort fun i => -(svd A).1 i
  refine ⟨fun A => ((svd A).1 ∘ σ A, (svd A).2.submatrix (σ A) id), fun A hA => ?_, fun A i j hij => ?_⟩
  · obtain ⟨V, hV⟩ := hs A hA
    refine ⟨V.submatrix id (σ A), ?_, ?_, fun i => hV.nonneg _, ?_⟩
    · rw [transpose_submatrix]
      have := submatrix_mul_equiv Vᵀ V (σ A) (Equiv.refl _) (σ A)
      rw [hV.left] at this
      simpa using this
    · rw [transpose_submatrix]
      have := submatrix_mul_equiv (svd A).2 (svd A).2ᵀ (σ A) (Equiv.refl _) (σ A)
      rw [hV.right] at this
      simpa using this
    · have e : diagonal ((svd A).1 ∘ σ A) = (diagonal (svd A).1).submatrix (σ A) (σ A) := by
        ext i j
        simp [diagonal_apply]
      simp only [e]
      rw [submatrix_mul_equiv, submatrix_mul_equiv, hV.prod, submatrix_id_id]
  · have := Tuple.monotone_sort (fun i => -(svd A).1 i) hij
    simpa [σ] using this

/-- A matrix with at least as many rows as columns has a singular value decomposition. -/
theorem exists_thin (g : d ↪ n) (X : Matrix n d ℝ) : ∃ (U : Matrix n d ℝ) (W : d → ℝ) (Vh : Matrix d d ℝ), IsThinSVD X U W Vh := by
  obtain ⟨V, L, Q, hq⟩ := exists_svd (xtx_psd X)
  have hd := svd_psd (xtx_psd X) hq
  have hQ' : Qᵀ * Q = 1 := mul_eq_one_comm.mp hq.right
  have hXQ : (X * Qᵀ)ᵀ * (X * Qᵀ) = diagonal L := by
    rw [transpose_mul, transpose_transpose]
    calc Q * Xᵀ * (X * Qᵀ) = Q * (Xᵀ * X) * Qᵀ := by simp only [Matrix.mul_assoc]
      _ = (Q * Qᵀ) * diagonal L * (Q * Qᵀ) := by rw [← hd]; simp only [Matrix.mul_assoc]
      _ = diagonal L := by rw [hq.right, Matrix.one_mul, Matrix.mul_one]
  have hin : ∀ i j, ∑ a, (X * Qᵀ) a i * (X * Qᵀ) a j = if i = j then L i else 0 := by
    intro i j
    have := congrFun (congrFun hXQ i) j
    rw [mul_apply, diagonal_apply] at this
    simpa using this
  let u : d → EuclideanSpace ℝ n := fun i => WithLp.toLp 2 fun a => (Real.sqrt (L i))⁻¹ * (X * Qᵀ) a i
  let v : n → EuclideanSpace ℝ n := Function.extend g u 0
  have hv : ∀ i, v (g i) = u i := fun i => g.injective.extend_apply u 0 i
  have hu : ∀ i j, L i ≠ 0 → inner ℝ (u i) (u j) = if i = j then (1 : ℝ) else 0 := by
    intro i j hi
    have e : inner ℝ (u i) (u j) = (Real.sqrt (L i))⁻¹ * (Real.sqrt (L j))⁻¹ * ∑ a, (X * Qᵀ) a i * (X * Qᵀ) a j := by
      rw [PiLp.inner_apply, Finset.mul_sum]
      apply Finset.sum_congr rfl
      intro a _
      simp only [u, RCLike.inner_apply, conj_trivial]
      ring
    rw [e, hin]
    by_cases hij : i = j
    · subst hij
      rw [if_pos rfl, if_pos rfl, ← mul_inv, Real.mul_self_sqrt (hq.nonneg i), inv_mul_cancel₀ hi]
    · rw [if_neg hij, if_neg hij, mul_zero]
  obtain ⟨b, hb⟩ := Orthonormal.exists_orthonormalBasis_extension_of_card_eq (𝕜 := ℝ) (E := EuclideanSpace ℝ n) (ι := n) (by simp)
    (v := v) (s := g '' {i | L i ≠ 0}) (by
      rw [orthonormal_iff_ite]
      rintro ⟨_, i, hi, rfl⟩ ⟨_, j, hj, rfl⟩
      simp only [Set.restrict_apply, hv]
      rw [hu i j hi]
      by_cases hij : i = j
      · subst hij; simp
      · rw [if_neg hij, if_neg]
        intro h
        exact hij (g.injective (Subtype.mk.inj h)))
  let U : Matrix n d ℝ := Matrix.of fun a i => (b (g i)).ofLp a
  refine ⟨U, fun i => Real.sqrt (L i), Q, ?_, hq.right, fun i => Real.sqrt_nonneg _, ?_⟩
  · ext i j
    have := orthonormal_iff_ite.1 b.orthonormal (g i) (g j)
    rw [PiLp.inner_apply] at this
    simp only [RCLike.inner_apply, conj_trivial, g.injective.eq_iff] at this
    rw [mul_apply, one_apply, ← this]
    exact Finset.sum_congr rfl fun a _ => mul_comm _ _
  · have e : U * diagonal (fun i => Real.sqrt (L i)) = X * Qᵀ := by
      ext a i
      rw [mul_diagonal]
      change (b (g i)).ofLp a * Real.sqrt (L i) = _
      by_cases hi : L i = 0
      · have h0 := hin i i
        rw [if_pos rfl, hi] at h0
        have := (Finset.sum_eq_zero_iff_of_nonneg fun a _ => mul_self_nonneg _).1 h0 a (Finset.mem_univ a)
        rw [hi, Real.sqrt_zero, mul_zero, mul_self_eq_zero.1 this]
      · have hpos : Real.sqrt (L i) ≠ 0 := by
          rw [Ne, Real.sqrt_eq_zero (hq.nonneg i)]
          exact hi
        rw [hb (g i) ⟨i, hi, rfl⟩, hv]
        simp only [u]
        field_simp
    rw [e, Matrix.mul_assoc, hQ', Matrix.mul_one]

theorem thin_exists (g : d ↪ n) : ∃ thin : ThinSvd n d d, ThinOk thin :=
  ⟨fun X => ((exists_thin g X).choose, (exists_thin g X).choose_spec.choose), fun X =>
    ⟨(exists_thin g X).choose_spec.choose_spec.choose, (exists_thin g X).choose_spec.choose_spec.choose_spec⟩⟩

example : ∃ (svd : Svd (Fin 2)) (thin : ThinSvd (Fin 3) (Fin 2) (Fin 2)), SvdOk svd ∧ Sorted svd ∧ ThinOk thin ∧
    ((!![1, 0; 0, 2; 1, 1] : Matrix (Fin 3) (Fin 2) ℝ)ᵀ * (!![1, 0; 0, 2; 1, 1] : Matrix (Fin 3) (Fin 2) ℝ)).det ≠ 0 ∧
    ((!![1, 2; 0, 0; 1, 2] : Matrix (Fin 3) (Fin 2) ℝ)ᵀ * (!![1, 2; 0, 0; 1, 2] : Matrix (Fin 3) (Fin 2) ℝ)).det = 0 := by
  obtain ⟨svd, h1, h2⟩ := sorted_exists 1
  obtain ⟨thin, h3⟩ := thin_exists (n := Fin 3) (d := Fin 2) (Fin.castLEEmb (by norm_num))
  refine ⟨svd, thin, h1, h2, h3, ?_, ?_⟩
  · rw [det_fin_two]
    simp [mul_apply, Fin.sum_univ_succ]
    norm_num
  · rw [det_fin_two]
    simp [mul_apply, Fin.sum_univ_succ]
    norm_num

end CatLearn.RidgeSearch
