import Verif.Spec.Linalg
import Mathlib.Algebra.Order.Star.Real
import Mathlib.Analysis.Matrix.PosDef
import Mathlib.Analysis.Matrix.Order

namespace CatLearn.Linalg

open Matrix

variable {n d k : Type} [Fintype n] [Fintype d] [Fintype k] [DecidableEq n] [DecidableEq d] [DecidableEq k]

open scoped MatrixOrder in
/-- A positive semidefinite matrix is determined by its square. -/
theorem psd_sq_inj {A B : Matrix d d ℝ} (hA : A.PosSemidef) (hB : B.PosSemidef) (h : A * A = B * B) : A = B := by
  have hAs : Aᵀ = A := by simpa using hA.isHermitian.eq
  have hBs : Bᵀ = B := by simpa using hB.isHermitian.eq
  set D := A - B with hD
  have hDs : Dᵀ = D := by rw [hD, transpose_sub, hAs, hBs]
  have h1 : D * A + B * D = 0 := by
    rw [hD, Matrix.sub_mul, Matrix.mul_sub, h]; abel
  have pA : (D * A * D).PosSemidef := by
    have := hA.conjTranspose_mul_mul_same D
    rwa [conjTranspose_eq_transpose_of_trivial, hDs] at this
  have pB : (D * B * D).PosSemidef := by
    have := hB.conjTranspose_mul_mul_same D
    rwa [conjTranspose_eq_transpose_of_trivial, hDs] at this
  have htr : (D * A * D).trace + (D * B * D).trace = 0 := by
    have h2 : D * (D * A + B * D) = 0 := by rw [h1, Matrix.mul_zero]
    have h3 := congrArg trace h2
    rw [Matrix.mul_add, trace_add, trace_zero] at h3
    rw [← h3]
    congr 1
    · rw [trace_mul_comm (D * A) D]
    · rw [Matrix.mul_assoc]
  have zA : (D * A * D).trace = 0 := by linarith [pA.trace_nonneg, pB.trace_nonneg]
  have zB : (D * B * D).trace = 0 := by linarith [pA.trace_nonneg, pB.trace_nonneg]
  have key : ∀ M : Matrix d d ℝ, M.PosSemidef → (D * M * D).trace = 0 → D * M * D = 0 := by
    intro M hM hz
    obtain ⟨C, hC⟩ := CStarAlgebra.nonneg_iff_eq_star_mul_self.mp hM.nonneg
    have e : D * M * D = (C * D)ᴴ * (C * D) := by
      rw [hC, star_eq_conjTranspose, conjTranspose_mul, conjTranspose_eq_transpose_of_trivial D, hDs]
      simp only [Matrix.mul_assoc]
    rw [e, trace_conjTranspose_mul_self_eq_zero_iff] at hz
    rw [e, hz, Matrix.mul_zero]
  replace zA := key A hA zA
  replace zB := key B hB zB
  have h3 : D * D * D = 0 := by
    have : D * D * D = D * A * D - D * B * D := by
      rw [← Matrix.sub_mul, ← Matrix.mul_sub]
    rw [this, zA, zB, sub_zero]
  have hz : ∀ M : Matrix d d ℝ, Mᵀ * M = 0 → M = 0 := by
    intro M hM
    have := conjTranspose_mul_self_eq_zero (A := M)
    rw [conjTranspose_eq_transpose_of_trivial] at this
    exact this.mp hM
  have h4 : D * D = 0 := by
    apply hz
    rw [transpose_mul, hDs, ← Matrix.mul_assoc, h3, Matrix.zero_mul]
  have h5 : D = 0 := by
    apply hz
    rw [hDs, h4]
  exact sub_eq_zero.mp h5

/-- The right factor of a singular value decomposition of a positive semidefinite matrix diagonalises it. -/
theorem svd_psd {A V : Matrix d d ℝ} {W : d → ℝ} {Vh : Matrix d d ℝ} (hA : A.PosSemidef) (h : IsSVD A V W Vh) :
    Vhᵀ * diagonal W * Vh = A := by
  have hAs : Aᵀ = A := by simpa using hA.isHermitian.eq
  apply psd_sq_inj _ hA
  · have h1 : Vhᵀ * diagonal W * Vh * (Vhᵀ * diagonal W * Vh) = Vhᵀ * (diagonal W * diagonal W) * Vh := by
      calc _ = Vhᵀ * diagonal W * (Vh * Vhᵀ) * (diagonal W * Vh) := by simp only [Matrix.mul_assoc]
        _ = _ := by rw [h.right, Matrix.mul_one]; simp only [Matrix.mul_assoc]
    have h2 : A * A = Vhᵀ * (diagonal W * diagonal W) * Vh := by
      calc A * A = Aᵀ * A := by rw [hAs]
        _ = Vhᵀ * diagonal W * (Vᵀ * V) * (diagonal W * Vh) := by
          rw [← h.prod]
          simp only [transpose_mul, diagonal_transpose, Matrix.mul_assoc]
        _ = _ := by rw [h.left, Matrix.mul_one]; simp only [Matrix.mul_assoc]
    rw [h1, h2]
  · have := (PosSemidef.diagonal (d := W) h.nonneg).conjTranspose_mul_mul_same Vh
    rwa [conjTranspose_eq_transpose_of_trivial] at this

omit [DecidableEq n] [DecidableEq d] in
theorem xtx_psd (X : Matrix n d ℝ) : (Xᵀ * X).PosSemidef := by
  have := posSemidef_conjTranspose_mul_self X
  rwa [conjTranspose_eq_transpose_of_trivial] at this

omit [DecidableEq n] in
theorem reg_posDef (X : Matrix n d ℝ) {w : ℝ} (hw : 0 < w) : (Xᵀ * X + w • (1 : Matrix d d ℝ)).PosDef :=
  PosDef.posSemidef_add (xtx_psd X) (PosDef.one.smul hw)

/-- Positive definite matrices act injectively. -/
theorem posDef_mulVec_inj {A : Matrix d d ℝ} (hA : A.PosDef) {a b : d → ℝ} (h : A *ᵥ a = A *ᵥ b) : a = b := by
  have := hA.isUnit
  exact (Matrix.mulVec_injective_iff_isUnit.mpr this) h

/-- The spectral theorem: a positive semidefinite matrix has a singular value decomposition. -/
theorem exists_svd {A : Matrix d d ℝ} (hA : A.PosSemidef) : ∃ V W Vh, IsSVD A V W Vh := by
  have hs := hA.isHermitian.spectral_theorem
  set U : Matrix d d ℝ := (hA.isHermitian.eigenvectorUnitary : Matrix d d ℝ) with hU
  have h1 : Uᵀ * U = 1 := by
    have := hA.isHermitian.eigenvectorUnitary.2
    have := (Matrix.mem_unitaryGroup_iff'.mp this)
    simpa [star_eq_conjTranspose, conjTranspose_eq_transpose_of_trivial] using this
  refine ⟨U, hA.isHermitian.eigenvalues, Uᵀ, h1, by simpa using h1, hA.eigenvalues_nonneg, ?_⟩
  rw [Unitary.conjStarAlgAut_apply] at hs
  have e : (RCLike.ofReal ∘ hA.isHermitian.eigenvalues : d → ℝ) = hA.isHermitian.eigenvalues := rfl
  rw [e] at hs
  exact hs.symm

end CatLearn.Linalg
