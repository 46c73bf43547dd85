import Mathlib.LinearAlgebra.Matrix.NonsingularInverse
import Mathlib.LinearAlgebra.Matrix.PosDef
import Mathlib.Analysis.Matrix.PosDef
import Mathlib.Analysis.Matrix.Order
import Mathlib.Algebra.Order.Star.Real
import Mathlib.Tactic.Linarith
import Mathlib.Tactic.NoncommRing
import Mathlib.Logic.Equiv.Fin.Basic
import Mathlib.Logic.Equiv.Option

/-!
# Matrices and Gaussian posteriors
-/

namespace CatLearn.Proc

open Matrix

variable {n m : Type} [Fintype n] [DecidableEq n] [Fintype m] [DecidableEq m]

/-- The posterior mean. -/
noncomputable def postMean (K : Matrix n n ℝ) (k y : n → ℝ) : ℝ := k ⬝ᵥ (K⁻¹ *ᵥ y)

/-- The posterior variance from the prior variance. -/
noncomputable def postVar (c : ℝ) (K : Matrix n n ℝ) (k : n → ℝ) : ℝ := c - (k ᵥ* K⁻¹) ⬝ᵥ k

theorem posDef_of_posSemidef {K : Matrix n n ℝ} (h : K.PosSemidef) (hu : IsUnit K.det) : K.PosDef :=
  h.posDef_iff_isUnit.mpr ((Matrix.isUnit_iff_isUnit_det K).mpr hu)

theorem form_expand {K : Matrix n n ℝ} (hs : K.IsSymm) (hu : IsUnit K.det) (c : ℝ) (k w : n → ℝ) :
    c - 2 * (w ⬝ᵥ k) + w ⬝ᵥ K *ᵥ w =
      postVar c K k + (w - K⁻¹ *ᵥ k) ⬝ᵥ K *ᵥ (w - K⁻¹ *ᵥ k) := by
  have h1 : K *ᵥ (K⁻¹ *ᵥ k) = k := by rw [mulVec_mulVec, mul_nonsing_inv _ hu, one_mulVec]
  have hsi : K⁻¹.IsSymm := by
    unfold Matrix.IsSymm
    rw [transpose_nonsing_inv, hs]
  have h2 : k ᵥ* K⁻¹ = K⁻¹ *ᵥ k := by
    conv_lhs => rw [← hsi]
    rw [vecMul_transpose]
  have h3 : (K⁻¹ *ᵥ k) ⬝ᵥ K *ᵥ w = k ⬝ᵥ w := by
    rw [dotProduct_mulVec, ← mulVec_transpose, hs, h1]
  unfold postVar
  rw [mulVec_sub, sub_dotProduct, dotProduct_sub, dotProduct_sub, h1, h3, h2, dotProduct_comm k w]
  ring

theorem postVar_le_form {K : Matrix n n ℝ} (hs : K.PosSemidef) (hu : IsUnit K.det) (c : ℝ) (k w : n → ℝ) :
    postVar c K k ≤ c - 2 * (w ⬝ᵥ k) + w ⬝ᵥ K *ᵥ w := by
  have hsym : K.IsSymm := by
    have := hs.1
    rwa [Matrix.IsHermitian, conjTranspose_eq_transpose_of_trivial] at this
  rw [form_expand hsym hu]
  have := hs.dotProduct_mulVec_nonneg (w - K⁻¹ *ᵥ k)
  simp only [star_trivial] at this
  linarith

theorem postVar_eq_form {K : Matrix n n ℝ} (hs : K.IsSymm) (hu : IsUnit K.det) (c : ℝ) (k : n → ℝ) :
    postVar c K k = c - 2 * ((K⁻¹ *ᵥ k) ⬝ᵥ k) + (K⁻¹ *ᵥ k) ⬝ᵥ K *ᵥ (K⁻¹ *ᵥ k) := by
  rw [form_expand hs hu]
  simp

theorem postVar_le {K : Matrix n n ℝ} (hs : K.PosSemidef) (hu : IsUnit K.det) (c : ℝ) (k : n → ℝ) :
    postVar c K k ≤ c := by
  simpa using postVar_le_form hs hu c k 0

/-- Conditioning on more data. -/
theorem postVar_mono {K1 : Matrix n n ℝ} {K2 : Matrix (n ⊕ m) (n ⊕ m) ℝ} (h1 : K1.IsSymm) (u1 : IsUnit K1.det)
    (h2 : K2.PosSemidef) (u2 : IsUnit K2.det) (he : ∀ i j, K2 (.inl i) (.inl j) = K1 i j) (c : ℝ) (k1 : n → ℝ)
    (k2 : m → ℝ) : postVar c K2 (Sum.elim k1 k2) ≤ postVar c K1 k1 := by
  rw [postVar_eq_form h1 u1]
  have := postVar_le_form h2 u2 c (Sum.elim k1 k2) (Sum.elim (K1⁻¹ *ᵥ k1) 0)
  refine this.trans (le_of_eq ?_)
  congr 1
  · congr 2
    simp [dotProduct, Fintype.sum_sum_type]
  · simp [dotProduct, mulVec, Fintype.sum_sum_type, he]

/-- Renaming the training points. -/
theorem postMean_reindex (e : n ≃ m) (K : Matrix m m ℝ) (k y : m → ℝ) :
    postMean (K.submatrix e e) (k ∘ e) (y ∘ e) = postMean K k y := by
  unfold postMean
  rw [inv_submatrix_equiv, submatrix_mulVec_equiv]
  simp only [Function.comp_assoc, Equiv.self_comp_symm, Function.comp_id]
  simp only [dotProduct, Function.comp_apply]
  exact Equiv.sum_comp e fun j => k j * (K⁻¹ *ᵥ y) j

theorem postVar_reindex (e : n ≃ m) (c : ℝ) (K : Matrix m m ℝ) (k : m → ℝ) :
    postVar c (K.submatrix e e) (k ∘ e) = postVar c K k := by
  unfold postVar
  rw [inv_submatrix_equiv]
  congr 1
  rw [← dotProduct_mulVec, ← dotProduct_mulVec, submatrix_mulVec_equiv]
  simp only [Function.comp_assoc, Equiv.self_comp_symm, Function.comp_id]
  simp only [dotProduct, Function.comp_apply]
  exact Equiv.sum_comp e fun j => k j * (K⁻¹ *ᵥ k) j

/-- A rearrangement of a list comes from a renaming of the positions. -/
theorem perm_equiv {α : Type} {l l' : List α} (h : l.Perm l') :
    ∃ e : Fin l.length ≃ Fin l'.length, ∀ i, l.get i = l'.get (e i) := by
  induction h with
  | nil => exact ⟨Equiv.refl _, fun i => rfl⟩
  | @cons a l l' _ ih =>
    obtain ⟨e, he⟩ := ih
    refine ⟨(finSuccEquiv l.length).trans ((Equiv.optionCongr e).trans (finSuccEquiv l'.length).symm), ?_⟩
    intro i
    refine Fin.cases ?_ ?_ i
    · simp
    · intro i
      have := he i
      simpa using this
  | swap a b l =>
    refine ⟨Equiv.swap ⟨0, by simp⟩ ⟨1, by simp⟩, ?_⟩
    intro i
    rcases i with ⟨i, hi⟩
    rcases i with _ | _ | i
    · simp
    · rw [show (⟨0 + 1, hi⟩ : Fin (b :: a :: l).length) = ⟨1, by simp⟩ from rfl, Equiv.swap_apply_right]
      simp
    · rw [Equiv.swap_apply_of_ne_of_ne]
      · simp
      · simp
      · simp
  | trans _ _ ih1 ih2 =>
    obtain ⟨e1, h1⟩ := ih1
    obtain ⟨e2, h2⟩ := ih2
    exact ⟨e1.trans e2, fun i => by rw [h1, h2]; rfl⟩

end CatLearn.Proc
