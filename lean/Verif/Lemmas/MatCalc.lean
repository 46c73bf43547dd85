import Mathlib.LinearAlgebra.Matrix.Adjugate
import Mathlib.LinearAlgebra.Matrix.NonsingularInverse
import Mathlib.LinearAlgebra.Matrix.Trace
import Mathlib.Analysis.Calculus.Deriv.Mul
import Mathlib.Analysis.Calculus.Deriv.Add
import Mathlib.Analysis.Calculus.Deriv.Inv
import Mathlib.Analysis.SpecialFunctions.Log.Deriv

/-!
# Derivatives of determinants and inverses
-/

namespace CatLearn.MatCalc

open Matrix

variable {n : Type} [Fintype n] [DecidableEq n]

/-- Jacobi's formula. -/
theorem hasDerivAt_det {K : ℝ → Matrix n n ℝ} {K' : Matrix n n ℝ} {t : ℝ}
    (h : ∀ i j, HasDerivAt (fun s => K s i j) (K' i j) t) :
    HasDerivAt (fun s => (K s).det) (((K t).adjugate * K').trace) t := by
  have h1 : HasDerivAt (fun s => ∑ σ : Equiv.Perm n, (Equiv.Perm.sign σ : ℤ) * ∏ i, K s (σ i) i)
      (∑ σ : Equiv.Perm n, ((Equiv.Perm.sign σ : ℤ) : ℝ) *
        ∑ i, (∏ j ∈ Finset.univ.erase i, K t (σ j) j) • K' (σ i) i) t := by
    refine HasDerivAt.fun_sum fun σ _ => ?_
    exact (HasDerivAt.fun_finsetProd fun i _ => h (σ i) i).const_mul _
  simp only [det_apply']
  refine h1.congr_deriv ?_
  simp only [Finset.mul_sum]
  rw [Finset.sum_comm]
  unfold trace
  refine Finset.sum_congr rfl fun i _ => ?_
  have h2 : ((K t).adjugate * K').diag i = ((K t).adjugate *ᵥ fun j => K' j i) i := by
    simp [Matrix.mul_apply, mulVec, dotProduct]
  rw [h2, ← cramer_eq_adjugate_mulVec, cramer_apply, det_apply']
  refine Finset.sum_congr rfl fun σ _ => ?_
  rw [← Finset.mul_prod_erase Finset.univ _ (Finset.mem_univ i)]
  have h3 : ∏ j ∈ Finset.univ.erase i, ((K t).updateCol i fun j => K' j i) (σ j) j =
      ∏ j ∈ Finset.univ.erase i, K t (σ j) j := by
    refine Finset.prod_congr rfl fun j hj => ?_
    rw [updateCol_ne (Finset.ne_of_mem_erase hj)]
  rw [h3, updateCol_self, smul_eq_mul]
  ring

/-- The derivative of the inverse. -/
theorem hasDerivAt_inv {K : ℝ → Matrix n n ℝ} {K' : Matrix n n ℝ} {t : ℝ}
    (h : ∀ i j, HasDerivAt (fun s => K s i j) (K' i j) t) (hd : (K t).det ≠ 0) (i j : n) :
    HasDerivAt (fun s => (K s)⁻¹ i j) (-(((K t)⁻¹ * K' * (K t)⁻¹) i j)) t := by
  have hdet := hasDerivAt_det h
  -- the entries of the inverse are differentiable
  have hex : ∀ i j, ∃ d, HasDerivAt (fun s => (K s)⁻¹ i j) d t := by
    intro i j
    have hadj : ∃ d, HasDerivAt (fun s => (K s).adjugate i j) d t := by
      simp only [adjugate_apply]
      have h0 : ∀ a b, HasDerivAt (fun s => (K s).updateRow j (Pi.single i 1) a b)
          ((K'.updateRow j 0) a b) t := by
        intro a b
        by_cases ha : a = j
        · subst ha
          simpa using hasDerivAt_const t _
        · simpa [updateRow_ne ha] using h a b
      exact ⟨_, hasDerivAt_det h0⟩
    obtain ⟨d, hd1⟩ := hadj
    refine ⟨_, ((hdet.fun_inv hd).fun_mul hd1).congr_of_eventuallyEq ?_⟩
    refine Filter.Eventually.of_forall fun s => ?_
    simp [inv_def, Ring.inverse_eq_inv']
  choose D hD using hex
  have hev : ∀ᶠ s in nhds t, (K s).det ≠ 0 := hdet.continuousAt.eventually_ne hd
  have key : K' * (K t)⁻¹ + K t * (Matrix.of D) = 0 := by
    ext a b
    have h1 : HasDerivAt (fun s => ∑ c, K s a c * (K s)⁻¹ c b)
        (∑ c, (K' a c * (K t)⁻¹ c b + K t a c * D c b)) t :=
      HasDerivAt.fun_sum fun c _ => (h a c).fun_mul (hD c b)
    have h2 : (fun s => ∑ c, K s a c * (K s)⁻¹ c b) =ᶠ[nhds t] fun _ => (1 : Matrix n n ℝ) a b := by
      filter_upwards [hev] with s hs
      rw [← Matrix.mul_apply, mul_nonsing_inv _ hs.isUnit]
    have h3 := (hasDerivAt_const t ((1 : Matrix n n ℝ) a b)).congr_of_eventuallyEq h2
    have h4 := h1.unique h3
    rw [Finset.sum_add_distrib] at h4
    simpa [Matrix.mul_apply] using h4
  have hDe : Matrix.of D = -((K t)⁻¹ * K' * (K t)⁻¹) := by
    have h1 : K t * Matrix.of D = -(K' * (K t)⁻¹) := by
      rw [eq_neg_iff_add_eq_zero, add_comm]; exact key
    calc Matrix.of D = (K t)⁻¹ * (K t * Matrix.of D) := by
          rw [← Matrix.mul_assoc, nonsing_inv_mul _ hd.isUnit, Matrix.one_mul]
      _ = -((K t)⁻¹ * K' * (K t)⁻¹) := by rw [h1, Matrix.mul_neg, Matrix.mul_assoc]
  have := hD i j
  have e : D i j = -(((K t)⁻¹ * K' * (K t)⁻¹) i j) := congrFun (congrFun hDe i) j
  rwa [e] at this

/-- The derivative of the logarithm of the determinant. -/
theorem hasDerivAt_log_det {K : ℝ → Matrix n n ℝ} {K' : Matrix n n ℝ} {t : ℝ}
    (h : ∀ i j, HasDerivAt (fun s => K s i j) (K' i j) t) (hd : (K t).det ≠ 0) :
    HasDerivAt (fun s => Real.log (K s).det) (((K t)⁻¹ * K').trace) t := by
  refine ((hasDerivAt_det h).log hd).congr_deriv ?_
  rw [inv_def, Ring.inverse_eq_inv', Matrix.smul_mul, trace_smul, smul_eq_mul]
  field_simp

/-- The derivative of the quadratic form of the inverse. -/
theorem hasDerivAt_form_inv {K : ℝ → Matrix n n ℝ} {K' : Matrix n n ℝ} {t : ℝ}
    (h : ∀ i j, HasDerivAt (fun s => K s i j) (K' i j) t) (hd : (K t).det ≠ 0) (y : n → ℝ) :
    HasDerivAt (fun s => y ⬝ᵥ (K s)⁻¹ *ᵥ y) (-(y ⬝ᵥ ((K t)⁻¹ * K' * (K t)⁻¹) *ᵥ y)) t := by
  have h1 : HasDerivAt (fun s => ∑ i, y i * ∑ j, (K s)⁻¹ i j * y j)
      (∑ i, y i * ∑ j, -(((K t)⁻¹ * K' * (K t)⁻¹) i j) * y j) t := by
    refine HasDerivAt.fun_sum fun i _ => HasDerivAt.const_mul _ ?_
    exact HasDerivAt.fun_sum fun j _ => (hasDerivAt_inv h hd i j).mul_const _
  refine h1.congr_deriv ?_
  simp only [neg_mul, Finset.sum_neg_distrib, mul_neg]
  rfl

end CatLearn.MatCalc
