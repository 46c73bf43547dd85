import Verif.Model.FixedBasis
import Mathlib.LinearAlgebra.Matrix.PosDef
import Mathlib.Analysis.Matrix.PosDef
import Mathlib.Algebra.Order.Star.Real
import Mathlib.LinearAlgebra.Matrix.ToLinearEquiv
import Mathlib.Algebra.BigOperators.Fin
import Mathlib.Tactic.FinCases
import Mathlib.Tactic.Linarith
import Mathlib.Tactic.Ring
import Mathlib.Tactic.NoncommRing
import Mathlib.Tactic.Abel

/-!
C122: predictions with a fixed basis.
-/

namespace CatLearn.FixedBasis

open CatLearn Matrix

variable {n m q : Type} [Fintype n] [DecidableEq n] [Fintype m] [Fintype q] [DecidableEq q]

/-- C122: without scaling of the data, a part of the targets that is a combination of the basis functions is continued
exactly: adding `H γ` to the training targets adds `Hs γ` to the predictions and leaves the covariance as it is. -/
theorem C122_basis_exact_partial (cinv : Matrix n n ℝ) (hc : cinvᵀ = cinv) (ktb : Matrix m n ℝ) (ktest : Matrix m m ℝ)
    (H : Matrix n q ℝ) (Hs : Matrix m q ℝ) (y : n → ℝ) (γ : q → ℝ) (g : (m → ℝ) × Matrix m m ℝ)
    (h : fixedBasis none cinv ktb ktest H Hs y = .ok g) :
    fixedBasis none cinv ktb ktest H Hs (y + H *ᵥ γ) = .ok (g.1 + Hs *ᵥ γ, g.2) := by
  classical
  unfold fixedBasis at h ⊢
  simp only at h ⊢
  by_cases hd : (Hᵀ * (cinv * H)).det = 0
  · simp [hd] at h
  · rw [if_neg hd] at h ⊢
    injection h with h
    subst h
    have hu : IsUnit (Hᵀ * (cinv * H)).det := isUnit_iff_ne_zero.mpr hd
    have hb : (H *ᵥ γ) ᵥ* (cinv * H) = (Hᵀ * (cinv * H)) *ᵥ γ := by
      rw [← mulVec_transpose, transpose_mul, hc, mulVec_mulVec, Matrix.mul_assoc]
    congr 1
    refine Prod.ext ?_ rfl
    simp only [makePrediction]
    rw [add_vecMul, hb, mulVec_add, mulVec_add, mulVec_add, mulVec_mulVec _ _ (Hᵀ * (cinv * H)), nonsing_inv_mul _ hu,
      one_mulVec, add_vecMul, vecMul_transpose, vecMul_transpose, sub_mulVec _ _ γ, mulVec_mulVec, mulVec_mulVec]
    rw [mulVec_mulVec, mulVec_mulVec]
    simp only [Matrix.mul_assoc]
    abel

/-- C122: at the training points themselves, if the covariance is inverted as it is (no regularisation), the prediction
is the training target whatever the basis, and there is no variance left. -/
theorem C122_training_points (K cinv : Matrix n n ℝ) (hK : K * cinv = 1) (H : Matrix n q ℝ) (hs : Kᵀ = K) (y : n → ℝ)
    (g : (n → ℝ) × Matrix n n ℝ) (h : fixedBasis none cinv K K H H y = .ok g) : g.1 = y ∧ g.2 = 0 := by
  classical
  unfold fixedBasis at h
  simp only at h
  split at h
  · cases h
  · injection h with h
    subst h
    have hr : H - K * (cinv * H) = 0 := by rw [← Matrix.mul_assoc, hK, Matrix.one_mul, sub_self]
    have hk : K - K * (cinv * Kᵀ) = 0 := by rw [← Matrix.mul_assoc, hK, hs, Matrix.one_mul, sub_self]
    simp only [hr, hk, makePrediction]
    constructor
    · rw [transpose_zero, vecMul_zero, add_zero, mulVec_mulVec, hK, one_mulVec]
    · simp

theorem gca_posDef {cinv : Matrix n n ℝ} (hc : cinv.PosDef) (H : Matrix n q ℝ) (hH : Function.Injective (H *ᵥ ·)) :
    (Hᵀ * (cinv * H)).PosDef := by
  have := hc.conjTranspose_mul_mul_same hH
  rw [Matrix.mul_assoc, conjTranspose_eq_transpose_of_trivial] at this
  exact this

/-- C122: for a positive definite inverse covariance the fit of the basis fails exactly if the basis functions are
linearly dependent on the training points; then an exception is raised. -/
theorem C122_dependent_basis (scal : Option (ℝ × ℝ)) (cinv : Matrix n n ℝ) (hc : cinv.PosDef) (ktb : Matrix m n ℝ)
    (ktest : Matrix m m ℝ) (H : Matrix n q ℝ) (Hs : Matrix m q ℝ) (y : n → ℝ) :
    (fixedBasis scal cinv ktb ktest H Hs y = .error .linalg ↔ ∃ v, v ≠ 0 ∧ H *ᵥ v = 0) ∧
      ((∀ v, H *ᵥ v = 0 → v = 0) → ∃ g, fixedBasis scal cinv ktb ktest H Hs y = .ok g) := by
  classical
  have hdet : (∀ v, H *ᵥ v = 0 → v = 0) → (Hᵀ * (cinv * H)).det ≠ 0 := by
    intro h
    refine (gca_posDef hc H ?_).det_pos.ne'
    intro a b hab
    have := h (a - b) (by rw [mulVec_sub]; simpa using sub_eq_zero.mpr hab)
    exact sub_eq_zero.mp this
  refine ⟨⟨?_, ?_⟩, ?_⟩
  · intro h
    by_contra hne
    push Not at hne
    have := hdet fun v hv => by
      by_contra h0
      exact hne v h0 hv
    unfold fixedBasis at h
    simp [this] at h
  · rintro ⟨v, hv, hHv⟩
    have : (Hᵀ * (cinv * H)).det = 0 := by
      rw [← exists_mulVec_eq_zero_iff]
      refine ⟨v, hv, ?_⟩
      rw [← mulVec_mulVec, ← mulVec_mulVec, hHv, mulVec_zero, mulVec_zero]
    unfold fixedBasis
    simp [this]
  · intro h
    have := hdet h
    unfold fixedBasis
    simp only [this, if_false]
    exact ⟨_, rfl⟩

/-- C122: fitting the basis never makes a prediction look more certain: every variance is at least the one without a
basis. -/
theorem C122_variance (scal : Option (ℝ × ℝ)) (cinv : Matrix n n ℝ) (hc : cinv.PosDef) (ktb : Matrix m n ℝ)
    (ktest : Matrix m m ℝ) (H : Matrix n q ℝ) (hH : Function.Injective (H *ᵥ ·)) (Hs : Matrix m q ℝ) (y : n → ℝ)
    (g : (m → ℝ) × Matrix m m ℝ) (h : fixedBasis scal cinv ktb ktest H Hs y = .ok g) (i : m) :
    ktest i i - (ktb * (cinv * ktbᵀ)) i i ≤ g.2 i i := by
  classical
  unfold fixedBasis at h
  simp only at h
  split at h
  · cases h
  · injection h with h
    subst h
    have hp := (gca_posDef hc H hH).inv.posSemidef
    have h2 := hp.mul_mul_conjTranspose_same (Hs - ktb * (cinv * H))
    have h3 := h2.diag_nonneg (i := i)
    simp only [Matrix.add_apply, Matrix.sub_apply]
    have h4 : ((Hs - ktb * (cinv * H)) * (Hᵀ * (cinv * H))⁻¹ * (Hs - ktb * (cinv * H))ᴴ) i i =
        ((Hs - ktb * (cinv * H)) * ((Hᵀ * (cinv * H))⁻¹ * (Hs - ktb * (cinv * H))ᵀ)) i i := by
      rw [Matrix.mul_assoc]; rfl
    rw [h4] at h3
    linarith

/-- C122 fails with scaling of the data: only one of the two parts of the prediction is transformed back.  The result
differs from the prediction in the original units by `(1 - s)` times the part of the basis, where `s` is the deviation
of the targets. -/
theorem C122_scaled_violated (s μ : ℝ) (cinv : Matrix n n ℝ) (ktb : Matrix m n ℝ) (ktest : Matrix m m ℝ)
    (H : Matrix n q ℝ) (Hs : Matrix m q ℝ) (y : n → ℝ) (g g' : (m → ℝ) × Matrix m m ℝ)
    (h : fixedBasis none cinv ktb ktest H Hs y = .ok g) (h' : fixedBasis (some (s, μ)) cinv ktb ktest H Hs y = .ok g')
    (i : m) : g'.1 i = (g.1 i * s + μ) + (1 - s) * (g.1 i - (ktb *ᵥ (cinv *ᵥ y)) i) := by
  classical
  unfold fixedBasis at h h'
  simp only at h h'
  split at h
  · cases h
  · rename_i hd
    rw [if_neg hd] at h'
    injection h with h
    injection h' with h'
    subst h
    subst h'
    simp only [makePrediction, Pi.add_apply]
    ring

/-- The difference is there: one training point with target 1 at the origin, a constant basis function, a test point
that is not correlated with it; the prediction is 1, in the original units it should be `s + μ`, but it is `1 + μ`. -/
example (s μ : ℝ) : ∃ g', fixedBasis (some (s, μ)) (1 : Matrix Unit Unit ℝ) (0 : Matrix Unit Unit ℝ) 1
    (1 : Matrix Unit Unit ℝ) 1 (fun _ => 1) = .ok g' ∧ g'.1 () = 1 + μ := by
  classical
  unfold fixedBasis
  simp only [Matrix.mul_one, transpose_one, det_one, one_ne_zero, if_false]
  refine ⟨_, rfl, ?_⟩
  simp [makePrediction]
  ring

example : ∃ g, fixedBasis none (1 : Matrix Unit Unit ℝ) (0 : Matrix Unit Unit ℝ) 1 (1 : Matrix Unit Unit ℝ) 1
    (fun _ => 1) = .ok g :=
  (C122_dependent_basis none 1 Matrix.PosDef.one 0 1 1 1 _).2 fun v hv => by simpa using hv

/-- Two training points on a line, basis functions constant and linear: independent. -/
example : Function.Injective ((!![1, 0; 1, 1] : Matrix (Fin 2) (Fin 2) ℝ) *ᵥ ·) := by
  intro a b h
  have h0 := congrFun h 0
  have h1 := congrFun h 1
  simp [mulVec, dotProduct, Fin.sum_univ_two] at h0 h1
  ext i
  fin_cases i
  · exact h0
  · simp; linarith

example : (1 : Matrix (Fin 2) (Fin 2) ℝ) * 1 = 1 ∧ (1 : Matrix (Fin 2) (Fin 2) ℝ)ᵀ = 1 ∧
    ∃ g, fixedBasis none (1 : Matrix (Fin 2) (Fin 2) ℝ) (1 : Matrix (Fin 2) (Fin 2) ℝ) 1 (fun _ (_ : Unit) => 1) (fun _ _ => 1) (fun i => (i : ℝ)) =
      .ok g := by
  refine ⟨Matrix.mul_one _, transpose_one, ?_⟩
  refine (C122_dependent_basis none 1 Matrix.PosDef.one (1 : Matrix (Fin 2) (Fin 2) ℝ) 1 _ _ _).2 fun v hv => ?_
  have := congrFun hv 0
  simp [mulVec, dotProduct] at this
  ext i
  exact this

end CatLearn.FixedBasis
