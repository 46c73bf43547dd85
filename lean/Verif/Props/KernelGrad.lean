import Verif.Model.Kernel
import Verif.Lemmas.Jet
import Mathlib.Analysis.Calculus.Deriv.Pow
import Mathlib.Analysis.Calculus.Deriv.Add
import Mathlib.Analysis.SpecialFunctions.ExpDeriv
import Mathlib.LinearAlgebra.Matrix.Determinant.Basic
import Mathlib.LinearAlgebra.Matrix.Notation

/-!
# Covariances of values and derivatives (C46, C105, C106, C107)
-/

namespace CatLearn.Kernel

open CatLearn CatLearn.PSD

theorem gauss_symm {N : Nat} (w x y : Fin N → ℝ) : gauss w x y = gauss w y x := by
  unfold gauss
  congr 2
  exact Finset.sum_congr rfl fun a _ => by ring

theorem hasDerivAt_update_apply {N : Nat} (y : Fin N → ℝ) (a b : Fin N) (t : ℝ) :
    HasDerivAt (fun s => Function.update y a s b) (if b = a then 1 else 0) t := by
  by_cases h : b = a
  · subst h
    simpa using hasDerivAt_id' t
  · simpa [h] using hasDerivAt_const t (y b)

theorem hasDerivAt_gauss_right {N : Nat} (w x y : Fin N → ℝ) (hw : ∀ a, w a ≠ 0) (a : Fin N) (t : ℝ) :
    HasDerivAt (fun s => gauss w x (Function.update y a s))
      ((w a) ^ (-2 : ℤ) * (x a - t) * gauss w x (Function.update y a t)) t := by
  have h1 : HasDerivAt (fun s => -0.5 * ∑ b, (x b / w b - Function.update y a s b / w b) ^ 2)
      (-0.5 * ∑ b, 2 * (x b / w b - Function.update y a t b / w b) * (-((if b = a then 1 else 0) / w b))) t := by
    refine HasDerivAt.const_mul _ (HasDerivAt.fun_sum fun b _ => ?_)
    have := (((hasDerivAt_update_apply y a b t).div_const (w b)).const_sub (x b / w b)).fun_pow 2
    simpa using this
  have h2 := h1.exp
  unfold gauss
  convert h2 using 1
  have e : ∑ b, 2 * (x b / w b - Function.update y a t b / w b) * (-((if b = a then 1 else 0) / w b)) =
      2 * (x a / w a - t / w a) * (-(1 / w a)) := by
    rw [Finset.sum_eq_single a (by intro b _ hb; simp [hb]) (by simp)]
    simp
  rw [e]
  have := hw a
  simp
  field_simp
  ring

theorem hasDerivAt_gauss_left {N : Nat} (w x y : Fin N → ℝ) (hw : ∀ a, w a ≠ 0) (a : Fin N) (t : ℝ) :
    HasDerivAt (fun s => gauss w (Function.update x a s) y)
      ((w a) ^ (-2 : ℤ) * (y a - t) * gauss w (Function.update x a t) y) t := by
  have := hasDerivAt_gauss_right w y x hw a t
  simpa only [gauss_symm w y] using this

/-- C46: the values block of the covariance with gradients is the kernel, the off-diagonal block contains its partial
derivatives with respect to the coordinates of the second point, and the lower left block is the transpose. -/
theorem C46_first_derivatives {N : Nat} {n : Type} (w : Fin N → ℝ) (hw : ∀ a, 0 < w a) (X : n → Fin N → ℝ)
    (i j : n) (a : Fin N) :
    gaussXX w X (.inl i) (.inl j) = Real.exp (-0.5 * ∑ b, (X i b / w b - X j b / w b) ^ 2) ∧
    HasDerivAt (fun t => Real.exp (-0.5 * ∑ b, (X j b / w b - Function.update (X i) a t b / w b) ^ 2))
      (gaussXX w X (.inl j) (.inr (i, a))) (X i a) ∧
    gaussXX w X (.inr (i, a)) (.inl j) = gaussXX w X (.inl j) (.inr (i, a)) := by
  refine ⟨rfl, ?_, rfl⟩
  have h := hasDerivAt_gauss_right w (X j) (X i) (fun b => (hw b).ne') a (X i a)
  rw [Function.update_eq_self] at h
  simp only [gaussXX, Matrix.fromBlocks_apply₁₂, Matrix.of_apply]
  rw [gauss_symm w (X i)]
  exact h

/-- C46: the lower right block contains the second partial derivatives, one with respect to a coordinate of each
point. -/
theorem C46_second_derivatives {N : Nat} {n : Type} (w : Fin N → ℝ) (hw : ∀ a, 0 < w a) (X : n → Fin N → ℝ)
    (i j : n) (a b : Fin N) :
    HasDerivAt (fun s => deriv (fun t => Real.exp (-0.5 * ∑ c,
        (Function.update (X j) a s c / w c - Function.update (X i) b t c / w c) ^ 2)) (X i b))
      (gaussXX w X (.inr (j, a)) (.inr (i, b))) (X j a) := by
  have hw' : ∀ a, w a ≠ 0 := fun a => (hw a).ne'
  have e : (fun s => deriv (fun t => Real.exp (-0.5 * ∑ c,
        (Function.update (X j) a s c / w c - Function.update (X i) b t c / w c) ^ 2)) (X i b)) =
      fun s => (w b) ^ (-2 : ℤ) * (Function.update (X j) a s b - X i b) *
        gauss w (Function.update (X j) a s) (X i) := by
    funext s
    have h := (hasDerivAt_gauss_right w (Function.update (X j) a s) (X i) hw' b (X i b)).deriv
    rw [Function.update_eq_self] at h
    exact h
  rw [e]
  have h1 := ((((hasDerivAt_update_apply (X j) a b (X j a)).sub_const (X i b)).const_mul ((w b) ^ (-2 : ℤ)))).fun_mul
    (hasDerivAt_gauss_left w (X j) (X i) hw' a (X j a))
  rw [Function.update_eq_self] at h1
  have e2 : gaussXX w X (.inr (j, a)) (.inr (i, b)) = w b ^ (-2 : ℤ) * (if b = a then 1 else 0) * gauss w (X j) (X i) +
      w b ^ (-2 : ℤ) * (X j b - X i b) * (w a ^ (-2 : ℤ) * (X i a - X j a) * gauss w (X j) (X i)) := by
    simp only [gaussXX, Matrix.fromBlocks_apply₂₂, Matrix.of_apply]
    rw [gauss_symm w (X i)]
    by_cases hab : a = b
    · subst hab
      simp
      ring
    · simp [hab, Ne.symm hab]
      ring
  rw [e2]
  exact h1

/-- C46: the loop used for many features computes the same lower right block. -/
theorem C46_loop {N n : Nat} (w : Fin N → ℝ) (X : Fin n → Fin N → ℝ) (p q : Fin n × Fin N) :
    gaussKddLoop w X p q = gaussXX w X (.inr p) (.inr q) := by
  obtain ⟨i, a⟩ := p
  obtain ⟨j, b⟩ := q
  simp only [gaussKddLoop, gaussXX, Matrix.fromBlocks_apply₂₂, Matrix.of_apply]
  by_cases hij : i ≤ j
  · rw [if_pos hij, gauss_symm w (X i)]
    by_cases hab : a = b
    · subst hab; simp; left; ring
    · simp [hab]; left; ring
  · rw [if_neg hij]
    by_cases hab : a = b
    · subst hab; simp
    · simp [hab, Ne.symm hab]

/-- C46: the covariance of values at new points with the training data contains the derivatives at the training
points. -/
theorem C46_cross {N : Nat} {m n : Type} (w : Fin N → ℝ) (hw : ∀ a, 0 < w a) (X1 : m → Fin N → ℝ)
    (X2 : n → Fin N → ℝ) (i : m) (j : n) (a : Fin N) :
    gaussXXp w X1 X2 i (.inl j) = Real.exp (-0.5 * ∑ b, (X1 i b / w b - X2 j b / w b) ^ 2) ∧
    HasDerivAt (fun t => Real.exp (-0.5 * ∑ b, (X1 i b / w b - Function.update (X2 j) a t b / w b) ^ 2))
      (gaussXXp w X1 X2 i (.inr (j, a))) (X2 j a) := by
  refine ⟨rfl, ?_⟩
  have h := hasDerivAt_gauss_right w (X1 i) (X2 j) (fun b => (hw b).ne') a (X2 j a)
  rw [Function.update_eq_self] at h
  have e : gaussXXp w X1 X2 i (.inr (j, a)) = (w a) ^ (-2 : ℤ) * (X1 i a - X2 j a) * gauss w (X1 i) (X2 j) := by
    simp only [gaussXXp]; ring
  rw [e]
  exact h

example : ∀ a : Fin 2, 0 < (![1, 2] : Fin 2 → ℝ) a := by intro a; fin_cases a <;> norm_num

/-! ### Linear and constant kernels -/

/-- C105: the constant kernel with gradients contains its derivatives (zero); the first derivatives of the linear
kernel are right as well. -/
theorem C105_first_derivatives_partial {N : Nat} {n : Type} (c : ℝ) (X : n → Fin N → ℝ) (i j : n) (a : Fin N) :
    (constantXX c : Matrix (n ⊕ n × Fin N) _ ℝ) (.inl i) (.inl j) = c ∧
    (constantXX c : Matrix (n ⊕ n × Fin N) _ ℝ) (.inl i) (.inr (j, a)) = 0 ∧
    (∀ b, (constantXX c : Matrix (n ⊕ n × Fin N) _ ℝ) (.inr (i, a)) (.inr (j, b)) = 0) ∧
    linearXX X (.inl i) (.inl j) = ∑ b, X i b * X j b ∧
    HasDerivAt (fun t => ∑ b, X j b * Function.update (X i) a t b) (linearXX X (.inl j) (.inr (i, a))) (X i a) ∧
    linearXX X (.inr (i, a)) (.inl j) = linearXX X (.inl j) (.inr (i, a)) ∧
    HasDerivAt (fun s => deriv (fun t => ∑ c, Function.update (X j) a s c * Function.update (X i) a t c) (X i a))
      (linearXX X (.inr (j, a)) (.inr (i, a))) (X j a) := by
  refine ⟨rfl, rfl, fun b => rfl, rfl, ?_, rfl, ?_⟩
  · have : HasDerivAt (fun t => ∑ b, X j b * Function.update (X i) a t b)
        (∑ b, X j b * (if b = a then 1 else 0)) (X i a) :=
      HasDerivAt.fun_sum fun b _ => (hasDerivAt_update_apply (X i) a b (X i a)).const_mul _
    simpa [linearXX] using this
  · have e : (fun s => deriv (fun t => ∑ c, Function.update (X j) a s c * Function.update (X i) a t c) (X i a)) =
        fun s => s := by
      funext s
      have : HasDerivAt (fun t => ∑ b, Function.update (X j) a s b * Function.update (X i) a t b)
          (∑ b, Function.update (X j) a s b * (if b = a then 1 else 0)) (X i a) :=
        HasDerivAt.fun_sum fun b _ => (hasDerivAt_update_apply (X i) a b (X i a)).const_mul _
      rw [this.deriv]
      simp
    rw [e]
    exact hasDerivAt_id' _

/-- C105 fails: the second derivative of the linear kernel with respect to different coordinates is zero, the
covariance with gradients contains 1. -/
theorem C105_linear_second_derivative_violated {N : Nat} {n : Type} (X : n → Fin N → ℝ) (i j : n) (a b : Fin N)
    (hab : a ≠ b) :
    HasDerivAt (fun s => deriv (fun t => ∑ c, Function.update (X j) a s c * Function.update (X i) b t c) (X i b))
      0 (X j a) ∧ linearXX X (.inr (j, a)) (.inr (i, b)) = 1 := by
  refine ⟨?_, rfl⟩
  have e : (fun s => deriv (fun t => ∑ c, Function.update (X j) a s c * Function.update (X i) b t c) (X i b)) =
      fun s => X j b := by
    funext s
    have : HasDerivAt (fun t => ∑ c, Function.update (X j) a s c * Function.update (X i) b t c)
        (∑ c, Function.update (X j) a s c * (if c = b then 1 else 0)) (X i b) :=
      HasDerivAt.fun_sum fun c _ => (hasDerivAt_update_apply (X i) b c (X i b)).const_mul _
    rw [this.deriv]
    simp [Ne.symm hab]
  rw [e]
  exact hasDerivAt_const _ _

example : (0 : Fin 2) ≠ 1 := by decide

/-! ### Positive semidefiniteness -/

/-- The kernel of values and derivatives of the Gaussian kernel. -/
private noncomputable def gaussJet {N : Nat} (w : Fin N → ℝ) : Jet (Fin N → ℝ) (Fin N) → Jet (Fin N → ℝ) (Fin N) → ℝ :=
  jetMul (fun p q =>
      (match p with
        | .inl x => Real.exp (-0.5 * ∑ a, (x a / w a) ^ 2)
        | .inr (x, a) => -(x a * (w a) ^ (-2 : ℤ)) * Real.exp (-0.5 * ∑ a, (x a / w a) ^ 2)) *
      (match q with
        | .inl x => Real.exp (-0.5 * ∑ a, (x a / w a) ^ 2)
        | .inr (x, a) => -(x a * (w a) ^ (-2 : ℤ)) * Real.exp (-0.5 * ∑ a, (x a / w a) ^ 2)))
    (jetComp Real.exp Real.exp Real.exp (fun p q => ((List.finRange N).map fun c =>
      (match p with
        | .inl x => x c / w c
        | .inr (_, a) => if a = c then 1 / w c else 0) *
      (match q with
        | .inl x => x c / w c
        | .inr (_, a) => if a = c then 1 / w c else 0)).sum))

private theorem psdk_gaussJet {N : Nat} (w : Fin N → ℝ) : PSDK (gaussJet w) :=
  PSDK.jetMul (psdk_rank_one _) (PSDK.jetExp (psdk_list_sum _ _ fun c _ => psdk_rank_one _))

private def toJet {N : Nat} {n : Type} (X : n → Fin N → ℝ) : n ⊕ n × Fin N → Jet (Fin N → ℝ) (Fin N)
  | .inl i => .inl (X i)
  | .inr (i, a) => .inr (X i, a)

theorem gauss_factor {N : Nat} (w x y : Fin N → ℝ) :
    gauss w x y = Real.exp (-0.5 * ∑ a, (x a / w a) ^ 2) * Real.exp (-0.5 * ∑ a, (y a / w a) ^ 2) *
      Real.exp (∑ a, x a / w a * (y a / w a)) := by
  unfold gauss
  rw [← Real.exp_add, ← Real.exp_add]
  congr 1
  rw [Finset.mul_sum, Finset.mul_sum, Finset.mul_sum, ← Finset.sum_add_distrib, ← Finset.sum_add_distrib]
  exact Finset.sum_congr rfl fun a _ => by ring

private theorem gaussXX_eq_jet {N : Nat} {n : Type} (w : Fin N → ℝ) (hw : ∀ a, w a ≠ 0) (X : n → Fin N → ℝ)
    (p q : n ⊕ n × Fin N) : gaussXX w X p q = gaussJet w (toJet X p) (toJet X q) := by
  have hz : ∀ a, (w a) ^ (-2 : ℤ) = 1 / w a / w a := by
    intro a
    have := hw a
    rw [zpow_neg]
    norm_cast
    field_simp
  have hs : ∀ f : Fin N → ℝ, ((List.finRange N).map f).sum = ∑ a, f a := by
    intro f
    exact (Fin.sum_univ_def f).symm
  rcases p with i | ⟨i, a⟩ <;> rcases q with j | ⟨j, b⟩ <;>
    simp only [gaussXX, gaussJet, toJet, jetMul, jetComp, Matrix.fromBlocks_apply₁₁, Matrix.fromBlocks_apply₁₂,
      Matrix.fromBlocks_apply₂₁, Matrix.fromBlocks_apply₂₂, Matrix.transpose_apply, Matrix.of_apply, hs, hz]
  · exact gauss_factor w _ _
  · rw [gauss_symm, gauss_factor w (X i) (X j)]
    simp only [mul_ite, mul_zero, Finset.sum_ite_eq, Finset.mem_univ, if_true]
    ring
  · rw [gauss_factor w (X i) (X j)]
    simp only [ite_mul, zero_mul, Finset.sum_ite_eq, Finset.mem_univ, if_true]
    ring
  · rw [gauss_symm, gauss_factor w (X i) (X j)]
    simp only [ite_mul, zero_mul, mul_ite, mul_zero, Finset.sum_ite_eq, Finset.mem_univ, if_true]
    by_cases hab : a = b
    · subst hab
      simp only [if_true]
      ring
    · simp only [hab, if_false]
      ring

/-- Kernel dictionaries with gradients with positive widths, non-negative scaling and constants, and for
`constant_multi` a positive semidefinite 2×2 matrix of constants. -/
def GoodGrad {N : Nat} (k : GDict N) : Prop :=
  0 ≤ k.scaling ∧
  match k.gtype with
  | .gaussian w => ∀ a, 0 < w a
  | .linear => False
  | .constant c => 0 ≤ c
  | .constantMulti c1 c2 c3 => 0 ≤ c1 ∧ 0 ≤ c3 ∧ c2 ^ 2 ≤ c1 * c3
  | .noiseMulti _ _ => True

private theorem psdk_two {n m : Type} {c1 c2 c3 : ℝ} (h1 : 0 ≤ c1) (h3 : 0 ≤ c3) (h2 : c2 ^ 2 ≤ c1 * c3) :
    (Matrix.fromBlocks (Matrix.of fun _ _ => c1) (Matrix.of fun _ _ => c2) (Matrix.of fun _ _ => c2)
        (Matrix.of fun _ _ => c3) :
      Matrix (n ⊕ m) (n ⊕ m) ℝ).PosSemidef := by
  rcases h1.eq_or_lt with rfl | h1
  · have hc2 : c2 = 0 := by nlinarith [sq_nonneg c2]
    subst hc2
    have := (psdk_rank_one (fun p : n ⊕ m => match p with | .inl _ => (0:ℝ) | .inr _ => 1)).smul h3
    convert this using 1
    ext p q
    rcases p with p | p <;> rcases q with q | q <;> simp
  · have e1 := (psdk_rank_one (fun p : n ⊕ m => match p with | .inl _ => c1 | .inr _ => c2)).smul
      (c := 1 / c1) (by positivity)
    have e2 := (psdk_rank_one (fun p : n ⊕ m => match p with | .inl _ => (0:ℝ) | .inr _ => 1)).smul
      (c := c3 - c2 ^ 2 / c1) (by
        have : c2 ^ 2 / c1 ≤ c3 := by rw [div_le_iff₀ h1]; linarith
        linarith)
    have := e1.add e2
    convert this using 1
    ext p q
    rcases p with p | p <;> rcases q with q | q <;> simp <;> field_simp
    ring

theorem psd_gMatrix {N : Nat} {n : Type} [DecidableEq n] [Fintype n] (k : GDict N) (hk : GoodGrad k)
    (X : n → Fin N → ℝ) : (gMatrix k.gtype X).PosSemidef := by
  obtain ⟨-, hk⟩ := hk
  cases hg : k.gtype with
  | gaussian w =>
    rw [hg] at hk
    have h := (psdk_gaussJet w).comp (toJet X)
    have e : gaussXX w X = Matrix.of fun p q => gaussJet w (toJet X p) (toJet X q) := by
      ext p q
      exact gaussXX_eq_jet w (fun a => (hk a).ne') X p q
    simp only [gMatrix]
    rw [e]
    exact h
  | linear => rw [hg] at hk; exact hk.elim
  | constant c =>
    rw [hg] at hk
    have := psdk_two (n := n) (m := n × Fin N) (c1 := c) (c2 := 0) (c3 := 0) hk le_rfl (by simp)
    exact this
  | constantMulti c1 c2 c3 =>
    rw [hg] at hk
    exact psdk_two hk.1 hk.2.1 hk.2.2
  | noiseMulti t1 t2 =>
    simp only [gMatrix, noiseMultiXX, Matrix.fromBlocks_diagonal]
    apply Matrix.PosSemidef.diagonal
    rintro (i | i)
    · exact sq_nonneg t1
    · exact sq_nonneg t2

theorem psd_covGrad_none {N : Nat} {n : Type} [DecidableEq n] [Fintype n] (ks : List (GDict N))
    (hk : ∀ k ∈ ks, GoodGrad k) (X : n → Fin N → ℝ) : (covGrad ks none X).PosSemidef := by
  unfold covGrad
  rw [add_zero]
  induction ks using List.reverseRecOn with
  | nil => exact Matrix.PosSemidef.zero
  | append_singleton ks k ih =>
    have h1 := ih fun k hk' => hk k (by simp [hk'])
    have h2 := (psd_gMatrix k (hk k (by simp)) X).smul (hk k (by simp)).1
    rw [List.foldl_append]
    simp only [List.foldl_cons, List.foldl_nil]
    cases hm : k.mult with
    | false => simpa using h1.add h2
    | true => simpa using h1.hadamard h2

/-- C106: the covariance of values and gradients is positive semidefinite for every list of Gaussian, constant,
multi-constant and noise kernels, and positive definite and invertible with regularisation. -/
theorem C106_gradient_covariance_partial {N : Nat} {n : Type} [DecidableEq n] [Fintype n] (ks : List (GDict N))
    (hk : ∀ k ∈ ks, GoodGrad k) (X : n → Fin N → ℝ) :
    (∀ reg, (covGrad ks reg X).PosSemidef) ∧
    ∀ r : ℝ, r ≠ 0 → (covGrad ks (some r) X).PosDef ∧ IsUnit (covGrad ks (some r) X).det := by
  have h0 := psd_covGrad_none ks hk X
  have hr : ∀ r, covGrad ks (some r) X = covGrad ks none X + Matrix.diagonal fun _ => r ^ 2 := by
    intro r
    simp [covGrad]
  refine ⟨fun reg => ?_, fun r hr0 => ?_⟩
  · cases reg with
    | none => exact h0
    | some r => rw [hr]; exact h0.add (Matrix.PosSemidef.diagonal fun _ => sq_nonneg _)
  · rw [hr]
    have h2 := Matrix.PosDef.posSemidef_add h0 (Matrix.PosDef.diagonal (d := fun _ => r ^ 2) fun _ => by positivity)
    exact ⟨h2, h2.isUnit.map Matrix.detMonoidHom⟩

example : GoodGrad (N := 2) ⟨.gaussian ![1, 2], 3, false⟩ ∧ GoodGrad (N := 2) ⟨.constant 5, 1, false⟩ ∧
    GoodGrad (N := 2) ⟨.constantMulti 1 1 1, 1, false⟩ := by
  refine ⟨⟨by norm_num, ?_⟩, by norm_num [GoodGrad], by norm_num [GoodGrad]⟩
  intro a
  fin_cases a <;> norm_num

/-- C106 fails with a linear kernel: with one point and two features the covariance is not positive semidefinite. -/
theorem C106_linear_violated :
    ¬ (covGrad (N := 2) [⟨.linear, 1, false⟩] none (fun _ : Fin 1 => ![1, 0])).PosSemidef := by
  intro h
  have h1 := PSDK.form (k := covGrad (N := 2) [⟨.linear, 1, false⟩] none (fun _ : Fin 1 => ![1, 0])) h Finset.univ
    (fun p => match p with | .inl _ => 1 | .inr (_, 0) => -1 | .inr (_, 1) => 1)
  simp [covGrad, gMatrix, linearXX, Fintype.sum_sum_type, Fintype.sum_prod_type, Fin.sum_univ_two] at h1
  norm_num at h1

/-! ### Sums and products of kernels with gradients -/

/-- The value of a kernel whose derivatives are wanted. -/
noncomputable def gValue {N : Nat} (g : GType N) (x y : Fin N → ℝ) : ℝ :=
  match g with
  | .gaussian w => Real.exp (-0.5 * ∑ b, (x b / w b - y b / w b) ^ 2)
  | .constant c => c
  | _ => 0

/-- Gaussian kernels with positive widths and constant kernels, all added. -/
def SumKernel {N : Nat} (k : GDict N) : Prop :=
  k.mult = false ∧
  match k.gtype with
  | .gaussian w => ∀ a, 0 < w a
  | .constant _ => True
  | _ => False

private theorem covGrad_sum {N : Nat} {n : Type} [DecidableEq n] (ks : List (GDict N)) (hk : ∀ k ∈ ks, k.mult = false)
    (X : n → Fin N → ℝ) (p q : n ⊕ n × Fin N) :
    covGrad ks none X p q = (ks.map fun k => k.scaling * gMatrix k.gtype X p q).sum := by
  unfold covGrad
  rw [add_zero]
  induction ks using List.reverseRecOn with
  | nil => simp
  | append_singleton ks k ih =>
    rw [List.foldl_append, List.map_append, List.sum_append, ← ih fun k hk' => hk k (by simp [hk'])]
    simp [hk k (by simp)]

private noncomputable def gD {N : Nat} (g : GType N) (x y : Fin N → ℝ) (b : Fin N) : ℝ :=
  match g with
  | .gaussian w => (w b) ^ (-2 : ℤ) * (x b - y b) * gauss w x y
  | _ => 0

private theorem hasDerivAt_list_sum {ι : Type} (l : List ι) (f : ι → ℝ → ℝ) (f' : ι → ℝ) (t : ℝ)
    (h : ∀ i ∈ l, HasDerivAt (f i) (f' i) t) :
    HasDerivAt (fun s => (l.map fun i => f i s).sum) (l.map f').sum t := by
  induction l with
  | nil => simpa using hasDerivAt_const t (0:ℝ)
  | cons i l ih =>
    simp only [List.map_cons, List.sum_cons]
    exact (h i (by simp)).fun_add (ih fun j hj => h j (by simp [hj]))

private theorem gD_spec {N : Nat} (k : GDict N) (hk : SumKernel k) (x y : Fin N → ℝ) (a : Fin N) :
    HasDerivAt (fun t => k.scaling * gValue k.gtype x (Function.update y a t)) (k.scaling * gD k.gtype x y a) (y a) := by
  refine HasDerivAt.const_mul _ ?_
  obtain ⟨-, hk⟩ := hk
  cases hg : k.gtype <;> rw [hg] at hk <;> try exact hk.elim
  · next w =>
    have h := hasDerivAt_gauss_right w x y (fun b => (hk b).ne') a (y a)
    rw [Function.update_eq_self] at h
    exact h
  · exact hasDerivAt_const _ _

/-- C107: for added Gaussian and constant kernels the blocks of the covariance with gradients are the partial
derivatives of the sum of the scaled kernels. -/
theorem C107_sum_partial {N : Nat} {n : Type} [DecidableEq n] (ks : List (GDict N)) (hk : ∀ k ∈ ks, SumKernel k)
    (X : n → Fin N → ℝ) (i j : n) (a b : Fin N) :
    covGrad ks none X (.inl i) (.inl j) = (ks.map fun k => k.scaling * gValue k.gtype (X i) (X j)).sum ∧
    HasDerivAt (fun t => (ks.map fun k => k.scaling * gValue k.gtype (X j) (Function.update (X i) a t)).sum)
      (covGrad ks none X (.inl j) (.inr (i, a))) (X i a) ∧
    covGrad ks none X (.inr (i, a)) (.inl j) = covGrad ks none X (.inl j) (.inr (i, a)) ∧
    HasDerivAt (fun s => deriv (fun t => (ks.map fun k =>
        k.scaling * gValue k.gtype (Function.update (X j) a s) (Function.update (X i) b t)).sum) (X i b))
      (covGrad ks none X (.inr (j, a)) (.inr (i, b))) (X j a) := by
  have hm : ∀ k ∈ ks, k.mult = false := fun k h => (hk k h).1
  simp only [covGrad_sum ks hm]
  refine ⟨?_, ?_, ?_, ?_⟩
  · congr 1
    refine List.map_congr_left fun k h => ?_
    have := (hk k h).2
    cases hg : k.gtype <;> rw [hg] at this <;> first | exact this.elim | rfl
  · have h := hasDerivAt_list_sum ks (fun k t => k.scaling * gValue k.gtype (X j) (Function.update (X i) a t))
      (fun k => k.scaling * gD k.gtype (X j) (X i) a) (X i a) fun k h => gD_spec k (hk k h) _ _ _
    convert h using 2
    refine List.map_congr_left fun k h => ?_
    have := (hk k h).2
    congr 1
    cases hg : k.gtype <;> rw [hg] at this <;> try exact this.elim
    · simp only [gMatrix, gaussXX, gD, Matrix.fromBlocks_apply₁₂, Matrix.of_apply]
      rw [gauss_symm]
    · rfl
  · congr 1
    refine List.map_congr_left fun k h => ?_
    have := (hk k h).2
    congr 1
    cases hg : k.gtype <;> rw [hg] at this <;> first | exact this.elim | rfl
  · have e : (fun s => deriv (fun t => (ks.map fun k =>
        k.scaling * gValue k.gtype (Function.update (X j) a s) (Function.update (X i) b t)).sum) (X i b)) =
        fun s => (ks.map fun k => k.scaling * gD k.gtype (Function.update (X j) a s) (X i) b).sum := by
      funext s
      exact (hasDerivAt_list_sum ks (fun k t => k.scaling * gValue k.gtype (Function.update (X j) a s)
        (Function.update (X i) b t)) (fun k => k.scaling * gD k.gtype (Function.update (X j) a s) (X i) b) (X i b)
        fun k h => gD_spec k (hk k h) _ _ _).deriv
    rw [e]
    refine hasDerivAt_list_sum ks (fun k s => k.scaling * gD k.gtype (Function.update (X j) a s) (X i) b) _ _ ?_
    intro k h
    refine HasDerivAt.const_mul _ ?_
    have := (hk k h).2
    cases hg : k.gtype <;> rw [hg] at this <;> try exact this.elim
    · next w =>
      have h2 := C46_second_derivatives w this X i j a b
      refine h2.congr_of_eventuallyEq (Filter.Eventually.of_forall fun s => ?_)
      have h3 := (hasDerivAt_gauss_right w (Function.update (X j) a s) (X i) (fun a => (this a).ne') b (X i b)).deriv
      rw [Function.update_eq_self] at h3
      exact h3.symm
    · exact hasDerivAt_const _ _

example : SumKernel (N := 2) ⟨.gaussian ![1, 2], 3, false⟩ ∧ SumKernel (N := 2) ⟨.constant 5, 1, false⟩ := by
  refine ⟨⟨rfl, ?_⟩, rfl, trivial⟩
  intro a
  fin_cases a <;> norm_num

/-- C107 fails for products: a Gaussian kernel multiplied by a constant `c` has second derivative `c / w²` at every
point, the covariance with gradients has zero there. -/
theorem C107_product_violated {N : Nat} {n : Type} [DecidableEq n] (w : Fin N → ℝ) (hw : ∀ a, 0 < w a) (c : ℝ)
    (hc : c ≠ 0) (X : n → Fin N → ℝ) (i : n) (a : Fin N) :
    HasDerivAt (fun s => deriv (fun t => c * Real.exp (-0.5 * ∑ b,
        (Function.update (X i) a s b / w b - Function.update (X i) a t b / w b) ^ 2)) (X i a))
      (c * (w a) ^ (-2 : ℤ)) (X i a) ∧ c * (w a) ^ (-2 : ℤ) ≠ 0 ∧
    covGrad [⟨.gaussian w, 1, false⟩, ⟨.constant c, 1, true⟩] none X (.inr (i, a)) (.inr (i, a)) = 0 := by
  refine ⟨?_, ?_, ?_⟩
  · have h := (C46_second_derivatives w hw X i i a a).const_mul c
    have e : gaussXX w X (.inr (i, a)) (.inr (i, a)) = (w a) ^ (-2 : ℤ) := by
      simp [gaussXX, gauss]
    rw [e] at h
    refine h.congr_of_eventuallyEq (Filter.Eventually.of_forall fun s => ?_)
    exact deriv_const_mul_field _
  · exact mul_ne_zero hc (zpow_ne_zero _ (hw a).ne')
  · simp [covGrad, gMatrix, constantXX]

end CatLearn.Kernel
