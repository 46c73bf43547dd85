import Verif.Props.RidgeRelations

/-!
# Ridge regression of repeated, redundant and irrelevant data (C277), and its dependence on the regularisation (C278)
-/

set_option linter.unusedSectionVars false

namespace CatLearn.RidgeSearch

open CatLearn CatLearn.Ridge CatLearn.Linalg CatLearn.Props Matrix

variable {n d : Type} [Fintype n] [Fintype d] [DecidableEq n] [DecidableEq d]

/-! ### The normal equations, feature by feature -/

private theorem normal_iff (X : Matrix n d ℝ) (Y : n → ℝ) (w p : ℝ) (a : d → ℝ) :
    (Xᵀ * X + w • (1 : Matrix d d ℝ)) *ᵥ a = (Xᵀ *ᵥ Y + fun _ => w * p) ↔
      ∀ j, ∑ i, X i j * ((X *ᵥ a) i - Y i) + w * (a j - p) = 0 := by
  rw [funext_iff]
  refine forall_congr' fun j => ?_
  rw [add_mulVec, smul_mulVec, one_mulVec, ← mulVec_mulVec]
  have h1 : (Xᵀ *ᵥ (X *ᵥ a)) j = ∑ i, X i j * (X *ᵥ a) i := rfl
  have h2 : (Xᵀ *ᵥ Y) j = ∑ i, X i j * Y i := rfl
  simp only [Pi.add_apply, Pi.smul_apply, smul_eq_mul, h1, h2, mul_sub, Finset.sum_sub_distrib]
  constructor <;> intro h <;> linarith

theorem fit_eq {svd : Svd d} (hs : SvdOk svd) (X : Matrix n d ℝ) (Y : n → ℝ) (w p : ℝ) (hw : 0 < w) (j : d) :
    ∑ i, X i j * ((X *ᵥ fit svd X Y w p) i - Y i) + w * (fit svd X Y w p j - p) = 0 :=
  (normal_iff X Y w p _).mp (fit_normal hs X Y w p hw) j

theorem fit_of {svd : Svd d} (hs : SvdOk svd) (X : Matrix n d ℝ) (Y : n → ℝ) (w p : ℝ) (hw : 0 < w) (a : d → ℝ)
    (h : ∀ j, ∑ i, X i j * ((X *ᵥ a) i - Y i) + w * (a j - p) = 0) : fit svd X Y w p = a :=
  fit_unique hs X Y w p hw a ((normal_iff X Y w p a).mpr h)

/-! ### Repeated, redundant and irrelevant data -/

/-- C277: when every data point is measured once for each element of `r`, ridge regression of all measurements gives the
coefficients of ridge regression of the averages, with the regularisation divided by the number of repetitions. -/
theorem C277_repeated {r : Type} [Fintype r] [DecidableEq r] [Nonempty r] (svd : Svd d) (hs : SvdOk svd) (X : Matrix n d ℝ)
    (Y : r × n → ℝ) (w p : ℝ) (hw : 0 < w) :
    (rr svd ⟨none, none⟩ (Matrix.of fun (i : r × n) j => X i.2 j) Y w p false).1 =
      (rr svd ⟨none, none⟩ X (fun i => (∑ q, Y (q, i)) / Fintype.card r) (w / Fintype.card r) p false).1 := by
  have hr : (0 : ℝ) < Fintype.card r := by exact_mod_cast Fintype.card_pos
  refine fit_of hs _ _ w p hw _ fun j => ?_
  have h := fit_eq hs X (fun i => (∑ q, Y (q, i)) / Fintype.card r) (w / Fintype.card r) p (by positivity) j
  change ∑ i, _ + w * (fit svd X (fun i => (∑ q, Y (q, i)) / Fintype.card r) (w / Fintype.card r) p j - p) = 0
  set a := fit svd X (fun i => (∑ q, Y (q, i)) / Fintype.card r) (w / Fintype.card r) p
  have e : ∑ i : r × n, X i.2 j * ((X *ᵥ a) i.2 - Y i) =
      Fintype.card r * ∑ i, X i j * ((X *ᵥ a) i - (∑ q, Y (q, i)) / Fintype.card r) := by
    rw [Fintype.sum_prod_type_right, Finset.mul_sum]
    refine Finset.sum_congr rfl fun i _ => ?_
    change ∑ x, X i j * ((X *ᵥ a) i - Y (x, i)) = _
    rw [← Finset.mul_sum, Finset.sum_sub_distrib, Finset.sum_const, Finset.card_univ, nsmul_eq_mul]
    field_simp
  have e2 : ∑ i : r × n, (Matrix.of fun (i : r × n) j => X i.2 j) i j *
      (((Matrix.of fun (i : r × n) j => X i.2 j) *ᵥ a) i - Y i) = ∑ i : r × n, X i.2 j * ((X *ᵥ a) i.2 - Y i) := rfl
  refine (congrArg (· + w * (a j - p)) (e2.trans e)).trans ?_
  have h3 : (Fintype.card r : ℝ) * (w / Fintype.card r) = w := by field_simp
  calc _ = (Fintype.card r : ℝ) * (∑ i, X i j * ((X *ᵥ a) i - (∑ q, Y (q, i)) / Fintype.card r) + w / Fintype.card r * (a j - p)) := by
        rw [mul_add, ← mul_assoc, h3]
    _ = 0 := by rw [h, mul_zero]

example : ∃ svd : Svd (Fin 2), SvdOk svd ∧ Nonempty (Fin 3) ∧ (0 : ℝ) < 1 := by
  obtain ⟨s, h⟩ := svdOk_exists (d := Fin 2)
  exact ⟨s, h, ⟨0⟩, one_pos⟩

/-- C277: a data point that the model already predicts exactly does not change the coefficients. -/
theorem C277_predicted (svd : Svd d) (hs : SvdOk svd) (X : Matrix n d ℝ) (Y : n → ℝ) (w p : ℝ) (hw : 0 < w) (x : d → ℝ) :
    (rr svd ⟨none, none⟩ (Matrix.of fun (i : Option n) => i.elim x (X ·))
      (fun i => i.elim (∑ j, x j * (rr svd ⟨none, none⟩ X Y w p false).1 j) Y) w p false).1 =
      (rr svd ⟨none, none⟩ X Y w p false).1 := by
  refine fit_of hs _ _ w p hw _ fun j => ?_
  have h := fit_eq hs X Y w p hw j
  rw [Fintype.sum_option]
  refine Eq.trans ?_ h
  have h0 : ((Matrix.of fun (i : Option n) => i.elim x (X ·)) *ᵥ fit svd X Y w p) none - ∑ j, x j * fit svd X Y w p j = 0 :=
    sub_self _
  change x j * (((Matrix.of fun (i : Option n) => i.elim x (X ·)) *ᵥ fit svd X Y w p) none - ∑ j, x j * fit svd X Y w p j) + _ + _ = _
  rw [h0, mul_zero, zero_add]
  rfl

/-- C277: features with the same values have the same coefficient. -/
theorem C277_same_feature (svd : Svd d) (hs : SvdOk svd) (X : Matrix n d ℝ) (Y : n → ℝ) (w p : ℝ) (hw : 0 < w) (j k : d)
    (h : ∀ i, X i j = X i k) :
    (rr svd ⟨none, none⟩ X Y w p false).1 j = (rr svd ⟨none, none⟩ X Y w p false).1 k := by
  change fit svd X Y w p j = fit svd X Y w p k
  have h1 := fit_eq hs X Y w p hw j
  have h2 := fit_eq hs X Y w p hw k
  simp only [h] at h1
  have h3 : w * (fit svd X Y w p j - fit svd X Y w p k) = 0 := by linarith
  have := (mul_eq_zero.mp h3).resolve_left hw.ne'
  linarith

example : ∃ X : Matrix (Fin 3) (Fin 3) ℝ, (∀ i, X i 0 = X i 1) ∧ X 0 0 ≠ X 1 0 ∧ X 0 2 ≠ X 0 1 :=
  ⟨Matrix.of fun i j => if j = 2 then 5 else (i : ℝ), fun i => by simp, by simp, by simp⟩

/-- C277: without a prior, the coefficient of a feature whose values are `c` times those of another is `c` times the
coefficient of that feature; with `c = -1` it is the opposite. -/
theorem C277_multiple (svd : Svd d) (hs : SvdOk svd) (X : Matrix n d ℝ) (Y : n → ℝ) (w c : ℝ) (hw : 0 < w) (j k : d)
    (h : ∀ i, X i j = c * X i k) :
    (rr svd ⟨none, none⟩ X Y w 0 false).1 j = c * (rr svd ⟨none, none⟩ X Y w 0 false).1 k := by
  change fit svd X Y w 0 j = c * fit svd X Y w 0 k
  have h1 := fit_eq hs X Y w 0 hw j
  have h2 := fit_eq hs X Y w 0 hw k
  simp only [h, mul_assoc, ← Finset.mul_sum, sub_zero] at h1
  rw [sub_zero] at h2
  have h3 : w * (fit svd X Y w 0 j - c * fit svd X Y w 0 k) = 0 := by linear_combination h1 - c * h2
  have := (mul_eq_zero.mp h3).resolve_left hw.ne'
  linarith

/-- C277: a feature that is zero for all data has the prior as coefficient, and the coefficients of the other features are
those without it. -/
theorem C277_zero_feature (svd : Svd d) (svd' : Svd (Option d)) (hs : SvdOk svd) (hs' : SvdOk svd') (X : Matrix n d ℝ) (Y : n → ℝ)
    (w p : ℝ) (hw : 0 < w) :
    (rr svd' ⟨none, none⟩ (Matrix.of fun i (j : Option d) => j.elim 0 (X i)) Y w p false).1 =
      fun j => j.elim p (rr svd ⟨none, none⟩ X Y w p false).1 := by
  refine fit_of hs' _ _ w p hw _ fun j => ?_
  have e : ∀ i, ((Matrix.of fun i (j : Option d) => j.elim 0 (X i)) *ᵥ fun j => j.elim p (rr svd ⟨none, none⟩ X Y w p false).1) i =
      (X *ᵥ fit svd X Y w p) i := by
    intro i
    simp [mulVec, dotProduct, Fintype.sum_option, fit]
  simp only [e]
  cases j with
  | none => simp
  | some j => exact fit_eq hs X Y w p hw j

example : (∃ svd : Svd (Fin 2), SvdOk svd) ∧ ∃ svd : Svd (Option (Fin 2)), SvdOk svd := ⟨svdOk_exists, svdOk_exists⟩

/-- C277: the coefficients of a sum of targets (and of priors) are the sums of the coefficients. -/
theorem C277_sum (svd : Svd d) (hs : SvdOk svd) (X : Matrix n d ℝ) (Y Z : n → ℝ) (w p q : ℝ) (hw : 0 < w) :
    (rr svd ⟨none, none⟩ X (Y + Z) w (p + q) false).1 =
      (rr svd ⟨none, none⟩ X Y w p false).1 + (rr svd ⟨none, none⟩ X Z w q false).1 := by
  refine fit_unique hs _ _ w _ hw _ ?_
  have h1 := fit_normal hs X Y w p hw
  have h2 := fit_normal hs X Z w q hw
  change _ *ᵥ (fit svd X Y w p + fit svd X Z w q) = _
  rw [mulVec_add, h1, h2, mulVec_add]
  funext i
  simp only [Pi.add_apply]
  ring

/-- C277: targets that are given exactly by coefficients equal to the prior are fitted exactly. -/
theorem C277_exact (svd : Svd d) (hs : SvdOk svd) (X : Matrix n d ℝ) (w p : ℝ) (hw : 0 < w) :
    (rr svd ⟨none, none⟩ X (X *ᵥ fun _ => p) w p false).1 = fun _ => p := by
  refine fit_of hs _ _ w p hw _ fun j => ?_
  simp

/-! ### More regularisation -/

private theorem cost_le {svd : Svd d} (hs : SvdOk svd) (X : Matrix n d ℝ) (Y : n → ℝ) (w p : ℝ) (hw : 0 < w) (b : d → ℝ) :
    ridgeCost X Y w p (fit svd X Y w p) ≤ ridgeCost X Y w p b := by
  by_cases h : b = fit svd X Y w p
  · rw [h]
  · exact (min_of_normal X Y w p hw _ b (fit_normal hs X Y w p hw) h).le

/-- C278: a larger regularisation never fits the training data better, and never gives coefficients farther from the prior. -/
theorem C278_monotone (svd : Svd d) (hs : SvdOk svd) (X : Matrix n d ℝ) (Y : n → ℝ) (v w p : ℝ) (hv : 0 < v) (hvw : v ≤ w) :
    (∑ i, (predict (rr svd ⟨none, none⟩ X Y v p false).1 X i - Y i) ^ 2 ≤
      ∑ i, (predict (rr svd ⟨none, none⟩ X Y w p false).1 X i - Y i) ^ 2) ∧
    ∑ j, ((rr svd ⟨none, none⟩ X Y w p false).1 j - p) ^ 2 ≤ ∑ j, ((rr svd ⟨none, none⟩ X Y v p false).1 j - p) ^ 2 := by
  change (∑ i, ((X *ᵥ fit svd X Y v p) i - Y i) ^ 2 ≤ ∑ i, ((X *ᵥ fit svd X Y w p) i - Y i) ^ 2) ∧
    ∑ j, (fit svd X Y w p j - p) ^ 2 ≤ ∑ j, (fit svd X Y v p j - p) ^ 2
  rcases hvw.eq_or_lt with rfl | hlt
  · exact ⟨le_rfl, le_rfl⟩
  have h1 := cost_le hs X Y v p hv (fit svd X Y w p)
  have h2 := cost_le hs X Y w p (hv.trans hlt) (fit svd X Y v p)
  unfold ridgeCost at h1 h2
  set E1 := ∑ i, ((X *ᵥ fit svd X Y v p) i - Y i) ^ 2
  set E2 := ∑ i, ((X *ᵥ fit svd X Y w p) i - Y i) ^ 2
  set S1 := ∑ j, (fit svd X Y v p j - p) ^ 2
  set S2 := ∑ j, (fit svd X Y w p j - p) ^ 2
  have h3 : S2 ≤ S1 := by
    have : (w - v) * S2 ≤ (w - v) * S1 := by linarith
    exact le_of_mul_le_mul_left this (by linarith)
  refine ⟨?_, h3⟩
  have := mul_le_mul_of_nonneg_left h3 hv.le
  linarith

example : (0 : ℝ) < 1 ∧ (1 : ℝ) ≤ 10 := by norm_num

/-- C278: the coefficients are never farther from the prior than allowed by the targets: `ω²` times the squared distance to
the prior is at most the sum of squared errors of the prior, so the coefficients tend to the prior for large `ω²`. -/
theorem C278_bound (svd : Svd d) (hs : SvdOk svd) (X : Matrix n d ℝ) (Y : n → ℝ) (w p : ℝ) (hw : 0 < w) :
    w * ∑ j, ((rr svd ⟨none, none⟩ X Y w p false).1 j - p) ^ 2 ≤ ∑ i, ((X *ᵥ fun _ => p) i - Y i) ^ 2 ∧
    ∑ i, (predict (rr svd ⟨none, none⟩ X Y w p false).1 X i - Y i) ^ 2 ≤ ∑ i, ((X *ᵥ fun _ => p) i - Y i) ^ 2 := by
  have h := cost_le hs X Y w p hw (fun _ => p)
  unfold ridgeCost at h
  simp only [sub_self, ne_eq, OfNat.ofNat_ne_zero, not_false_eq_true, zero_pow, Finset.sum_const_zero, mul_zero, add_zero] at h
  change w * ∑ j, (fit svd X Y w p j - p) ^ 2 ≤ _ ∧ ∑ i, ((X *ᵥ fit svd X Y w p) i - Y i) ^ 2 ≤ _
  have h1 : 0 ≤ ∑ i, ((X *ᵥ fit svd X Y w p) i - Y i) ^ 2 := Finset.sum_nonneg fun _ _ => sq_nonneg _
  have h2 : 0 ≤ w * ∑ j, (fit svd X Y w p j - p) ^ 2 := mul_nonneg hw.le (Finset.sum_nonneg fun _ _ => sq_nonneg _)
  constructor <;> linarith

/-- C278: every coefficient tends to the prior as the regularisation grows. -/
theorem C278_limit (svd : Svd d) (hs : SvdOk svd) (X : Matrix n d ℝ) (Y : n → ℝ) (p : ℝ) (j : d) :
    Filter.Tendsto (fun w => (rr svd ⟨none, none⟩ X Y w p false).1 j) Filter.atTop (nhds p) := by
  set B := ∑ i, ((X *ᵥ fun _ => p) i - Y i) ^ 2
  have hz : Filter.Tendsto (fun w : ℝ => Real.sqrt (B / w)) Filter.atTop (nhds 0) := by
    have h := (Filter.Tendsto.div_atTop (tendsto_const_nhds (x := B)) Filter.tendsto_id).sqrt
    simpa using h
  rw [tendsto_iff_dist_tendsto_zero]
  refine squeeze_zero' (Filter.Eventually.of_forall fun _ => dist_nonneg) ?_ hz
  filter_upwards [Filter.eventually_gt_atTop 0] with w hw
  have h := (C278_bound svd hs X Y w p hw).1
  rw [Real.dist_eq]
  refine Real.le_sqrt_of_sq_le ?_
  rw [sq_abs, le_div_iff₀ hw]
  have h1 : ((rr svd ⟨none, none⟩ X Y w p false).1 j - p) ^ 2 ≤ ∑ j, ((rr svd ⟨none, none⟩ X Y w p false).1 j - p) ^ 2 :=
    Finset.single_le_sum (f := fun j => ((rr svd ⟨none, none⟩ X Y w p false).1 j - p) ^ 2) (fun _ _ => sq_nonneg _) (Finset.mem_univ j)
  have h2 := mul_le_mul_of_nonneg_left h1 hw.le
  linarith

end CatLearn.RidgeSearch
