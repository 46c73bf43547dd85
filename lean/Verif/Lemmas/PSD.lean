import Mathlib.Algebra.Order.Star.Real
import Mathlib.Analysis.Matrix.Order
import Mathlib.Analysis.SpecialFunctions.Exponential
import Mathlib.Analysis.SpecialFunctions.Gamma.Basic
import Mathlib.Analysis.SpecialFunctions.ImproperIntegrals
import Mathlib.Analysis.SpecialFunctions.Integrals.Basic

/-!
# Positive semidefinite kernels

A kernel on a set is a matrix indexed by the set; `Matrix.PosSemidef` makes sense for infinite index sets.
-/

namespace CatLearn.PSD

open Matrix MeasureTheory Set

variable {α β : Type}

/-- `k` is a positive semidefinite kernel. -/
abbrev PSDK (k : α → α → ℝ) : Prop := (Matrix.of k).PosSemidef

theorem psdk_of_form {k : α → α → ℝ} (hs : ∀ x y, k x y = k y x)
    (h : ∀ (s : Finset α) (v : α → ℝ), 0 ≤ ∑ i ∈ s, ∑ j ∈ s, v i * k i j * v j) : PSDK k := by
  refine ⟨?_, fun x => ?_⟩
  · ext i j
    simp only [conjTranspose_apply, of_apply, star_trivial]
    exact hs j i
  · have := h x.support x
    simpa [Finsupp.sum] using this

theorem PSDK.symm {k : α → α → ℝ} (h : PSDK k) (x y : α) : k x y = k y x := by
  have := congrFun (congrFun h.1 y) x
  simpa using this

theorem PSDK.form {k : α → α → ℝ} (h : PSDK k) (s : Finset α) (v : α → ℝ) :
    0 ≤ ∑ i ∈ s, ∑ j ∈ s, v i * k i j * v j := by
  classical
  have := h.2 (Finsupp.onFinset s (fun i => if i ∈ s then v i else 0) (by
    intro a ha
    by_contra hc
    simp [hc] at ha))
  rw [Finsupp.onFinset_sum _ (by simp)] at this
  have e : ∑ i ∈ s, ∑ j ∈ s, v i * k i j * v j =
      ∑ a ∈ s, (Finsupp.onFinset s (fun i => if i ∈ s then v i else 0) (by
        intro a ha
        by_contra hc
        simp [hc] at ha)).sum fun j xj => star (if a ∈ s then v a else 0) * Matrix.of k a j * xj := by
    apply Finset.sum_congr rfl
    intro i hi
    rw [Finsupp.onFinset_sum _ (by simp)]
    apply Finset.sum_congr rfl
    intro j hj
    simp [hi, hj]
  rw [e]
  exact this

theorem psdk_zero : PSDK (fun _ _ : α => (0:ℝ)) :=
  psdk_of_form (fun _ _ => rfl) (fun _ _ => by simp)

theorem psdk_rank_one (f : α → ℝ) : PSDK (fun x y => f x * f y) := by
  refine psdk_of_form (fun x y => mul_comm _ _) (fun s v => ?_)
  have : ∑ i ∈ s, ∑ j ∈ s, v i * (f i * f j) * v j = (∑ i ∈ s, v i * f i) ^ 2 := by
    rw [sq, Finset.sum_mul_sum]
    apply Finset.sum_congr rfl
    intro i _
    apply Finset.sum_congr rfl
    intro j _
    ring
  rw [this]
  exact sq_nonneg _

theorem psdk_const {c : ℝ} (hc : 0 ≤ c) : PSDK (fun _ _ : α => c) := by
  have := psdk_rank_one (fun _ : α => Real.sqrt c)
  simpa [Real.mul_self_sqrt hc] using this

theorem PSDK.add {k l : α → α → ℝ} (hk : PSDK k) (hl : PSDK l) : PSDK (fun x y => k x y + l x y) := by
  refine psdk_of_form (fun x y => by rw [hk.symm, hl.symm]) (fun s v => ?_)
  have h1 := hk.form s v
  have h2 := hl.form s v
  have : ∑ i ∈ s, ∑ j ∈ s, v i * (k i j + l i j) * v j =
      ∑ i ∈ s, ∑ j ∈ s, v i * k i j * v j + ∑ i ∈ s, ∑ j ∈ s, v i * l i j * v j := by
    simp only [← Finset.sum_add_distrib]
    apply Finset.sum_congr rfl
    intro i _
    apply Finset.sum_congr rfl
    intro j _
    ring
  rw [this]
  exact add_nonneg h1 h2

theorem PSDK.mul {k l : α → α → ℝ} (hk : PSDK k) (hl : PSDK l) : PSDK (fun x y => k x y * l x y) :=
  hk.hadamard hl

theorem PSDK.smul {k : α → α → ℝ} (hk : PSDK k) {c : ℝ} (hc : 0 ≤ c) : PSDK (fun x y => c * k x y) :=
  (psdk_const hc).mul hk

theorem PSDK.comp {k : α → α → ℝ} (hk : PSDK k) (f : β → α) : PSDK (fun x y => k (f x) (f y)) :=
  hk.submatrix f

theorem PSDK.pow {k : α → α → ℝ} (hk : PSDK k) (m : ℕ) : PSDK (fun x y => k x y ^ m) := by
  induction m with
  | zero => simpa using psdk_const (α := α) zero_le_one
  | succ m ih => simpa only [pow_succ] using ih.mul hk

theorem psdk_list_sum {ι : Type} (l : List ι) (k : ι → α → α → ℝ) (h : ∀ i ∈ l, PSDK (k i)) :
    PSDK (fun x y => (l.map fun i => k i x y).sum) := by
  induction l with
  | nil => simpa using psdk_zero
  | cons i l ih =>
    simp only [List.map_cons, List.sum_cons]
    exact (h i (by simp)).add (ih fun j hj => h j (by simp [hj]))

theorem psdk_list_prod {ι : Type} (l : List ι) (k : ι → α → α → ℝ) (h : ∀ i ∈ l, PSDK (k i)) :
    PSDK (fun x y => (l.map fun i => k i x y).prod) := by
  induction l with
  | nil => simpa using psdk_const (α := α) zero_le_one
  | cons i l ih =>
    simp only [List.map_cons, List.prod_cons]
    exact (h i (by simp)).mul (ih fun j hj => h j (by simp [hj]))

/-- A pointwise limit of positive semidefinite kernels is positive semidefinite. -/
theorem psdk_of_tendsto {k : ℕ → α → α → ℝ} {l : α → α → ℝ} (hk : ∀ m, PSDK (k m))
    (h : ∀ x y, Filter.Tendsto (fun m => k m x y) Filter.atTop (nhds (l x y))) : PSDK l := by
  refine psdk_of_form (fun x y => ?_) (fun s v => ?_)
  · refine tendsto_nhds_unique (h x y) ?_
    have : (fun m => k m x y) = fun m => k m y x := by funext m; exact (hk m).symm x y
    rw [this]
    exact h y x
  · refine ge_of_tendsto' (tendsto_finsetSum s fun i _ => tendsto_finsetSum s fun j _ =>
      (((h i j).const_mul (v i)).mul_const (v j))) (fun m => (hk m).form s v)

/-- The exponential of a positive semidefinite kernel. -/
theorem PSDK.exp {k : α → α → ℝ} (hk : PSDK k) : PSDK (fun x y => Real.exp (k x y)) := by
  refine psdk_of_tendsto (k := fun m x y => ((List.range m).map fun i => (k x y ^ i) / (i.factorial : ℝ)).sum)
    (fun m => ?_) (fun x y => ?_)
  · refine psdk_list_sum _ (fun i x y => (k x y ^ i) / (i.factorial : ℝ)) (fun i _ => ?_)
    have := (hk.pow i).smul (c := (i.factorial : ℝ)⁻¹) (by positivity)
    simpa [div_eq_inv_mul] using this
  · have := (NormedSpace.expSeries_div_hasSum_exp (k x y)).tendsto_sum_nat
    rw [← Real.exp_eq_exp_ℝ] at this
    refine this.congr fun m => ?_
    induction m with
    | zero => rfl
    | succ m ih => rw [Finset.sum_range_succ, List.range_succ, List.map_append, List.sum_append, ih]; simp

/-- The Gaussian kernel on the real line. -/
theorem psdk_gauss : PSDK (fun s t : ℝ => Real.exp (-0.5 * (s - t) ^ 2)) := by
  have h1 : PSDK (fun s t : ℝ => Real.exp (s * t)) := (psdk_rank_one fun s : ℝ => s).exp
  have h2 := (psdk_rank_one fun s : ℝ => Real.exp (-0.5 * s ^ 2)).mul h1
  have : (fun s t : ℝ => Real.exp (-0.5 * s ^ 2) * Real.exp (-0.5 * t ^ 2) * Real.exp (s * t)) =
      fun s t : ℝ => Real.exp (-0.5 * (s - t) ^ 2) := by
    funext s t
    rw [← Real.exp_add, ← Real.exp_add]
    congr 1
    ring
  rwa [this] at h2

/-- An integral of positive semidefinite kernels. -/
theorem psdk_integral {μ : Measure ℝ} {k : ℝ → α → α → ℝ} (hk : ∀ᵐ u ∂μ, PSDK (k u))
    (hint : ∀ x y, Integrable (fun u => k u x y) μ) : PSDK (fun x y => ∫ u, k u x y ∂μ) := by
  refine psdk_of_form (fun x y => integral_congr_ae (hk.mono fun u hu => hu.symm x y)) (fun s v => ?_)
  have e : ∑ i ∈ s, ∑ j ∈ s, v i * (∫ u, k u i j ∂μ) * v j = ∫ u, ∑ i ∈ s, ∑ j ∈ s, v i * k u i j * v j ∂μ := by
    rw [integral_finsetSum s fun i _ => integrable_finsetSum s fun j _ => ((hint i j).const_mul _).mul_const _]
    apply Finset.sum_congr rfl
    intro i _
    rw [integral_finsetSum s fun j _ => ((hint i j).const_mul _).mul_const _]
    apply Finset.sum_congr rfl
    intro j _
    rw [integral_mul_const, integral_const_mul]
  rw [e]
  exact integral_nonneg_of_ae (hk.mono fun u hu => hu.form s v)

/-- The minimum of two non-negative numbers. -/
theorem psdk_min {f : α → ℝ} (hf : ∀ x, 0 ≤ f x) : PSDK (fun x y => min (f x) (f y)) := by
  have e0 : ∀ x y : α, (fun u => (Iic (f x)).indicator (1 : ℝ → ℝ) u * (Iic (f y)).indicator 1 u) =
      (Iic (min (f x) (f y))).indicator 1 := by
    intro x y
    funext u
    by_cases h1 : u ≤ f x <;> by_cases h2 : u ≤ f y <;> simp [indicator, h1, h2]
  have e1 : ∀ x y : α, ∫ u in Ioi (0:ℝ), (Iic (f x)).indicator 1 u * (Iic (f y)).indicator 1 u = min (f x) (f y) := by
    intro x y
    rw [e0, integral_indicator_one measurableSet_Iic, measureReal_restrict_apply measurableSet_Iic]
    rw [Set.inter_comm, Ioi_inter_Iic]
    simp [le_min (hf x) (hf y)]
  have := psdk_integral (μ := volume.restrict (Ioi (0:ℝ)))
    (k := fun u x y => (Iic (f x)).indicator (1 : ℝ → ℝ) u * (Iic (f y)).indicator 1 u)
    (Filter.Eventually.of_forall fun u => psdk_rank_one fun x => (Iic (f x)).indicator (1 : ℝ → ℝ) u) (by
      intro x y
      rw [e0]
      rw [integrable_indicator_iff measurableSet_Iic]
      simp only [IntegrableOn, Measure.restrict_restrict measurableSet_Iic]
      rw [Set.inter_comm, Ioi_inter_Iic]
      exact integrableOn_const (by simp) (by simp))
  simpa only [e1] using this

/-- The exponential kernel on the real line. -/
theorem psdk_laplace : PSDK (fun s t : ℝ => Real.exp (-|s - t|)) := by
  have h1 := psdk_min (f := fun s : ℝ => Real.exp (2 * s)) fun s => (Real.exp_pos _).le
  have h2 := (psdk_rank_one fun s : ℝ => Real.exp (-s)).mul h1
  have : (fun s t : ℝ => Real.exp (-s) * Real.exp (-t) * min (Real.exp (2 * s)) (Real.exp (2 * t))) =
      fun s t : ℝ => Real.exp (-|s - t|) := by
    funext s t
    rcases le_total s t with h | h
    · rw [min_eq_left (Real.exp_le_exp.mpr (by linarith)), ← Real.exp_add, ← Real.exp_add,
        abs_of_nonpos (by linarith)]
      congr 1; ring
    · rw [min_eq_right (Real.exp_le_exp.mpr (by linarith)), ← Real.exp_add, ← Real.exp_add,
        abs_of_nonneg (by linarith)]
      congr 1; ring
  rwa [this] at h2

/-- A kernel all of whose Gaussian-like transforms are positive semidefinite (for instance a squared distance). -/
def NegType (q : α → α → ℝ) : Prop := (∀ x y, 0 ≤ q x y) ∧ ∀ u : ℝ, 0 ≤ u → PSDK (fun x y => Real.exp (-(u * q x y)))

/-- The rational quadratic kernel. -/
theorem NegType.quadratic {q : α → α → ℝ} (hq : NegType q) {a : ℝ} (ha : 0 < a) :
    PSDK (fun x y => (1 + q x y) ^ (-a)) := by
  have hint : ∀ x y, IntegrableOn (fun t : ℝ => t ^ (a - 1) * Real.exp (-((1 + q x y) * t))) (Ioi 0) := by
    intro x y
    have h1 : 0 < 1 + q x y := by linarith [hq.1 x y]
    by_contra hc
    have h2 := Real.integral_rpow_mul_exp_neg_mul_Ioi ha h1
    rw [integral_undef hc] at h2
    have : 0 < (1 / (1 + q x y)) ^ a * Real.Gamma a := by
      have := Real.Gamma_pos_of_pos ha
      positivity
    linarith
  have h1 := psdk_integral (μ := volume.restrict (Ioi (0:ℝ)))
    (k := fun t x y => t ^ (a - 1) * Real.exp (-((1 + q x y) * t))) (by
      refine (ae_restrict_mem measurableSet_Ioi).mono fun t ht => ?_
      have h2 := (hq.2 t (le_of_lt ht)).smul (c := t ^ (a - 1) * Real.exp (-t))
        (mul_nonneg (Real.rpow_nonneg (le_of_lt ht) _) (Real.exp_pos _).le)
      have : (fun x y => t ^ (a - 1) * Real.exp (-t) * Real.exp (-(t * q x y))) =
          fun x y => t ^ (a - 1) * Real.exp (-((1 + q x y) * t)) := by
        funext x y
        rw [mul_assoc, ← Real.exp_add]
        congr 2; ring
      rwa [this] at h2) hint
  have h2 := h1.smul (c := (Real.Gamma a)⁻¹) (inv_nonneg.mpr (Real.Gamma_pos_of_pos ha).le)
  have : (fun x y => (Real.Gamma a)⁻¹ * ∫ t in Ioi (0:ℝ), t ^ (a - 1) * Real.exp (-((1 + q x y) * t))) =
      fun x y => (1 + q x y) ^ (-a) := by
    funext x y
    have h1 : 0 < 1 + q x y := by linarith [hq.1 x y]
    have hg := (Real.Gamma_pos_of_pos ha).ne'
    rw [Real.integral_rpow_mul_exp_neg_mul_Ioi ha h1, Real.rpow_neg h1.le, one_div, Real.inv_rpow h1.le]
    field_simp
  rwa [this] at h2

/-- Squared differences are of negative type. -/
theorem negType_sq (f : α → ℝ) : NegType (fun x y => (f x - f y) ^ 2) := by
  refine ⟨fun x y => sq_nonneg _, fun u hu => ?_⟩
  have h := psdk_gauss.comp fun x : α => Real.sqrt (2 * u) * f x
  have : (fun x y => Real.exp (-0.5 * (Real.sqrt (2 * u) * f x - Real.sqrt (2 * u) * f y) ^ 2)) =
      fun x y => Real.exp (-(u * (f x - f y) ^ 2)) := by
    funext x y
    congr 1
    rw [← mul_sub, mul_pow, Real.sq_sqrt (by linarith)]
    ring
  rwa [this] at h

theorem negType_list_sum {ι : Type} (l : List ι) (q : ι → α → α → ℝ) (h : ∀ i ∈ l, NegType (q i)) :
    NegType (fun x y => (l.map fun i => q i x y).sum) := by
  refine ⟨fun x y => List.sum_nonneg (by
    intro a ha
    obtain ⟨i, hi, rfl⟩ := List.mem_map.mp ha
    exact (h i hi).1 x y), fun u hu => ?_⟩
  have h1 := psdk_list_prod l (fun i x y => Real.exp (-(u * q i x y))) fun i hi => (h i hi).2 u hu
  have : (fun x y => (l.map fun i => Real.exp (-(u * q i x y))).prod) =
      fun x y => Real.exp (-(u * (l.map fun i => q i x y).sum)) := by
    funext x y
    clear h h1
    induction l with
    | nil => simp
    | cons i l ih =>
      simp only [List.map_cons, List.prod_cons, List.sum_cons]
      rw [ih, ← Real.exp_add]
      congr 1; ring
  rwa [this] at h1

theorem NegType.smul {q : α → α → ℝ} (h : NegType q) {c : ℝ} (hc : 0 ≤ c) : NegType (fun x y => c * q x y) := by
  refine ⟨fun x y => mul_nonneg hc (h.1 x y), fun u hu => ?_⟩
  have := h.2 (u * c) (mul_nonneg hu hc)
  simpa [mul_assoc] using this

theorem negType_abs (f : α → ℝ) : NegType (fun x y => |f x - f y|) := by
  refine ⟨fun x y => abs_nonneg _, fun u hu => ?_⟩
  have h := psdk_laplace.comp fun x : α => u * f x
  have : (fun x y => Real.exp (-|u * f x - u * f y|)) = fun x y => Real.exp (-(u * |f x - f y|)) := by
    funext x y
    rw [← mul_sub, abs_mul, abs_of_nonneg hu]
  rwa [this] at h

/-- The function whose integral against the scale gives the square root. -/
private noncomputable def sq0 (q t : ℝ) : ℝ := (1 - Real.exp (-(t * q))) * t ^ (-(3/2) : ℝ)

private theorem sq0_nonneg {q t : ℝ} (hq : 0 ≤ q) (ht : 0 < t) : 0 ≤ sq0 q t := by
  unfold sq0
  have : Real.exp (-(t * q)) ≤ 1 := by
    rw [Real.exp_le_one_iff]
    have := mul_nonneg ht.le hq
    linarith
  exact mul_nonneg (by linarith) (Real.rpow_nonneg ht.le _)

private theorem sq0_one_integrable : IntegrableOn (sq0 1) (Ioi 0) := by
  rw [← Ioc_union_Ioi_eq_Ioi (zero_le_one (α := ℝ))]
  have hm : Measurable (sq0 1) := by
    unfold sq0
    fun_prop
  refine IntegrableOn.union ?_ ?_
  · have h1 : IntegrableOn (fun t : ℝ => t ^ (-(1/2) : ℝ)) (Ioc 0 1) := by
      have := (intervalIntegral.intervalIntegrable_rpow' (a := 0) (b := 1) (r := -(1/2)) (by norm_num))
      rwa [intervalIntegrable_iff_integrableOn_Ioc_of_le zero_le_one] at this
    refine h1.mono' hm.aestronglyMeasurable ?_
    refine (ae_restrict_mem measurableSet_Ioc).mono fun t ht => ?_
    rw [Real.norm_of_nonneg (sq0_nonneg zero_le_one ht.1)]
    unfold sq0
    have h2 : 1 - Real.exp (-(t * 1)) ≤ t := by
      have := Real.add_one_le_exp (-(t * 1))
      linarith
    calc (1 - Real.exp (-(t * 1))) * t ^ (-(3/2) : ℝ) ≤ t * t ^ (-(3/2) : ℝ) :=
          mul_le_mul_of_nonneg_right h2 (Real.rpow_nonneg ht.1.le _)
      _ = t ^ (-(1/2) : ℝ) := by
          nth_rewrite 1 [← Real.rpow_one t]
          rw [← Real.rpow_add ht.1]
          norm_num
  · have h1 : IntegrableOn (fun t : ℝ => t ^ (-(3/2) : ℝ)) (Ioi 1) :=
      integrableOn_Ioi_rpow_of_lt (by norm_num) one_pos
    refine h1.mono' hm.aestronglyMeasurable ?_
    refine (ae_restrict_mem measurableSet_Ioi).mono fun t ht => ?_
    have ht0 : 0 < t := lt_trans one_pos ht
    rw [Real.norm_of_nonneg (sq0_nonneg zero_le_one ht0)]
    unfold sq0
    have : 1 - Real.exp (-(t * 1)) ≤ 1 := by linarith [Real.exp_pos (-(t * 1))]
    calc (1 - Real.exp (-(t * 1))) * t ^ (-(3/2) : ℝ) ≤ 1 * t ^ (-(3/2) : ℝ) :=
          mul_le_mul_of_nonneg_right this (Real.rpow_nonneg ht0.le _)
      _ = _ := one_mul _

private theorem sq0_scale {q : ℝ} (hq : 0 < q) {t : ℝ} (ht : 0 < t) : sq0 q t = q ^ (3/2 : ℝ) * sq0 1 (q * t) := by
  unfold sq0
  rw [Real.mul_rpow hq.le ht.le, mul_one, mul_comm q t]
  have : q ^ (3/2 : ℝ) * q ^ (-(3/2) : ℝ) = 1 := by
    rw [← Real.rpow_add hq]; norm_num
  linear_combination (-(1 - Real.exp (-(t * q))) * t ^ (-(3/2) : ℝ)) * this

private theorem sq0_integrable {q : ℝ} (hq : 0 ≤ q) : IntegrableOn (sq0 q) (Ioi 0) := by
  rcases hq.eq_or_lt with rfl | hq
  · have : sq0 0 = fun _ => 0 := by funext t; simp [sq0]
    rw [this]
    exact integrableOn_zero
  · have h1 := (integrableOn_Ioi_comp_mul_left_iff (sq0 1) 0 hq).mpr (by simpa using sq0_one_integrable)
    refine (h1.const_mul (q ^ (3/2 : ℝ))).congr ?_
    refine (ae_restrict_mem measurableSet_Ioi).mono fun t ht => ?_
    exact (sq0_scale hq ht).symm

private theorem sq0_integral {q : ℝ} (hq : 0 ≤ q) :
    ∫ t in Ioi 0, sq0 q t = Real.sqrt q * ∫ t in Ioi 0, sq0 1 t := by
  rcases hq.eq_or_lt with rfl | hq
  · simp [sq0]
  · have h1 := integral_comp_mul_left_Ioi (sq0 1) 0 hq
    have h2 : ∫ t in Ioi 0, sq0 q t = ∫ t in Ioi 0, q ^ (3/2 : ℝ) * sq0 1 (q * t) :=
      setIntegral_congr_fun measurableSet_Ioi fun t ht => sq0_scale hq ht
    rw [h2, integral_const_mul, h1, mul_zero, smul_eq_mul, ← mul_assoc]
    congr 1
    rw [Real.sqrt_eq_rpow, ← Real.rpow_neg_one q, ← Real.rpow_add hq]
    norm_num

private theorem sq0_const_pos : 0 < ∫ t in Ioi 0, sq0 1 t := by
  rw [setIntegral_pos_iff_support_of_nonneg_ae]
  · have : Ioi (0:ℝ) ⊆ Function.support (sq0 1) ∩ Ioi 0 := by
      intro t ht
      refine ⟨?_, ht⟩
      rw [Function.mem_support]
      unfold sq0
      have h1 : Real.exp (-(t * 1)) < 1 := by
        rw [Real.exp_lt_one_iff]
        simpa using ht
      exact (mul_pos (by linarith) (Real.rpow_pos_of_pos ht _)).ne'
    refine lt_of_lt_of_le ?_ (measure_mono this)
    simp
  · exact (ae_restrict_mem measurableSet_Ioi).mono fun t ht => sq0_nonneg zero_le_one ht
  · exact sq0_one_integrable

/-- The square root of a kernel of negative type. -/
theorem NegType.sqrt {q : α → α → ℝ} (hq : NegType q) : NegType (fun x y => Real.sqrt (q x y)) := by
  refine ⟨fun x y => Real.sqrt_nonneg _, fun u hu => ?_⟩
  set C := ∫ t in Ioi 0, sq0 1 t with hC
  have hCpos : 0 < C := sq0_const_pos
  let S : ℕ → Set ℝ := fun m => Ioi (1 / ((m : ℝ) + 1))
  have hSpos : ∀ m : ℕ, (0:ℝ) < 1 / ((m : ℝ) + 1) := fun m => by positivity
  have hSsub : ∀ m, S m ⊆ Ioi 0 := fun m t ht => lt_trans (hSpos m) ht
  refine psdk_of_tendsto (k := fun m x y => Real.exp (-((u / C) * ∫ t in S m, sq0 (q x y) t))) (fun m => ?_)
    (fun x y => ?_)
  · have hint : IntegrableOn (fun t : ℝ => t ^ (-(3/2) : ℝ)) (S m) :=
      integrableOn_Ioi_rpow_of_lt (by norm_num) (hSpos m)
    have hint2 : ∀ x y, IntegrableOn (fun t : ℝ => t ^ (-(3/2) : ℝ) * Real.exp (-(t * q x y))) (S m) := by
      intro x y
      refine hint.mono' (by fun_prop) ?_
      refine (ae_restrict_mem measurableSet_Ioi).mono fun t ht => ?_
      have ht0 : 0 < t := hSsub m ht
      have h3 := Real.rpow_nonneg ht0.le (-(3/2) : ℝ)
      rw [Real.norm_of_nonneg (mul_nonneg h3 (Real.exp_pos _).le)]
      have : Real.exp (-(t * q x y)) ≤ 1 := by
        rw [Real.exp_le_one_iff]
        have := mul_nonneg ht0.le (hq.1 x y)
        linarith
      calc _ ≤ t ^ (-(3/2) : ℝ) * 1 := mul_le_mul_of_nonneg_left this h3
        _ = _ := mul_one _
    have h1 := psdk_integral (μ := volume.restrict (S m))
      (k := fun t x y => t ^ (-(3/2) : ℝ) * Real.exp (-(t * q x y))) (by
        refine (ae_restrict_mem measurableSet_Ioi).mono fun t ht => ?_
        have ht0 : 0 < t := hSsub m ht
        exact (hq.2 t ht0.le).smul (Real.rpow_nonneg ht0.le _)) hint2
    have h2 := (h1.smul (c := u / C) (by positivity)).exp
    have h3 := h2.smul (c := Real.exp (-((u / C) * ∫ t in S m, t ^ (-(3/2) : ℝ)))) (Real.exp_pos _).le
    have : (fun x y => Real.exp (-((u / C) * ∫ t in S m, t ^ (-(3/2) : ℝ))) *
        Real.exp ((u / C) * ∫ t in S m, t ^ (-(3/2) : ℝ) * Real.exp (-(t * q x y)))) =
        fun x y => Real.exp (-((u / C) * ∫ t in S m, sq0 (q x y) t)) := by
      funext x y
      rw [← Real.exp_add]
      congr 1
      have : ∫ t in S m, sq0 (q x y) t =
          (∫ t in S m, t ^ (-(3/2) : ℝ)) - ∫ t in S m, t ^ (-(3/2) : ℝ) * Real.exp (-(t * q x y)) := by
        rw [← integral_sub hint (hint2 x y)]
        congr 1; funext t
        unfold sq0; ring
      rw [this]; ring
    rwa [this] at h3
  · have hU : ⋃ m, S m = Ioi 0 := by
      ext t
      simp only [S, mem_iUnion, mem_Ioi]
      constructor
      · rintro ⟨m, hm⟩
        exact lt_trans (hSpos m) hm
      · intro ht
        exact exists_nat_one_div_lt ht
    have hmono : Monotone S := by
      intro a b hab t ht
      refine lt_of_le_of_lt ?_ (mem_Ioi.mp ht)
      exact one_div_le_one_div_of_le (by positivity) (by have : (a:ℝ) ≤ b := by exact_mod_cast hab
                                                         linarith)
    have h1 := tendsto_setIntegral_of_monotone (μ := volume) (f := sq0 (q x y)) (s := S)
      (fun m => measurableSet_Ioi) hmono (by rw [hU]; exact sq0_integrable (hq.1 x y))
    rw [hU, sq0_integral (hq.1 x y), ← hC] at h1
    have h2 := ((h1.const_mul (u / C)).neg).rexp
    have : -(u / C * (Real.sqrt (q x y) * C)) = -(u * Real.sqrt (q x y)) := by field_simp
    rw [this] at h2
    exact h2

end CatLearn.PSD
