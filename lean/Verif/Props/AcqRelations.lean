import Verif.Lemmas.Normal
import Mathlib.Analysis.Calculus.Deriv.Inv

/-!
C290: how expected improvement, probability of improvement and probability density are related, and what they are for small, large
and vanishing uncertainties.
-/

namespace CatLearn.Acq

open CatLearn MeasureTheory Filter Topology Set

private theorem ei_gain (y p u : ℝ) (hu : 0 < u) : (p - y) * cdf ((p - y) / u) + u * pdf ((p - y) / u) = u * gain ((p - y) / u) := by
  unfold gain
  field_simp

private theorem ei_gain_min (y p u : ℝ) (hu : 0 < u) :
    -((p - y) * cdf ((-p + y) / u) - u * pdf ((-p + y) / u)) = u * gain ((y - p) / u) := by
  unfold gain
  rw [show -p + y = y - p by ring]
  field_simp
  ring

private theorem gain_scale (m s : ℝ) (hs : 0 < s) : HasDerivAt (fun s => s * gain (m / s)) (pdf (m / s)) s := by
  have hs0 : s ≠ 0 := (ne_of_gt hs)
  have h1 : HasDerivAt (fun s => m / s) (-m / s ^ 2) s := by
    have := (hasDerivAt_const s m).div (hasDerivAt_id s) hs0
    refine this.congr_deriv ?_
    simp
  have h2 := (gain_hasDerivAt (m / s)).comp s h1
  have h3 := (hasDerivAt_id s).mul h2
  refine h3.congr_deriv ?_
  simp only [id, Function.comp, one_mul, gain]
  field_simp
  ring

/-- The slope of the expected improvement as a function of the prediction is the probability of improvement (up to the sign of the
objective), and its slope as a function of the uncertainty is the uncertainty times the probability density at the best value. -/
theorem C290_slopes (y p u : ℝ) (hu : 0 < u) :
    (∃ f q, (∀ x, ei y x u .max = some (f x)) ∧ pi y p u .max = some q ∧ HasDerivAt f q p) ∧
    (∃ f q, (∀ x, ei y x u .min = some (f x)) ∧ pi y p u .min = some q ∧ HasDerivAt f (-q) p) ∧
    (∃ f, (∀ x, ei y p x .max = some (f x)) ∧ HasDerivAt f (u * probabilityDensity y p u) u) ∧
    ∃ f, (∀ x, ei y p x .min = some (f x)) ∧ HasDerivAt f (u * probabilityDensity y p u) u := by
  have hpos : ∀ᶠ x : ℝ in 𝓝 u, 0 < x := lt_mem_nhds hu
  refine ⟨⟨_, _, fun x => rfl, rfl, ?_⟩, ⟨_, _, fun x => rfl, rfl, ?_⟩, ⟨_, fun x => rfl, ?_⟩, ⟨_, fun x => rfl, ?_⟩⟩
  · have h1 : HasDerivAt (fun x => (x - y) / u) (1 / u) p := ((hasDerivAt_id p).sub_const y).div_const u
    have h2 := ((gain_hasDerivAt ((p - y) / u)).comp p h1).const_mul u
    refine (h2.congr_deriv ?_).congr_of_eventuallyEq (Eventually.of_forall fun x => ei_gain y x u hu)
    field_simp
  · have h1 : HasDerivAt (fun x => (y - x) / u) (-1 / u) p := ((hasDerivAt_id p).const_sub y).div_const u
    have h2 := ((gain_hasDerivAt ((y - p) / u)).comp p h1).const_mul u
    refine (h2.congr_deriv ?_).congr_of_eventuallyEq (Eventually.of_forall fun x => ei_gain_min y x u hu)
    rw [show (y - p) / u = -((p - y) / u) by ring]
    field_simp
  · refine ((gain_scale (p - y) u hu).congr_deriv ?_).congr_of_eventuallyEq (hpos.mono fun x hx => ei_gain y p x hx)
    unfold probabilityDensity
    rw [show (y - p) / u = -((p - y) / u) by ring, pdf_neg]
    field_simp
  · refine ((gain_scale (y - p) u hu).congr_deriv ?_).congr_of_eventuallyEq (hpos.mono fun x hx => ei_gain_min y p x hx)
    unfold probabilityDensity
    field_simp

private theorem cdf_tendsto_atTop : Tendsto cdf atTop (𝓝 1) := by
  have h : Tendsto (fun z => ∫ t in Iic z, pdf t) atTop (𝓝 (∫ t in univ, pdf t)) := by
    have := tendsto_setIntegral_of_monotone (μ := volume) (f := pdf) (s := fun z : ℝ => Iic z) (fun z => measurableSet_Iic)
      (fun a b hab => Iic_subset_Iic.mpr hab) (by rw [iUnion_Iic]; exact pdf_integrable.integrableOn)
    rwa [iUnion_Iic] at this
  rw [setIntegral_univ, pdf_integral] at h
  exact h

private theorem cdf_tendsto_atBot : Tendsto cdf atBot (𝓝 0) := by
  have h := (cdf_tendsto_atTop.comp tendsto_neg_atBot_atTop).const_sub 1
  rw [sub_self] at h
  refine h.congr fun z => ?_
  simp only [Function.comp_apply]
  rw [cdf_neg]
  ring

private theorem pdf_le (z : ℝ) : pdf z ≤ pdf 0 := by
  rw [pdf_eq, pdf_eq]
  refine mul_le_mul_of_nonneg_left ?_ (by positivity)
  rw [Real.exp_le_exp]
  nlinarith [sq_nonneg z]

private theorem gain_bounds (m u : ℝ) (hu : 0 < u) : max m 0 ≤ u * gain (m / u) ∧ u * gain (m / u) ≤ max m 0 + u * pdf 0 := by
  have hm : u * (m / u) = m := by field_simp
  constructor
  · refine max_le ?_ (mul_nonneg hu.le (gain_nonneg _))
    have h := gain_nonneg (-(m / u))
    rw [gain_neg] at h
    have := mul_le_mul_of_nonneg_left (by linarith : m / u ≤ gain (m / u)) hu.le
    linarith
  · unfold gain
    have h1 : m * cdf (m / u) ≤ max m 0 := by
      rcases le_total 0 m with h | h
      · exact (mul_le_of_le_one_right h (cdf_lt_one _).le).trans (le_max_left _ _)
      · exact (mul_nonpos_of_nonpos_of_nonneg h (cdf_nonneg _)).trans (le_max_right _ _)
    have h2 := mul_le_mul_of_nonneg_left (pdf_le (m / u)) hu.le
    have : u * (m / u * cdf (m / u) + pdf (m / u)) = m * cdf (m / u) + u * pdf (m / u) := by field_simp
    linarith

private theorem scale_limit (m : ℝ) : Tendsto (fun u => u * gain (m / u)) (𝓝[>] 0) (𝓝 (max m 0)) := by
  have h0 : Tendsto (fun u : ℝ => max m 0 + u * pdf 0) (𝓝[>] 0) (𝓝 (max m 0)) := by
    have : Tendsto (fun u : ℝ => max m 0 + u * pdf 0) (𝓝 0) (𝓝 (max m 0 + 0 * pdf 0)) := by
      exact (continuous_const.add (continuous_id.mul continuous_const)).tendsto 0
    rw [zero_mul, add_zero] at this
    exact this.mono_left nhdsWithin_le_nhds
  refine tendsto_of_tendsto_of_tendsto_of_le_of_le' tendsto_const_nhds h0 ?_ ?_ <;>
    filter_upwards [self_mem_nhdsWithin] with u hu
  · exact (gain_bounds m u hu).1
  · exact (gain_bounds m u hu).2

/-- The expected improvement lies between the improvement that is predicted (zero if none is) and this improvement plus 0.399 times the
uncertainty, and tends to the predicted improvement as the uncertainty vanishes. -/
theorem C290_improvement (y p : ℝ) :
    (∀ u > 0, ∃ a b, ei y p u .max = some a ∧ ei y p u .min = some b ∧ max (p - y) 0 ≤ a ∧ a ≤ max (p - y) 0 + u * pdf 0 ∧
      max (y - p) 0 ≤ b ∧ b ≤ max (y - p) 0 + u * pdf 0) ∧
    (∃ f, (∀ u, ei y p u .max = some (f u)) ∧ Tendsto f (𝓝[>] 0) (𝓝 (max (p - y) 0))) ∧
    ∃ f, (∀ u, ei y p u .min = some (f u)) ∧ Tendsto f (𝓝[>] 0) (𝓝 (max (y - p) 0)) := by
  refine ⟨fun u hu => ⟨_, _, rfl, rfl, ?_⟩, ⟨_, fun u => rfl, ?_⟩, ⟨_, fun u => rfl, ?_⟩⟩
  · rw [ei_gain y p u hu, ei_gain_min y p u hu]
    exact ⟨(gain_bounds _ u hu).1, (gain_bounds _ u hu).2, (gain_bounds _ u hu).1, (gain_bounds _ u hu).2⟩
  · refine (scale_limit (p - y)).congr' ?_
    filter_upwards [self_mem_nhdsWithin] with u hu
    exact (ei_gain y p u hu).symm
  · refine (scale_limit (y - p)).congr' ?_
    filter_upwards [self_mem_nhdsWithin] with u hu
    exact (ei_gain_min y p u hu).symm

private theorem div_tendsto_atTop {m : ℝ} (hm : 0 < m) : Tendsto (fun u : ℝ => m / u) (𝓝[>] 0) atTop := by
  simp only [div_eq_mul_inv]
  exact tendsto_inv_nhdsGT_zero.const_mul_atTop hm

private theorem div_tendsto_atBot {m : ℝ} (hm : m < 0) : Tendsto (fun u : ℝ => m / u) (𝓝[>] 0) atBot := by
  simp only [div_eq_mul_inv]
  exact tendsto_inv_nhdsGT_zero.const_mul_atTop_of_neg hm

/-- The probability of improvement: for maximisation and minimisation it adds up to one; it is one half where no improvement is
predicted nor a loss; it tends to one or zero as the uncertainty vanishes and to one half as it grows.  A larger uncertainty
raises it for a candidate that is predicted to be worse than the best and lowers it for one that is predicted to be better. -/
theorem C290_probability (y p : ℝ) :
    (∀ u, ∃ a b, pi y p u .max = some a ∧ pi y p u .min = some b ∧ a + b = 1 ∧ (p = y → a = 1 / 2)) ∧
    ∃ f, (∀ u, pi y p u .max = some (f u)) ∧ (y < p → Tendsto f (𝓝[>] 0) (𝓝 1)) ∧ (p < y → Tendsto f (𝓝[>] 0) (𝓝 0)) ∧
      Tendsto f atTop (𝓝 (1 / 2)) ∧
      (p < y → ∀ u u', 0 < u → u < u' → f u < f u') ∧ (y < p → ∀ u u', 0 < u → u < u' → f u' < f u) := by
  refine ⟨fun u => ⟨_, _, rfl, rfl, ?_, ?_⟩, _, fun u => rfl, fun h => ?_, fun h => ?_, ?_, fun h u u' hu huu => ?_, fun h u u' hu huu => ?_⟩
  · rw [cdf_neg]; ring
  · rintro rfl
    rw [sub_self, zero_div, cdf_zero]
  · exact cdf_tendsto_atTop.comp (div_tendsto_atTop (sub_pos.mpr h))
  · exact cdf_tendsto_atBot.comp (div_tendsto_atBot (sub_neg.mpr h))
  · have h1 : Tendsto (fun u : ℝ => (p - y) / u) atTop (𝓝 0) := tendsto_const_nhds.div_atTop tendsto_id
    have h2 := (cdf_hasDerivAt 0).continuousAt.tendsto.comp h1
    rw [cdf_zero] at h2
    exact h2
  · refine cdf_strictMono ?_
    have := div_lt_div_of_pos_left (sub_pos.mpr h) hu huu
    rw [← neg_sub y p, neg_div, neg_div]
    linarith
  · exact cdf_strictMono (div_lt_div_of_pos_left (sub_pos.mpr h) hu huu)

example : (0 : ℝ) < 1 ∧ (1 : ℝ) < 2 := by norm_num

/-- In arrays, entries with an uncertainty behave as above, and entries whose uncertainty vanishes have the limits of the above, if the
prediction differs from the best value. -/
theorem C290_certain_partial (y p : ℝ) (o : Objective) :
    (∀ u ≠ 0, eiArray y p u o = (ei y p u o).map some ∧ piArray y p u o = (pi y p u o).map some) ∧
    (p ≠ y → eiArray y p 0 .max = some (some (max (p - y) 0)) ∧ eiArray y p 0 .min = some (some (max (y - p) 0)) ∧
      piArray y p 0 .max = some (some (if y < p then 1 else 0)) ∧ piArray y p 0 .min = some (some (if p < y then 1 else 0))) := by
  constructor
  · intro u hu
    have hq : ∀ a, quot a u = .num (a / u) := fun a => if_pos hu
    unfold eiArray piArray ei pi
    cases o <;> simp [hq, cdfQ, pdfQ, Quot.neg]
  · intro h
    rcases lt_or_gt_of_ne h with h | h
    · have h1 : quot (p - y) 0 = .negInf := by
        unfold quot
        rw [if_neg (by simp), if_neg (by linarith), if_pos (by linarith)]
      have h2 : quot (-p + y) 0 = .posInf := by
        unfold quot
        rw [if_neg (by simp), if_pos (by linarith)]
      unfold eiArray piArray
      simp only [h1, h2, cdfQ, pdfQ, Quot.neg, Option.bind_some, Option.map_some, Option.some.injEq]
      rw [max_eq_right (by linarith : p - y ≤ 0), max_eq_left (by linarith : 0 ≤ y - p), if_neg (by linarith), if_pos h]
      refine ⟨by ring, by ring, rfl, rfl⟩
    · have h1 : quot (p - y) 0 = .posInf := by
        unfold quot
        rw [if_neg (by simp), if_pos (by linarith)]
      have h2 : quot (-p + y) 0 = .negInf := by
        unfold quot
        rw [if_neg (by simp), if_neg (by linarith), if_pos (by linarith)]
      unfold eiArray piArray
      simp only [h1, h2, cdfQ, pdfQ, Quot.neg, Option.bind_some, Option.map_some, Option.some.injEq]
      rw [max_eq_left (by linarith : 0 ≤ p - y), max_eq_right (by linarith : y - p ≤ 0), if_pos h, if_neg (by linarith)]
      refine ⟨by ring, by ring, rfl, rfl⟩

example : (3 : ℝ) ≠ 2 := by norm_num

/-- A candidate with the best value and no uncertainty, such as the best training point of a model without noise, has no score: EI and PI
are NaN. -/
theorem C290_certain_violated (y : ℝ) :
    eiArray y y 0 .max = some none ∧ eiArray y y 0 .min = some none ∧ piArray y y 0 .max = some none ∧ piArray y y 0 .min = some none := by
  have h1 : quot (y - y) 0 = .nan := by unfold quot; simp
  have h2 : quot (-y + y) 0 = .nan := by unfold quot; simp
  unfold eiArray piArray
  rw [h1, h2]
  exact ⟨rfl, rfl, rfl, rfl⟩

end CatLearn.Acq
