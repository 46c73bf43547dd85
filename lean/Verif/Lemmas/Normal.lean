import Verif.Model.Acquisition
import Mathlib.MeasureTheory.Integral.IntegralEqImproper
import Mathlib.Analysis.SpecialFunctions.Gaussian.GaussianIntegral
import Mathlib.MeasureTheory.Integral.IntervalIntegral.FundThmCalculus

/-!
# Facts about the standard normal density and distribution function
-/

namespace CatLearn.Acq

open MeasureTheory ProbabilityTheory Set Filter Topology

theorem pdf_eq (z : ℝ) : pdf z = (√(2 * Real.pi))⁻¹ * Real.exp (-(z ^ 2) / 2) := by
  unfold pdf gaussianPDFReal
  simp

theorem pdf_pos (z : ℝ) : 0 < pdf z := gaussianPDFReal_pos 0 1 z one_ne_zero

theorem pdf_neg (z : ℝ) : pdf (-z) = pdf z := by rw [pdf_eq, pdf_eq, neg_sq]

theorem pdf_hasDerivAt (z : ℝ) : HasDerivAt pdf (-z * pdf z) z := by
  have h : HasDerivAt (fun z : ℝ => -(z ^ 2) / 2) (-z) z := by
    have := ((hasDerivAt_pow 2 z).neg).div_const 2
    refine this.congr_deriv ?_
    simp; ring
  have h2 := (h.exp).const_mul (√(2 * Real.pi))⁻¹
  have h3 : pdf = fun z => (√(2 * Real.pi))⁻¹ * Real.exp (-(z ^ 2) / 2) := funext pdf_eq
  rw [h3]
  refine h2.congr_deriv ?_
  ring

theorem pdf_continuous : Continuous pdf :=
  continuous_iff_continuousAt.mpr fun z => (pdf_hasDerivAt z).continuousAt

theorem pdf_integrable : Integrable pdf := integrable_gaussianPDFReal 0 1

theorem pdf_integral : ∫ z, pdf z = 1 := integral_gaussianPDFReal_eq_one 0 one_ne_zero

theorem id_mul_pdf_integrable : Integrable fun z => z * pdf z := by
  have := (integrable_mul_exp_neg_mul_sq (b := 1 / 2) (by norm_num)).const_mul (√(2 * Real.pi))⁻¹
  refine this.congr (Eventually.of_forall fun z => ?_)
  simp only [pdf_eq]
  have : -(1 / 2) * z ^ 2 = -(z ^ 2) / 2 := by ring
  rw [this]; ring

theorem cdf_sub (a b : ℝ) : cdf b - cdf a = ∫ t in a..b, pdf t :=
  intervalIntegral.integral_Iic_sub_Iic pdf_integrable.integrableOn pdf_integrable.integrableOn

theorem cdf_hasDerivAt (z : ℝ) : HasDerivAt cdf (pdf z) z := by
  have h : cdf = fun z => cdf 0 + ∫ t in (0:ℝ)..z, pdf t := by
    funext z
    rw [← cdf_sub 0 z]; ring
  rw [h]
  have := intervalIntegral.integral_hasDerivAt_right (a := (0:ℝ)) (b := z)
    (pdf_continuous.intervalIntegrable 0 z) (pdf_continuous.stronglyMeasurableAtFilter _ _)
    pdf_continuous.continuousAt
  exact this.const_add _

theorem cdf_strictMono : StrictMono cdf :=
  strictMono_of_deriv_pos fun z => by rw [(cdf_hasDerivAt z).deriv]; exact pdf_pos z

theorem cdf_nonneg (z : ℝ) : 0 ≤ cdf z :=
  setIntegral_nonneg measurableSet_Iic fun t _ => (pdf_pos t).le

theorem cdf_pos (z : ℝ) : 0 < cdf z := lt_of_le_of_lt (cdf_nonneg (z - 1)) (cdf_strictMono (by linarith))

theorem cdf_neg (z : ℝ) : cdf (-z) = 1 - cdf z := by
  have h1 : cdf (-z) = ∫ t in Ioi z, pdf t := by
    have := integral_comp_neg_Iic (-z) pdf
    rw [neg_neg] at this
    rw [← this]
    unfold cdf
    simp only [pdf_neg]
  have h2 := integral_add_compl (μ := volume) (measurableSet_Iic (a := z)) pdf_integrable
  rw [pdf_integral, compl_Iic] at h2
  rw [h1, ← h2]
  unfold cdf; ring

theorem cdf_lt_one (z : ℝ) : cdf z < 1 := by
  have := cdf_pos (-z)
  rw [cdf_neg] at this
  linarith

theorem cdf_zero : cdf 0 = 1 / 2 := by
  have := cdf_neg 0
  rw [neg_zero] at this
  linarith

theorem pdf_tendsto_atBot : Tendsto pdf atBot (𝓝 0) := by
  have h3 : pdf = fun z => (√(2 * Real.pi))⁻¹ * Real.exp (-(z ^ 2) / 2) := funext pdf_eq
  rw [h3]
  have h : Tendsto (fun z : ℝ => -(z ^ 2) / 2) atBot atBot := by
    have h1 : Tendsto (fun z : ℝ => z ^ 2) atBot atTop := by
      simpa [sq] using tendsto_id.atBot_mul_atBot₀ (tendsto_id (α := ℝ) (x := atBot))
    exact (tendsto_neg_atTop_atBot.comp h1).atBot_div_const (by norm_num)
  have := (Real.tendsto_exp_atBot.comp h).const_mul (√(2 * Real.pi))⁻¹
  simpa using this

theorem integral_Iic_id_mul_pdf (a : ℝ) : ∫ t in Iic a, t * pdf t = -pdf a := by
  have h := integral_Iic_of_hasDerivAt_of_tendsto' (f := fun t => -pdf t) (f' := fun t => t * pdf t) (a := a)
    (fun t _ => by
      refine (pdf_hasDerivAt t).neg.congr_deriv ?_
      ring)
    id_mul_pdf_integrable.integrableOn (by simpa using pdf_tendsto_atBot.neg)
  simpa using h

/-- The function `z Φ(z) + φ(z)`. -/
noncomputable def gain (z : ℝ) : ℝ := z * cdf z + pdf z

theorem gain_eq_integral (z : ℝ) : gain z = ∫ t in Iic z, (z - t) * pdf t := by
  have : (fun t => (z - t) * pdf t) = fun t => z * pdf t - t * pdf t := by funext t; ring
  rw [this, integral_sub (pdf_integrable.const_mul z).integrableOn id_mul_pdf_integrable.integrableOn,
    integral_const_mul, integral_Iic_id_mul_pdf]
  unfold gain cdf
  ring

theorem gain_hasDerivAt (z : ℝ) : HasDerivAt gain (cdf z) z := by
  have := ((hasDerivAt_id z).mul (cdf_hasDerivAt z)).add (pdf_hasDerivAt z)
  refine this.congr_deriv ?_
  simp

theorem gain_strictMono : StrictMono gain :=
  strictMono_of_deriv_pos fun z => by rw [(gain_hasDerivAt z).deriv]; exact cdf_pos z

theorem gain_nonneg (z : ℝ) : 0 ≤ gain z := by
  rw [gain_eq_integral]
  refine setIntegral_nonneg measurableSet_Iic fun t ht => ?_
  exact mul_nonneg (sub_nonneg.mpr ht) (pdf_pos t).le

theorem gain_pos (z : ℝ) : 0 < gain z := lt_of_le_of_lt (gain_nonneg (z - 1)) (gain_strictMono (by linarith))

theorem gain_neg (z : ℝ) : gain (-z) = gain z - z := by
  unfold gain
  rw [cdf_neg, pdf_neg]; ring

end CatLearn.Acq
