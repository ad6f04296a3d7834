import Mathlib.Analysis.Fourier.Inversion
import Mathlib.MeasureTheory.Measure.Lebesgue.Integral
import Mathlib.MeasureTheory.Integral.IntegralEqImproper

/-!
# Inversion of the sine transform on the half line

From Mathlib's Fourier inversion formula, applied to the odd extension.
-/
namespace Halomod.Sine

open MeasureTheory Set Filter Topology
open scoped FourierTransform Real

noncomputable section

/-- odd extension of the values on `(0, ∞)`. -/
def odd (F : ℝ → ℝ) (v : ℝ) : ℝ := (Ioi 0).indicator F v - (Ioi 0).indicator F (-v)

theorem odd_pos {F : ℝ → ℝ} {v : ℝ} (hv : 0 < v) : odd F v = F v := by
  unfold odd
  rw [indicator_of_mem (show v ∈ Ioi 0 from hv), indicator_of_notMem (by simp [hv.le]), sub_zero]

theorem odd_integrable {F : ℝ → ℝ} (hF : IntegrableOn F (Ioi 0)) : Integrable (odd F) := by
  have h := (integrable_indicator_iff (measurableSet_Ioi (a := (0:ℝ)))).mpr hF
  exact h.sub h.comp_neg

/-- an odd function is the odd extension of its restriction. -/
theorem odd_eq {S : ℝ → ℝ} (hS : ∀ x, S (-x) = -S x) : odd S = S := by
  funext x
  unfold odd
  rcases lt_trichotomy x 0 with h | h | h
  · rw [indicator_of_notMem (by simp [h.le]), indicator_of_mem (show -x ∈ Ioi 0 by simpa using h), hS]; ring
  · subst h
    have := hS 0
    rw [neg_zero] at this
    have h0 : S 0 = 0 := by linarith
    simp [h0]
  · rw [indicator_of_mem (show x ∈ Ioi 0 from h), indicator_of_notMem (by simp [h.le]), sub_zero]

/-- `∫ exp(i c v) f(v) dv = 2 i ∫₀^∞ sin(c v) F(v) dv` for the odd extension `f` of `F`. -/
theorem odd_integral {F : ℝ → ℝ} (hF : IntegrableOn F (Ioi 0)) (c : ℝ) :
    ∫ v : ℝ, Complex.exp (↑(c * v) * Complex.I) • ((odd F v : ℝ) : ℂ)
      = 2 * Complex.I * ((∫ v in Ioi (0:ℝ), F v * Real.sin (c * v) : ℝ) : ℂ) := by
  have h := (integrable_indicator_iff (measurableSet_Ioi (a := (0:ℝ)))).mpr hF
  set G := (Ioi (0:ℝ)).indicator F with hG
  have hGc : Integrable (fun v => ((G v : ℝ) : ℂ)) := h.ofReal
  have hexp : ∀ d : ℝ, Integrable (fun v : ℝ => Complex.exp (↑(d * v) * Complex.I) • ((G v : ℝ) : ℂ)) := by
    intro d
    refine (hGc.norm).mono ?_ ?_
    · have h1 : AEStronglyMeasurable (fun v : ℝ => Complex.exp (↑(d * v) * Complex.I)) volume :=
        (by fun_prop : Continuous fun v : ℝ => Complex.exp (↑(d * v) * Complex.I)).aestronglyMeasurable
      exact h1.smul hGc.aestronglyMeasurable
    · filter_upwards with v
      rw [norm_smul, Complex.norm_exp_ofReal_mul_I, one_mul, norm_norm]
  have hneg : Integrable (fun v : ℝ => Complex.exp (↑(c * v) * Complex.I) • ((G (-v) : ℝ) : ℂ)) := by
    have := (hexp (-c)).comp_neg
    refine this.congr ?_
    filter_upwards with v
    rw [neg_mul_neg]
  have e1 : (∫ v : ℝ, Complex.exp (↑(c * v) * Complex.I) • ((odd F v : ℝ) : ℂ))
      = (∫ v : ℝ, Complex.exp (↑(c * v) * Complex.I) • ((G v : ℝ) : ℂ))
        - ∫ v : ℝ, Complex.exp (↑(c * v) * Complex.I) • ((G (-v) : ℝ) : ℂ) := by
    rw [← integral_sub (hexp c) hneg]
    refine integral_congr_ae ?_
    filter_upwards with v
    simp only [odd, ← hG]
    push_cast
    rw [smul_sub]
  have e2 : (∫ v : ℝ, Complex.exp (↑(c * v) * Complex.I) • ((G (-v) : ℝ) : ℂ))
      = ∫ v : ℝ, Complex.exp (↑(-c * v) * Complex.I) • ((G v : ℝ) : ℂ) := by
    rw [← integral_neg_eq_self (fun v : ℝ => Complex.exp (↑(-c * v) * Complex.I) • ((G v : ℝ) : ℂ))]
    refine integral_congr_ae ?_
    filter_upwards with v
    rw [neg_mul_neg]
  rw [e1, e2, ← integral_sub (hexp c) (hexp (-c))]
  have e3 : (∫ v in Ioi (0:ℝ), F v * Real.sin (c * v)) = ∫ v, G v * Real.sin (c * v) := by
    rw [← integral_indicator measurableSet_Ioi]
    refine integral_congr_ae ?_
    filter_upwards with v
    by_cases hv : v ∈ Ioi (0:ℝ)
    · rw [indicator_of_mem hv, hG, indicator_of_mem hv]
    · rw [indicator_of_notMem hv, hG, indicator_of_notMem hv, zero_mul]
  rw [e3, ← integral_complex_ofReal, ← integral_const_mul]
  refine integral_congr_ae ?_
  filter_upwards with v
  simp only [smul_eq_mul, Complex.ofReal_mul, Complex.ofReal_neg, neg_mul, Complex.ofReal_sin]
  rw [← sub_mul]
  have : Complex.exp (↑c * ↑v * Complex.I) - Complex.exp (-(↑c * ↑v * Complex.I))
      = 2 * Complex.I * Complex.sin (↑c * ↑v) := by
    rw [Complex.sin]
    have hI := Complex.I_mul_I
    simp only [neg_mul]
    linear_combination (-(Complex.exp (-(↑c * ↑v * Complex.I)) - Complex.exp (↑c * ↑v * Complex.I))) * hI
  rw [this]
  ring

/-- sine transform on the half line. -/
def sineT (F : ℝ → ℝ) (r : ℝ) : ℝ := ∫ k in Ioi (0:ℝ), F k * Real.sin (r * k)

theorem sineT_odd (F : ℝ → ℝ) (r : ℝ) : sineT F (-r) = -sineT F r := by
  unfold sineT
  rw [← integral_neg]
  refine integral_congr_ae ?_
  filter_upwards with k
  rw [neg_mul, Real.sin_neg, mul_neg]

/-- **inversion of the sine transform**: `F(k) = (2/pi) ∫₀^∞ S(r) sin(k r) dr` with
`S(r) = ∫₀^∞ F(k) sin(k r) dk`, at every continuity point, when both are integrable. -/
theorem sine_inversion {F : ℝ → ℝ} (hF : IntegrableOn F (Ioi 0)) (hS : IntegrableOn (sineT F) (Ioi 0))
    {k : ℝ} (hk : 0 < k) (hc : ContinuousAt F k) :
    F k = 2 / π * ∫ r in Ioi (0:ℝ), sineT F r * Real.sin (k * r) := by
  have hpi := Real.pi_pos
  set f : ℝ → ℂ := fun v => ((odd F v : ℝ) : ℂ) with hf
  have hfi : Integrable f := (odd_integrable hF).ofReal
  have hft : 𝓕 f = fun w => (-2 * Complex.I) * ((sineT F (2 * π * w) : ℝ) : ℂ) := by
    funext w
    rw [Real.fourier_real_eq_integral_exp_smul]
    have e : (∫ v : ℝ, Complex.exp (↑(-2 * π * v * w) * Complex.I) • f v)
        = ∫ v : ℝ, Complex.exp (↑((-(2 * π * w)) * v) * Complex.I) • ((odd F v : ℝ) : ℂ) := by
      refine integral_congr_ae ?_
      filter_upwards with v
      rw [show -2 * π * v * w = (-(2 * π * w)) * v by ring]
    rw [e, odd_integral hF]
    have : (∫ v in Ioi (0:ℝ), F v * Real.sin (-(2 * π * w) * v)) = -sineT F (2 * π * w) := by
      rw [← sineT_odd]
      rfl
    rw [this]
    push_cast
    ring
  have hSi : Integrable (sineT F) := by
    have := odd_integrable hS
    rwa [odd_eq (sineT_odd F)] at this
  have hSi2 : Integrable (fun w => sineT F (2 * π * w)) := hSi.comp_mul_left' (by positivity)
  have hfti : Integrable (𝓕 f) := by
    rw [hft]
    exact (hSi2.ofReal).const_mul _
  have hfc : ContinuousAt f k := by
    have h1 : odd F =ᶠ[𝓝 k] F := by
      filter_upwards [Ioi_mem_nhds hk] with v hv
      exact odd_pos hv
    exact Complex.continuous_ofReal.continuousAt.comp (hc.congr h1.symm)
  have hinv := hfi.fourierInv_fourier_eq hfti hfc
  rw [Real.fourierInv_eq', hft] at hinv
  have hodd2 : ∀ w, sineT F (2 * π * -w) = -sineT F (2 * π * w) := fun w => by
    rw [mul_neg, sineT_odd]
  have hS2 : IntegrableOn (fun w => sineT F (2 * π * w)) (Ioi 0) := hSi2.integrableOn
  have e2 : (∫ v : ℝ, Complex.exp ((↑(2 * π * inner ℝ v k) * Complex.I)) • (-2 * Complex.I * ((sineT F (2 * π * v) : ℝ) : ℂ)))
      = -2 * Complex.I * ∫ v : ℝ, Complex.exp (↑((2 * π * k) * v) * Complex.I) • ((odd (fun w => sineT F (2 * π * w)) v : ℝ) : ℂ) := by
    rw [← integral_const_mul]
    refine integral_congr_ae ?_
    filter_upwards with v
    rw [odd_eq hodd2]
    have : 2 * π * inner ℝ v k = 2 * π * k * v := by
      rw [Real.inner_apply]
      ring
    rw [this]
    simp only [smul_eq_mul]
    ring
  rw [e2, odd_integral hS2] at hinv
  have hval : f k = ((F k : ℝ) : ℂ) := by rw [hf]; simp only [odd_pos hk]
  rw [hval] at hinv
  have e3 : (-2 * Complex.I * (2 * Complex.I * ((∫ v in Ioi (0:ℝ), sineT F (2 * π * v) * Real.sin (2 * π * k * v) : ℝ) : ℂ)))
      = ((4 * ∫ v in Ioi (0:ℝ), sineT F (2 * π * v) * Real.sin (2 * π * k * v) : ℝ) : ℂ) := by
    push_cast
    have hI := Complex.I_mul_I
    linear_combination (-4 * ((∫ v in Ioi (0:ℝ), sineT F (2 * π * v) * Real.sin (2 * π * k * v) : ℝ) : ℂ)) * hI
  rw [e3] at hinv
  have hreal := Complex.ofReal_injective hinv
  rw [← hreal]
  have h5 := integral_comp_mul_left_Ioi (fun r => sineT F r * Real.sin (k * r)) 0 (show 0 < 2 * π by positivity)
  rw [mul_zero, smul_eq_mul] at h5
  have e4 : (∫ v in Ioi (0:ℝ), sineT F (2 * π * v) * Real.sin (2 * π * k * v))
      = ∫ v in Ioi (0:ℝ), sineT F (2 * π * v) * Real.sin (k * (2 * π * v)) := by
    refine setIntegral_congr_fun measurableSet_Ioi fun v _ => ?_
    show sineT F (2 * π * v) * Real.sin (2 * π * k * v) = sineT F (2 * π * v) * Real.sin (k * (2 * π * v))
    rw [show 2 * π * k * v = k * (2 * π * v) by ring]
  rw [e4, h5]
  field_simp
  ring

end

end Halomod.Sine
