import Mathlib.MeasureTheory.Integral.IntegralEqImproper
import Mathlib.Analysis.SpecialFunctions.ImproperIntegrals
import Mathlib.Analysis.SpecialFunctions.Trigonometric.Deriv
import Mathlib.Analysis.SpecialFunctions.Trigonometric.Bounds

/-!
# Sine and cosine integrals (`scipy.special.sici`)

On positive arguments `Si x = π/2 - ∫_x^∞ sin t / t dt` and `Ci x = -∫_x^∞ cos t / t dt`.  Both improper
integrals converge only conditionally, so they are written after one integration by parts:
`∫_x^∞ sin t / t = cos x / x - ∫_x^∞ cos t / t²` and `∫_x^∞ cos t / t = -sin x / x + ∫_x^∞ sin t / t²`.
-/
namespace Halomod

open MeasureTheory Set Filter Topology

noncomputable section

/-- `∫_x^∞ g(t)/t² dt`, written as `∫_1^∞ - ∫_1^x` so that it is differentiable in `x > 0`. -/
def tailSq (g : ℝ → ℝ) (x : ℝ) : ℝ := (∫ t in Ioi (1 : ℝ), g t / t ^ 2) - ∫ t in (1 : ℝ)..x, g t / t ^ 2

/-- First component of `scipy.special.sici`, positive arguments. -/
def Si (x : ℝ) : ℝ := Real.pi / 2 - (Real.cos x / x - tailSq Real.cos x)

/-- Second component of `scipy.special.sici`, positive arguments. -/
def Ci (x : ℝ) : ℝ := -(-(Real.sin x / x) + tailSq Real.sin x)

lemma integrableOn_div_sq {g : ℝ → ℝ} (hg : Continuous g) (hb : ∀ t, |g t| ≤ 1) :
    IntegrableOn (fun t => g t / t ^ 2) (Ioi 1) := by
  have h2 : IntegrableOn (fun t : ℝ => t ^ (-2 : ℝ)) (Ioi 1) :=
    integrableOn_Ioi_rpow_of_lt (by norm_num) one_pos
  refine Integrable.mono' h2 ?_ ?_
  · refine ContinuousOn.aestronglyMeasurable ?_ measurableSet_Ioi
    refine hg.continuousOn.div (by fun_prop) ?_
    intro t ht
    have : (1 : ℝ) < t := ht
    positivity
  · refine (ae_restrict_iff' measurableSet_Ioi).2 (ae_of_all _ fun t ht => ?_)
    have ht1 : (1 : ℝ) < t := ht
    have ht0 : (0 : ℝ) < t := by linarith
    rw [Real.norm_eq_abs, abs_div, abs_of_pos (pow_pos ht0 2), Real.rpow_neg ht0.le,
      div_eq_mul_inv]
    have : t ^ (2 : ℝ) = t ^ 2 := by exact_mod_cast Real.rpow_natCast t 2
    rw [this]
    exact mul_le_of_le_one_left (by positivity) (hb t)

lemma tailSq_tendsto {g : ℝ → ℝ} (hg : Continuous g) (hb : ∀ t, |g t| ≤ 1) :
    Tendsto (tailSq g) atTop (𝓝 0) := by
  have := intervalIntegral_tendsto_integral_Ioi (1 : ℝ) (integrableOn_div_sq hg hb) tendsto_id
  have h := (tendsto_const_nhds (x := ∫ t in Ioi (1 : ℝ), g t / t ^ 2)).sub this
  rw [sub_self] at h
  exact h

lemma tailSq_hasDerivAt {g : ℝ → ℝ} (hg : Continuous g) {x : ℝ} (hx : 0 < x) :
    HasDerivAt (tailSq g) (-(g x / x ^ 2)) x := by
  have hc : ContinuousOn (fun t => g t / t ^ 2) (Ioi 0) := by
    refine hg.continuousOn.div (by fun_prop) ?_
    intro t ht
    have : (0 : ℝ) < t := ht
    positivity
  have hsub : uIcc 1 x ⊆ Ioi 0 := by
    intro t ht
    rw [mem_uIcc] at ht
    rcases ht with h | h
    · exact lt_of_lt_of_le one_pos h.1
    · exact lt_of_lt_of_le hx h.1
  have h := intervalIntegral.integral_hasDerivAt_right (a := 1) (b := x)
    ((hc.mono hsub).intervalIntegrable)
    (hc.stronglyMeasurableAtFilter isOpen_Ioi x hx)
    (hc.continuousAt (Ioi_mem_nhds hx))
  exact (h.const_sub _)

lemma Si_hasDerivAt {x : ℝ} (hx : 0 < x) : HasDerivAt Si (Real.sin x / x) x := by
  have h1 := (Real.hasDerivAt_cos x).div (hasDerivAt_id x) hx.ne'
  have h2 := (h1.sub (tailSq_hasDerivAt Real.continuous_cos hx)).const_sub (Real.pi / 2)
  refine h2.congr_deriv ?_
  simp only [id]
  field_simp
  ring

lemma Ci_hasDerivAt {x : ℝ} (hx : 0 < x) : HasDerivAt Ci (Real.cos x / x) x := by
  have h1 := (Real.hasDerivAt_sin x).div (hasDerivAt_id x) hx.ne'
  have h2 := (h1.neg.add (tailSq_hasDerivAt Real.continuous_sin hx)).neg
  refine h2.congr_deriv ?_
  simp only [id]
  field_simp
  ring

lemma tendsto_bdd_div {g : ℝ → ℝ} (hb : ∀ t, |g t| ≤ 1) : Tendsto (fun x => g x / x) atTop (𝓝 0) := by
  have h : Tendsto (fun x : ℝ => x⁻¹ * g x) atTop (𝓝 0) := by
    refine tendsto_inv_atTop_zero.zero_mul_isBoundedUnder_le ?_
    exact isBoundedUnder_of ⟨1, fun x => by simpa using hb x⟩
  refine h.congr fun x => ?_
  rw [div_eq_mul_inv, mul_comm]

lemma Si_tendsto : Tendsto Si atTop (𝓝 (Real.pi / 2)) := by
  have h1 := tendsto_bdd_div Real.abs_cos_le_one
  have h2 := tailSq_tendsto Real.continuous_cos Real.abs_cos_le_one
  have h := (tendsto_const_nhds (x := Real.pi / 2)).sub (h1.sub h2)
  rw [sub_zero, sub_zero] at h
  exact h

lemma Ci_tendsto : Tendsto Ci atTop (𝓝 0) := by
  have h1 := tendsto_bdd_div Real.abs_sin_le_one
  have h2 := tailSq_tendsto Real.continuous_sin Real.abs_sin_le_one
  have h := (h1.neg.add h2).neg
  rw [neg_zero, add_zero, neg_zero] at h
  exact h

end

end Halomod
