import Mathlib.Analysis.SpecialFunctions.Gaussian.GaussianIntegral
import Mathlib.MeasureTheory.Integral.IntervalIntegral.FundThmCalculus

/-!
# `scipy.special.erf`

External primitive used by `/repo/src/halomod/hod.py:340,410,421,802`.
Modelled exactly (over the reals) as `2/√π ∫₀ˣ exp(-t²) dt`.
-/
namespace Halomod

open MeasureTheory Set intervalIntegral

/-- `scipy.special.erf` (called at hod.py:340, 410, 421, 802); floats replaced by reals. -/
noncomputable def erf (x : ℝ) : ℝ := 2 / √Real.pi * ∫ t in (0:ℝ)..x, Real.exp (-t ^ 2)

theorem erf_cont : Continuous fun t : ℝ => Real.exp (-t ^ 2) := by fun_prop

theorem erf_zero : erf 0 = 0 := by simp [erf]

theorem erf_neg (x : ℝ) : erf (-x) = - erf x := by
  unfold erf
  have h : ∫ t in (0:ℝ)..(-x), Real.exp (-t ^ 2) = - ∫ t in (0:ℝ)..x, Real.exp (-t ^ 2) := by
    have := intervalIntegral.integral_comp_neg (a := 0) (b := -x) (fun t : ℝ => Real.exp (-t ^ 2))
    simp only [neg_sq, neg_neg, neg_zero] at this
    rw [this, intervalIntegral.integral_symm]
  rw [h]; ring

theorem erf_strictMono : StrictMono erf := by
  intro a b hab
  unfold erf
  have hsub : (∫ t in (0:ℝ)..b, Real.exp (-t ^ 2)) - ∫ t in (0:ℝ)..a, Real.exp (-t ^ 2)
      = ∫ t in a..b, Real.exp (-t ^ 2) :=
    intervalIntegral.integral_interval_sub_left (erf_cont.intervalIntegrable _ _)
      (erf_cont.intervalIntegrable _ _)
  have hpos : 0 < ∫ t in a..b, Real.exp (-t ^ 2) :=
    intervalIntegral.intervalIntegral_pos_of_pos (erf_cont.intervalIntegrable _ _)
      (fun x => Real.exp_pos _) hab
  have hc : 0 < 2 / √Real.pi := by positivity
  have : ∫ t in (0:ℝ)..a, Real.exp (-t ^ 2) < ∫ t in (0:ℝ)..b, Real.exp (-t ^ 2) := by linarith
  exact mul_lt_mul_of_pos_left this hc

theorem erf_lt_one (x : ℝ) : erf x < 1 := by
  -- bound by the value at a larger point and by the half-line Gaussian integral
  have hle : ∀ y : ℝ, 0 ≤ y → erf y ≤ 1 := by
    intro y hy
    unfold erf
    have hI : IntegrableOn (fun t : ℝ => Real.exp (-t ^ 2)) (Ioi 0) := by
      have := (integrable_exp_neg_mul_sq (b := 1) one_pos).integrableOn (s := Ioi (0:ℝ))
      simpa using this
    have h1 : ∫ t in (0:ℝ)..y, Real.exp (-t ^ 2) ≤ ∫ t in Ioi (0:ℝ), Real.exp (-t ^ 2) := by
      rw [intervalIntegral.integral_of_le hy]
      apply setIntegral_mono_set hI
      · exact Filter.Eventually.of_forall fun t => (Real.exp_pos _).le
      · exact (Ioc_subset_Ioi_self).eventuallyLE
    have h2 : ∫ t in Ioi (0:ℝ), Real.exp (-t ^ 2) = √Real.pi / 2 := by
      have := integral_gaussian_Ioi 1
      simpa using this
    have hs : 0 < √Real.pi := Real.sqrt_pos.mpr Real.pi_pos
    calc 2 / √Real.pi * ∫ t in (0:ℝ)..y, Real.exp (-t ^ 2)
        ≤ 2 / √Real.pi * (√Real.pi / 2) := by
          rw [← h2]; exact mul_le_mul_of_nonneg_left h1 (by positivity)
      _ = 1 := by field_simp
  have : erf x < erf (|x| + 1) := erf_strictMono (by linarith [le_abs_self x])
  exact lt_of_lt_of_le this (hle _ (by positivity))

theorem neg_one_lt_erf (x : ℝ) : -1 < erf x := by
  have := erf_lt_one (-x); rw [erf_neg] at this; linarith

theorem erf_continuous : Continuous erf := by
  unfold erf
  exact continuous_const.mul (intervalIntegral.continuous_primitive
    (fun a b => erf_cont.intervalIntegrable a b) 0)

end Halomod
