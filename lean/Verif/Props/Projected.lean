import Verif.Props.Converge3
import Verif.Props.Exclusion

/-!
# C42, continued: the projection converges to the line-of-sight integral, and what the inner cut loses; C21: the
last entry of `cumsimps` for an even number of samples
-/
namespace Halomod.IntegrateCorr

open Finset MeasureTheory Filter Topology Halomod.HaloModel

/-- the projection rule with `N` log-spaced points in `y = r - rp`, from `y0` to `rlim - rp`: twice Simpson's rule for
`r xi(r) / sqrt(r^2 - rp^2)`. -/
noncomputable def projRule (N : ℕ) (xi : ℝ → ℝ) (y0 rlim rp : ℝ) : ℝ :=
  2 * simpsonX N (logspace y0 (rlim - rp) N) (fun t => projIntegrand xi rp (logspace y0 (rlim - rp) N t + rp))

/-- the part of the projected correlation that the rule aims at: separations from `rp + y0` to `rlim`. -/
noncomputable def projTarget (xi : ℝ → ℝ) (y0 rlim rp : ℝ) : ℝ := 2 * ∫ r in rp + y0..rlim, projIntegrand xi rp r

theorem projIntegrand_cont {xi : ℝ → ℝ} {rp y0 y1 : ℝ} (hrp : 0 < rp) (hy : 0 < y0) (hxi : ContinuousOn xi (Set.Icc (rp + y0) (rp + y1))) :
    ContinuousOn (fun y => projIntegrand xi rp (y + rp)) (Set.Icc y0 y1) := by
  unfold projIntegrand
  have hc : ContinuousOn (fun y => y + rp) (Set.Icc y0 y1) := by fun_prop
  refine (hc.mul (hxi.comp hc ?_)).div (by fun_prop) ?_
  · intro y hy'
    exact ⟨by linarith [hy'.1], by linarith [hy'.2]⟩
  · intro y hy'
    have : 0 < y := hy.trans_le hy'.1
    exact (Real.sqrt_pos.2 (by nlinarith)).ne'

/-- C42: the code's projected correlation is that rule with 1000 points, starting at the slope-dependent cut; as the
number of points grows the rule converges to the Davis-Peebles integral from the cut to the limit, for every
correlation continuous there. -/
theorem C42_projection_converges (xi : ℝ → ℝ) (a rlim rp y0 : ℝ) (hrp : 0 < rp) (hy : 0 < y0) (hl : rp + y0 < rlim)
    (hxi : ContinuousOn xi (Set.Icc (rp + y0) rlim)) :
    projAt xi a rlim rp = projRule 1000 xi (getTheta a * 0.01 ^ 2 * rp) rlim rp ∧
    Tendsto (fun N => projRule N xi y0 rlim rp) atTop (𝓝 (projTarget xi y0 rlim rp)) := by
  constructor
  · rw [C42_projected_integrand]
    have := simpsonX_affine 1000 (yGrid a rlim rp) (fun t => projIntegrand xi rp (yGrid a rlim rp t + rp)) 1 rp one_ne_zero
    simp only [one_mul] at this
    rw [this]
    unfold projRule
    rw [show logspace (getTheta a * 0.01 ^ 2 * rp) (rlim - rp) 1000 = yGrid a rlim rp from rfl]
  · have hy1 : y0 < rlim - rp := by linarith
    have hc := projIntegrand_cont (y1 := rlim - rp) hrp hy (by rwa [show rp + (rlim - rp) = rlim by ring])
    have key := (simpson_mass hy hy1 hc).const_mul 2
    have e : ∫ y in y0..rlim - rp, projIntegrand xi rp (y + rp) = ∫ r in rp + y0..rlim, projIntegrand xi rp r := by
      rw [intervalIntegral.integral_comp_add_right (f := projIntegrand xi rp)]
      congr 1 <;> ring
    rw [e] at key
    rw [← tendsto_add_atTop_iff_nat 2]
    refine key.congr ?_
    intro N
    unfold projRule logspace
    simp only [linspace_grid]

theorem getTheta_le (a : ℝ) (ha : 1 < a) : getTheta a ≤ 2 := by
  obtain ⟨hp, -, -, -⟩ := peakY_facts a ha
  rw [← peakFn_peak a ha]
  suffices peakFn a (peakY a) ≤ 1 by linarith
  set y := peakY a
  unfold peakFn
  have h1 : 0 < 1 + y := by linarith
  rw [mul_pow, div_pow, Real.sq_sqrt (by positivity)]
  have hb : (1 + y) * (1 + y) ^ (-a) ≤ 1 := by
    conv_lhs => rw [show (1 + y) * (1 + y) ^ (-a) = (1 + y) ^ (1 : ℝ) * (1 + y) ^ (-a) by rw [Real.rpow_one]]
    rw [← Real.rpow_add h1]
    exact Real.rpow_le_one_of_one_le_of_nonpos (by linarith) (by linarith)
  have hb0 : 0 ≤ (1 + y) * (1 + y) ^ (-a) := by positivity
  have hb2 : ((1 + y) * (1 + y) ^ (-a)) ^ 2 ≤ 1 := pow_le_one₀ hb0 hb
  rw [mul_div_assoc', div_le_one (by positivity)]
  have := mul_le_mul_of_nonneg_left hb2 (sq_nonneg y)
  nlinarith

/-- C42: what the inner cut loses. For every continuous correlation that is non-negative and does not increase with
separation, the code's target differs from the whole line-of-sight integral (out to the limit) by a non-negative
amount of at most 4.1 per cent of `rp * xi(rp)`. -/
theorem C42_inner_cut (xi : ℝ → ℝ) (hxi : Continuous xi) (h0 : ∀ r, 0 ≤ xi r) (ha : Antitone xi) (a rlim rp : ℝ) (h1 : 1 < a)
    (hrp : 0 < rp) (hl : rp + getTheta a * 0.01 ^ 2 * rp < rlim) :
    0 ≤ 2 * (∫ l in (0:ℝ)..Real.sqrt (rlim ^ 2 - rp ^ 2), xi (Real.sqrt (rp ^ 2 + l ^ 2))) -
        projTarget xi (getTheta a * 0.01 ^ 2 * rp) rlim rp ∧
    2 * (∫ l in (0:ℝ)..Real.sqrt (rlim ^ 2 - rp ^ 2), xi (Real.sqrt (rp ^ 2 + l ^ 2))) -
        projTarget xi (getTheta a * 0.01 ^ 2 * rp) rlim rp ≤ 0.041 * rp * xi rp := by
  have hT := getTheta_pos a h1
  have hT2 := getTheta_le a h1
  set y0 := getTheta a * 0.01 ^ 2 * rp with hy0
  have hyp : 0 < y0 := by positivity
  have hyl : y0 ≤ 0.0002 * rp := by
    have : getTheta a * 0.01 ^ 2 ≤ 0.0002 := by norm_num; linarith
    exact mul_le_mul_of_nonneg_right this hrp.le
  have hcont : Continuous fun l => xi (Real.sqrt (rp ^ 2 + l ^ 2)) := by fun_prop
  set L0 := Real.sqrt ((rp + y0) ^ 2 - rp ^ 2) with hL0
  have hL0p : 0 ≤ L0 := Real.sqrt_nonneg _
  have e : 2 * (∫ l in (0:ℝ)..Real.sqrt (rlim ^ 2 - rp ^ 2), xi (Real.sqrt (rp ^ 2 + l ^ 2))) - projTarget xi y0 rlim rp =
      2 * ∫ l in (0:ℝ)..L0, xi (Real.sqrt (rp ^ 2 + l ^ 2)) := by
    unfold projTarget
    rw [C42_projection_is_line_of_sight xi hxi rp (rp + y0) rlim hrp (by linarith) hl.le,
      ← intervalIntegral.integral_add_adjacent_intervals (hcont.intervalIntegrable 0 L0) (hcont.intervalIntegrable L0 _)]
    ring
  rw [e]
  have hLb : L0 ≤ 0.0205 * rp := by
    rw [hL0]
    apply Real.sqrt_le_iff.2
    constructor
    · positivity
    · nlinarith
  constructor
  · have := intervalIntegral.integral_nonneg_of_forall (μ := volume) hL0p (f := fun l => xi (Real.sqrt (rp ^ 2 + l ^ 2))) fun l => h0 _
    linarith
  · have hb : ∫ l in (0:ℝ)..L0, xi (Real.sqrt (rp ^ 2 + l ^ 2)) ≤ ∫ l in (0:ℝ)..L0, xi rp := by
      apply intervalIntegral.integral_mono_on hL0p (hcont.intervalIntegrable _ _) (by simp)
      intro l _
      apply ha
      apply Real.le_sqrt_of_sq_le
      nlinarith [sq_nonneg l]
    rw [intervalIntegral.integral_const, smul_eq_mul, sub_zero] at hb
    have := mul_le_mul_of_nonneg_right hLb (h0 rp)
    linarith

/-- a correlation meeting the hypotheses: `exp(-r)`. -/
example : Continuous (fun r : ℝ => Real.exp (-r)) ∧ (∀ r : ℝ, 0 ≤ Real.exp (-r)) ∧ Antitone (fun r : ℝ => Real.exp (-r)) :=
  ⟨by fun_prop, fun r => (Real.exp_pos _).le, fun _ _ h => Real.exp_le_exp.2 (neg_le_neg h)⟩

/-- the limit used by default leaves room beyond the cut. -/
example : (1:ℝ) + getTheta 1.3 * 0.01 ^ 2 * 1 < 80 := by
  have := getTheta_le 1.3 (by norm_num)
  norm_num
  linarith

end Halomod.IntegrateCorr

namespace Halomod.Exclusion
open Finset Halomod.Tools

/-- C21 finding: for an even number of samples the last entry is not the full integral either: it is Simpson's rule up to
the last even index plus a third of a step times the value there, whatever the last sample is. -/
theorem C21_cumsimps_last_even (b : ℕ) (f : ℕ → ℝ) (dx : ℝ) (hb : 0 < b) :
    cumsimps (2 * b + 2) f dx (2 * b + 1) = basicSimpson b dx f + dx / 3 * f (2 * b) := by
  have hp := (C21_cumsimps_partial (2 * b + 2) f dx b).1 (by omega)
  unfold cumsimps at hp ⊢
  rw [sum_range_succ]
  have h1 : cumsimpsF1 (2 * b + 2) f (2 * b + 1) = f (2 * b + 1) := by
    unfold cumsimpsF1; rw [if_neg (by omega), if_neg (by omega)]; ring
  have h2 : cumsimpsRm (2 * b + 2) f (2 * b + 1) = f (2 * b + 1) := by
    unfold cumsimpsRm; rw [if_neg (by omega)]; ring
  have h3 : cumsimpsRm (2 * b + 2) f (2 * b) = f (2 * b) := by
    unfold cumsimpsRm; rw [if_neg (by omega)]; ring
  rw [h3] at hp
  rw [h1, h2, ← hp]
  ring

/-- C21: so a constant over four samples (three steps) is integrated to 7/3. -/
theorem C21_cumsimps_even_wrong : cumsimps 4 (fun _ => 1) 1 3 = 7 / 3 := by
  rw [C21_cumsimps_last_even 1 _ _ one_pos]
  unfold basicSimpson
  norm_num

end Halomod.Exclusion
