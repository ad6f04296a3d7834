import Mathlib.Analysis.SpecialFunctions.Gamma.Basic
import Mathlib.Analysis.Calculus.ParametricIntegral
import Mathlib.Analysis.Calculus.MeanValue
import Mathlib.MeasureTheory.Integral.IntegralEqImproper
import Mathlib.Analysis.SpecialFunctions.Trigonometric.ArctanDeriv
import Mathlib.Analysis.SpecialFunctions.Pow.Asymptotics
import Mathlib.Analysis.SpecialFunctions.Pow.Deriv

/-!
# Integrals of `x^(p-1) exp(-a x)` against `cos (K x)` and `sin (K x)`
-/
namespace Halomod.GammaTrig

open MeasureTheory Set Filter Topology

/-- weight. -/
noncomputable def w (a p x : ℝ) : ℝ := x ^ (p - 1) * Real.exp (-(a * x))

theorem w_int {a p : ℝ} (ha : 0 < a) (hp : 0 < p) : IntegrableOn (w a p) (Ioi 0) := by
  refine Integrable.of_integral_ne_zero ?_
  unfold w
  rw [Real.integral_rpow_mul_exp_neg_mul_Ioi hp ha]
  have := Real.Gamma_pos_of_pos hp
  positivity

theorem w_nonneg {a p x : ℝ} (hx : 0 < x) : 0 ≤ w a p x := by unfold w; positivity

theorem w_succ {a p x : ℝ} (hx : 0 < x) : x * w a p x = w a (p + 1) x := by
  unfold w
  rw [← mul_assoc]
  congr 1
  conv_lhs => rw [← Real.rpow_one x, ← Real.rpow_mul hx.le, one_mul, ← Real.rpow_add hx]
  congr 1; ring

theorem w_meas (a p : ℝ) : Measurable (w a p) := by
  unfold w; fun_prop

/-- integrand. -/
noncomputable def f (a p K x : ℝ) : ℂ := (w a p x : ℂ) * Complex.exp (Complex.I * K * x)

theorem f_meas (a p K : ℝ) : Measurable (f a p K) := by
  unfold f
  have := w_meas a p
  fun_prop

theorem f_norm {a p K x : ℝ} (hx : 0 < x) : ‖f a p K x‖ = w a p x := by
  unfold f
  have : Complex.I * (K:ℂ) * (x:ℂ) = ((K * x : ℝ) : ℂ) * Complex.I := by push_cast; ring
  rw [norm_mul, this, Complex.norm_exp_ofReal_mul_I, mul_one, Complex.norm_real,
    Real.norm_of_nonneg (w_nonneg hx)]

theorem f_int {a p : ℝ} (ha : 0 < a) (hp : 0 < p) (K : ℝ) : IntegrableOn (f a p K) (Ioi 0) := by
  refine Integrable.mono' (w_int ha hp) (f_meas a p K).aestronglyMeasurable ?_
  filter_upwards [ae_restrict_mem measurableSet_Ioi] with x hx
  exact (f_norm hx).le

noncomputable def J (a p K : ℝ) : ℂ := ∫ x in Ioi (0:ℝ), f a p K x

theorem f_succ {a p K x : ℝ} (hx : 0 < x) : (x:ℂ) * f a p K x = f a (p + 1) K x := by
  unfold f
  rw [← mul_assoc, ← Complex.ofReal_mul, w_succ hx]

theorem f_deriv (a p K x : ℝ) :
    HasDerivAt (fun K : ℝ => f a p K x) (Complex.I * (x * f a p K x)) K := by
  unfold f
  have h1 : HasDerivAt (fun K : ℝ => Complex.I * (K:ℂ) * (x:ℂ)) (Complex.I * 1 * x) K := by
    have := (Complex.ofRealCLM.hasDerivAt (x := K))
    exact (this.const_mul Complex.I).mul_const _
  have h2 := h1.cexp.const_mul (w a p x : ℂ)
  convert! h2 using 1
  ring

theorem J_deriv {a p : ℝ} (ha : 0 < a) (hp : 0 < p) (K : ℝ) :
    HasDerivAt (J a p) (Complex.I * J a (p + 1) K) K := by
  have h := hasDerivAt_integral_of_dominated_loc_of_deriv_le (μ := volume.restrict (Ioi (0:ℝ)))
    (F := fun K x => f a p K x) (F' := fun K x => Complex.I * (x * f a p K x)) (x₀ := K)
    (bound := w a (p + 1)) (s := univ) univ_mem
    (Eventually.of_forall fun K => (f_meas a p K).aestronglyMeasurable)
    (f_int ha hp K)
    (by
      have := f_meas a p K
      exact Measurable.aestronglyMeasurable (by fun_prop))
    (by
      filter_upwards [ae_restrict_mem measurableSet_Ioi] with x hx K _
      rw [f_succ hx, norm_mul, Complex.norm_I, one_mul, f_norm hx])
    (w_int ha (by linarith))
    (by
      filter_upwards with x K _
      exact f_deriv a p K x)
  have e : ∫ x in Ioi (0:ℝ), Complex.I * (x * f a p K x) = Complex.I * J a (p + 1) K := by
    unfold J
    rw [← integral_const_mul]
    apply setIntegral_congr_fun measurableSet_Ioi
    intro x hx
    simp only
    rw [f_succ hx]
  rw [← e]
  exact h.2

theorem w_infty {a : ℝ} (ha : 0 < a) (p : ℝ) : Tendsto (w a p) atTop (𝓝 0) := by
  have := tendsto_rpow_mul_exp_neg_mul_atTop_nhds_zero (p - 1) a ha
  refine this.congr fun x => ?_
  unfold w; rw [neg_mul]

theorem J_parts {a p : ℝ} (ha : 0 < a) (hp : 0 < p) (K : ℝ) :
    (p : ℂ) * J a p K = (a - Complex.I * K) * J a (p + 1) K := by
  have hd : ∀ x ∈ Ioi (0:ℝ), HasDerivAt (f a (p + 1) K)
      (p * f a p K x - (a - Complex.I * K) * f a (p + 1) K x) x := by
    intro x hx
    have hx0 : (0:ℝ) < x := hx
    have hw : HasDerivAt (w a (p + 1)) (p * w a p x - a * w a (p + 1) x) x := by
      unfold w
      have h1 : HasDerivAt (fun x : ℝ => x ^ (p + 1 - 1)) ((p + 1 - 1) * x ^ (p + 1 - 1 - 1)) x :=
        Real.hasDerivAt_rpow_const (Or.inl hx0.ne')
      have h2 : HasDerivAt (fun x : ℝ => Real.exp (-(a * x))) (Real.exp (-(a * x)) * (-(a * 1))) x :=
        (((hasDerivAt_id x).const_mul a).neg).exp
      convert! h1.mul h2 using 1
      simp only [add_sub_cancel_right]
      ring
    unfold f
    have h1 : HasDerivAt (fun x : ℝ => Complex.I * (K:ℂ) * (x:ℂ)) (Complex.I * K * 1) x := by
      exact (Complex.ofRealCLM.hasDerivAt (x := x)).const_mul (Complex.I * (K:ℂ))
    convert! hw.ofReal_comp.mul h1.cexp using 1
    push_cast
    ring
  have hint : IntegrableOn (fun x => p * f a p K x - (a - Complex.I * K) * f a (p + 1) K x) (Ioi 0) :=
    ((f_int ha hp K).const_mul _).sub ((f_int ha (by linarith) K).const_mul _)
  have hcont : ContinuousWithinAt (f a (p + 1) K) (Ici 0) 0 := by
    apply ContinuousAt.continuousWithinAt
    unfold f
    apply ContinuousAt.mul
    · apply Complex.continuous_ofReal.continuousAt.comp
      unfold w
      apply ContinuousAt.mul
      · exact Real.continuousAt_rpow_const _ _ (Or.inr (by linarith))
      · fun_prop
    · fun_prop
  have e0 : f a (p + 1) K 0 = 0 := by
    unfold f w; rw [Real.zero_rpow (by linarith), zero_mul]; simp
  have n1 : Tendsto (f a (p + 1) K) atTop (𝓝 0) := by
    rw [tendsto_zero_iff_norm_tendsto_zero]
    refine (w_infty ha (p + 1)).congr' ?_
    filter_upwards [Ioi_mem_atTop 0] with x hx
    exact (f_norm hx).symm
  have h2 : ∫ x in Ioi (0:ℝ), (p * f a p K x - (a - Complex.I * K) * f a (p + 1) K x) = 0 - f a (p + 1) K 0 :=
    integral_Ioi_of_hasDerivAt_of_tendsto hcont hd hint n1
  rw [e0] at h2
  rw [integral_sub ((f_int ha hp K).const_mul _) ((f_int ha (by linarith) K).const_mul _),
    integral_const_mul, integral_const_mul, sub_zero, sub_eq_zero] at h2
  exact h2

/-- the phase: a logarithm of `a - iK`. -/
noncomputable def L (a K : ℝ) : ℂ :=
  ((1 / 2 * Real.log (a ^ 2 + K ^ 2) : ℝ) : ℂ) - Complex.I * (Real.arctan (K / a) : ℝ)

theorem L_deriv {a : ℝ} (ha : 0 < a) (K : ℝ) :
    HasDerivAt (L a) (-Complex.I / (a - Complex.I * K)) K := by
  have hq : 0 < a ^ 2 + K ^ 2 := by positivity
  have h1 : HasDerivAt (fun K : ℝ => 1 / 2 * Real.log (a ^ 2 + K ^ 2)) (K / (a ^ 2 + K ^ 2)) K := by
    have h := (((hasDerivAt_pow 2 K).const_add (a ^ 2)).log hq.ne').const_mul (1 / 2 : ℝ)
    convert! h using 1
    field_simp
    norm_num
    ring
  have h2 : HasDerivAt (fun K : ℝ => Real.arctan (K / a)) (a / (a ^ 2 + K ^ 2)) K := by
    have h := ((hasDerivAt_id K).div_const a).arctan
    convert! h using 1
    simp only [id]
    field_simp
  have h3 := h1.ofReal_comp.sub (h2.ofReal_comp.const_mul Complex.I)
  unfold L
  convert! h3 using 1
  have hne : (a : ℂ) - Complex.I * K ≠ 0 := by
    intro h
    have := congrArg Complex.re h
    simp at this
    exact ha.ne' this
  have hqc : ((a : ℂ) ^ 2 + (K : ℂ) ^ 2) ≠ 0 := by
    have : ((a ^ 2 + K ^ 2 : ℝ) : ℂ) ≠ 0 := by exact_mod_cast hq.ne'
    push_cast at this; exact this
  push_cast
  rw [← mul_div_assoc, ← sub_div, div_eq_div_iff hne hqc]
  have hI : Complex.I ^ 2 = -1 := Complex.I_sq
  linear_combination (-((a:ℂ) * K)) * hI

theorem J_eq {a p : ℝ} (ha : 0 < a) (hp : 0 < p) (K : ℝ) :
    J a p K = (Real.Gamma p : ℂ) * Complex.exp (-(p * L a K)) := by
  have hne : ∀ K : ℝ, (a : ℂ) - Complex.I * K ≠ 0 := by
    intro K h
    have := congrArg Complex.re h
    simp at this
    exact ha.ne' this
  have hd : ∀ K : ℝ, HasDerivAt (fun K => J a p K * Complex.exp (p * L a K)) 0 K := by
    intro K
    have h1 := (J_deriv ha hp K).mul (((L_deriv ha K).const_mul (p:ℂ)).cexp)
    convert! h1 using 1
    have hJ := J_parts ha hp K
    have : J a (p + 1) K = p * J a p K / (a - Complex.I * K) := by
      rw [eq_div_iff (hne K), hJ]; ring
    rw [this]
    field_simp
    ring
  have hc := is_const_of_deriv_eq_zero (f := fun K => J a p K * Complex.exp (p * L a K))
    (fun K => (hd K).differentiableAt) (fun K => (hd K).deriv) K 0
  have h0 : J a p 0 = (((1 / a) ^ p * Real.Gamma p : ℝ) : ℂ) := by
    rw [← Real.integral_rpow_mul_exp_neg_mul_Ioi hp ha, ← integral_complex_ofReal]
    unfold J
    apply setIntegral_congr_fun measurableSet_Ioi
    intro x _
    simp [f, w]
  have hL0 : L a 0 = (Real.log a : ℂ) := by
    unfold L
    have : Real.log (a ^ 2 + 0 ^ 2) = 2 * Real.log a := by
      rw [zero_pow (by norm_num), add_zero, Real.log_pow]; norm_num
    rw [this]; simp
  rw [h0, hL0] at hc
  have e1 : (((1 / a) ^ p * Real.Gamma p : ℝ) : ℂ) * Complex.exp (p * (Real.log a : ℂ)) = (Real.Gamma p : ℂ) := by
    have : Complex.exp ((p:ℂ) * (Real.log a : ℂ)) = ((a ^ p : ℝ) : ℂ) := by
      rw [Real.rpow_def_of_pos ha]; push_cast; ring_nf
    rw [this, ← Complex.ofReal_mul]
    congr 1
    rw [one_div, Real.inv_rpow ha.le]
    have : 0 < a ^ p := by positivity
    field_simp
  rw [e1] at hc
  rw [← hc, mul_assoc, ← Complex.exp_add]
  simp

/-- cosine moment. -/
theorem cos_moment {a p : ℝ} (ha : 0 < a) (hp : 0 < p) (K : ℝ) :
    ∫ x in Ioi (0:ℝ), w a p x * Real.cos (K * x)
      = Real.Gamma p * (a ^ 2 + K ^ 2) ^ (-p / 2) * Real.cos (p * Real.arctan (K / a)) := by
  have h := congrArg Complex.re (J_eq ha hp K)
  have hq : 0 < a ^ 2 + K ^ 2 := by positivity
  have e1 : (J a p K).re = ∫ x in Ioi (0:ℝ), w a p x * Real.cos (K * x) := by
    unfold J
    have := (integral_re (f_int ha hp K)).symm
    simp only [RCLike.re_to_complex] at this
    rw [this]
    apply setIntegral_congr_fun measurableSet_Ioi
    intro x _
    simp only [f]
    have : Complex.I * (K:ℂ) * (x:ℂ) = ((K * x : ℝ) : ℂ) * Complex.I := by push_cast; ring
    rw [this, Complex.re_ofReal_mul, Complex.exp_ofReal_mul_I_re]
  rw [e1] at h
  rw [h]
  have e2 : -((p:ℂ) * L a K) = ((-(p / 2) * Real.log (a ^ 2 + K ^ 2) : ℝ) : ℂ)
      + ((p * Real.arctan (K / a) : ℝ) : ℂ) * Complex.I := by
    unfold L; push_cast; ring
  rw [e2, Complex.exp_add, ← Complex.ofReal_exp, ← mul_assoc, ← Complex.ofReal_mul, Complex.re_ofReal_mul,
    Complex.exp_ofReal_mul_I_re, Real.rpow_def_of_pos hq]
  congr 3
  ring

theorem sin_le {K x : ℝ} (hx : 0 < x) : |Real.sin (K * x)| ≤ |K| * x := by
  calc |Real.sin (K * x)| ≤ |K * x| := Real.abs_sin_le_abs
    _ = |K| * x := by rw [abs_mul, abs_of_pos hx]

theorem ws_int {a p : ℝ} (ha : 0 < a) (hp : 0 < p) (K : ℝ) :
    IntegrableOn (fun x => w a (p - 1) x * Real.sin (K * x)) (Ioi 0) := by
  have hm : Measurable fun x => w a (p - 1) x * Real.sin (K * x) := by
    have := w_meas a (p - 1)
    fun_prop
  refine Integrable.mono' ((w_int ha hp).const_mul |K|) hm.aestronglyMeasurable ?_
  filter_upwards [ae_restrict_mem measurableSet_Ioi] with x hx
  rw [Real.norm_eq_abs, abs_mul, abs_of_nonneg (w_nonneg hx)]
  have h := w_succ (a := a) (p := p - 1) hx
  rw [sub_add_cancel] at h
  calc w a (p - 1) x * |Real.sin (K * x)| ≤ w a (p - 1) x * (|K| * x) :=
        mul_le_mul_of_nonneg_left (sin_le hx) (w_nonneg hx)
    _ = |K| * w a p x := by rw [← h]; ring

theorem S_deriv {a p : ℝ} (ha : 0 < a) (hp : 0 < p) (K : ℝ) :
    HasDerivAt (fun K => ∫ x in Ioi (0:ℝ), w a (p - 1) x * Real.sin (K * x))
      (∫ x in Ioi (0:ℝ), w a p x * Real.cos (K * x)) K := by
  have h := hasDerivAt_integral_of_dominated_loc_of_deriv_le (μ := volume.restrict (Ioi (0:ℝ)))
    (F := fun K x => w a (p - 1) x * Real.sin (K * x))
    (F' := fun K x => w a (p - 1) x * (Real.cos (K * x) * x)) (x₀ := K)
    (bound := w a p) (s := univ) univ_mem
    (Eventually.of_forall fun K => (ws_int ha hp K).aestronglyMeasurable)
    (ws_int ha hp K)
    (by
      have := w_meas a (p - 1)
      exact Measurable.aestronglyMeasurable (by fun_prop))
    (by
      filter_upwards [ae_restrict_mem measurableSet_Ioi] with x hx K _
      have h := w_succ (a := a) (p := p - 1) hx
      rw [sub_add_cancel] at h
      rw [Real.norm_eq_abs, abs_mul, abs_of_nonneg (w_nonneg hx), abs_mul, abs_of_pos (show (0:ℝ) < x from hx), ← h]
      have h1 := Real.abs_cos_le_one (K * x)
      have h2 := w_nonneg (a := a) (p := p - 1) hx
      have h3 : (0:ℝ) < x := hx
      have : 0 ≤ w a (p - 1) x * x := by positivity
      nlinarith)
    (w_int ha hp)
    (by
      filter_upwards with x K _
      have h1 : HasDerivAt (fun K : ℝ => K * x) (1 * x) K := (hasDerivAt_id K).mul_const x
      have h2 := h1.sin.const_mul (w a (p - 1) x)
      rw [one_mul] at h2
      exact h2)
  have e : ∫ x in Ioi (0:ℝ), w a (p - 1) x * (Real.cos (K * x) * x)
      = ∫ x in Ioi (0:ℝ), w a p x * Real.cos (K * x) := by
    apply setIntegral_congr_fun measurableSet_Ioi
    intro x hx
    have h := w_succ (a := a) (p := p - 1) hx
    rw [sub_add_cancel] at h
    simp only
    rw [← h]; ring
  rw [← e]
  exact h.2

/-- closed form of the sine moment for `-1 < s`. -/
noncomputable def sinForm (a s K : ℝ) : ℝ :=
  if s = 0 then Real.arctan (K / a)
  else Real.Gamma s * (a ^ 2 + K ^ 2) ^ (-s / 2) * Real.sin (s * Real.arctan (K / a))

theorem sinForm_deriv {a s : ℝ} (ha : 0 < a) (hs : -1 < s) (K : ℝ) :
    HasDerivAt (sinForm a s)
      (Real.Gamma (s + 1) * (a ^ 2 + K ^ 2) ^ (-(s + 1) / 2) * Real.cos ((s + 1) * Real.arctan (K / a))) K := by
  have hq : 0 < a ^ 2 + K ^ 2 := by positivity
  have h2 : HasDerivAt (fun K : ℝ => Real.arctan (K / a)) (a / (a ^ 2 + K ^ 2)) K := by
    have h := ((hasDerivAt_id K).div_const a).arctan
    convert! h using 1
    simp only [id]
    field_simp
  have hsq : 0 < Real.sqrt (a ^ 2 + K ^ 2) := Real.sqrt_pos.mpr hq
  have hs2 : Real.sqrt (a ^ 2 + K ^ 2) ^ 2 = a ^ 2 + K ^ 2 := Real.sq_sqrt hq.le
  have hr : Real.sqrt (1 + (K / a) ^ 2) = Real.sqrt (a ^ 2 + K ^ 2) / a := by
    rw [show 1 + (K / a) ^ 2 = (a ^ 2 + K ^ 2) / a ^ 2 by field_simp, Real.sqrt_div hq.le, Real.sqrt_sq ha.le]
  have hcos : Real.cos (Real.arctan (K / a)) = a / Real.sqrt (a ^ 2 + K ^ 2) := by
    rw [Real.cos_arctan, hr]; field_simp
  have hsin : Real.sin (Real.arctan (K / a)) = K / Real.sqrt (a ^ 2 + K ^ 2) := by
    rw [Real.sin_arctan, hr]; field_simp
  by_cases h0 : s = 0
  · subst h0
    have e : sinForm a 0 = fun K => Real.arctan (K / a) := by funext K; simp [sinForm]
    rw [e]
    convert! h2 using 1
    rw [zero_add, Real.Gamma_one, one_mul, one_mul, hcos, show (-1 / 2 : ℝ) = -(1 / 2) by norm_num,
      Real.rpow_neg hq.le, ← Real.sqrt_eq_rpow]
    have e2 : a / (a ^ 2 + K ^ 2) = a / Real.sqrt (a ^ 2 + K ^ 2) ^ 2 := by rw [hs2]
    rw [e2]
    field_simp
  · have e : sinForm a s = fun K => Real.Gamma s * (a ^ 2 + K ^ 2) ^ (-s / 2) * Real.sin (s * Real.arctan (K / a)) := by
      funext K; simp [sinForm, h0]
    rw [e]
    have h1 : HasDerivAt (fun K : ℝ => (a ^ 2 + K ^ 2) ^ (-s / 2))
        (-s * K * (a ^ 2 + K ^ 2) ^ (-s / 2 - 1)) K := by
      have h := ((hasDerivAt_pow 2 K).const_add (a ^ 2)).rpow_const (p := -s / 2) (Or.inl hq.ne')
      convert! h using 1
      push_cast
      ring
    have h3 := (h1.const_mul (Real.Gamma s)).mul ((h2.const_mul s).sin)
    convert! h3 using 1
    rw [Real.Gamma_add_one h0, show (s + 1) * Real.arctan (K / a) = s * Real.arctan (K / a) + Real.arctan (K / a) by ring,
      Real.cos_add, hcos, hsin]
    have p1 : (a ^ 2 + K ^ 2) ^ (-(s + 1) / 2) = (a ^ 2 + K ^ 2) ^ (-s / 2 - 1) * Real.sqrt (a ^ 2 + K ^ 2) := by
      rw [Real.sqrt_eq_rpow, ← Real.rpow_add hq]; congr 1; ring
    have p2 : (a ^ 2 + K ^ 2) ^ (-s / 2) = (a ^ 2 + K ^ 2) ^ (-s / 2 - 1) * (a ^ 2 + K ^ 2) := by
      conv_rhs => rw [← Real.rpow_add_one hq.ne']
      congr 1; ring
    rw [p1, p2]
    generalize (a ^ 2 + K ^ 2) ^ (-s / 2 - 1) = P
    generalize Real.sqrt (a ^ 2 + K ^ 2) = q at *
    generalize a ^ 2 + K ^ 2 = Q at *
    field_simp
    ring

/-- sine moment. -/
theorem sin_moment {a s : ℝ} (ha : 0 < a) (hs : -1 < s) (K : ℝ) :
    ∫ x in Ioi (0:ℝ), w a s x * Real.sin (K * x) = sinForm a s K := by
  have hp : 0 < s + 1 := by linarith
  have hd : ∀ K, HasDerivAt (fun K => (∫ x in Ioi (0:ℝ), w a s x * Real.sin (K * x)) - sinForm a s K) 0 K := by
    intro K
    have h1 := S_deriv ha hp K
    rw [add_sub_cancel_right, cos_moment ha hp K] at h1
    have h := h1.sub (sinForm_deriv ha hs K)
    rw [sub_self] at h
    exact h
  have hc := is_const_of_deriv_eq_zero (fun K => (hd K).differentiableAt) (fun K => (hd K).deriv) K 0
  have h0 : sinForm a s 0 = 0 := by unfold sinForm; split_ifs <;> simp
  simp only [zero_mul, Real.sin_zero, mul_zero, integral_zero, h0, sub_zero] at hc
  linarith

end Halomod.GammaTrig
