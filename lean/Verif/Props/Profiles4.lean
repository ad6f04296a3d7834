import Verif.Props.Profiles2

/-!
# C24 continued: Einasto, power law with exponential cut-off, generalised NFW
-/
namespace Halomod.Profiles

open MeasureTheory Set Filter Topology

noncomputable section

lemma ginc_integrable {s : ℝ} (hs : 0 < s) (a b : ℝ) :
    IntervalIntegrable (fun t : ℝ => t ^ (s - 1) * Real.exp (-t)) volume a b :=
  (intervalIntegral.intervalIntegrable_rpow' (by linarith)).mul_continuousOn (by fun_prop)

lemma ginc_continuous {s : ℝ} (hs : 0 < s) : Continuous (ginc s) :=
  intervalIntegral.continuous_primitive (ginc_integrable hs) 0

lemma ginc_hasDerivAt {s x : ℝ} (hs : 0 < s) (hx : 0 < x) :
    HasDerivAt (ginc s) (x ^ (s - 1) * Real.exp (-x)) x := by
  have hc : ContinuousOn (fun t : ℝ => t ^ (s - 1) * Real.exp (-t)) (Ioi 0) := by
    refine ContinuousOn.mul ?_ (by fun_prop)
    exact continuousOn_id.rpow_const fun t ht => Or.inl (ne_of_gt ht)
  exact intervalIntegral.integral_hasDerivAt_right (ginc_integrable hs 0 x)
    (hc.stronglyMeasurableAtFilter isOpen_Ioi x hx) (hc.continuousAt (Ioi_mem_nhds hx))

/-- C24: Einasto's normalisation (with the incomplete gamma function) is the mass integral of its shape,
for every shape parameter and concentration. -/
theorem C24_einasto {a c : ℝ} (ha : 0 < a) (hc : 0 < c) : einastoH a c = massInt (einastoF a) c := by
  have e2 : (2.0 : ℝ) = 2 := by norm_num
  have e3 : (3.0 : ℝ) = 3 := by norm_num
  have hs : (0 : ℝ) < 3.0 / a := by rw [e3]; positivity
  have hca : Continuous fun x : ℝ => x ^ a := Real.continuous_rpow_const ha.le
  unfold massInt
  rw [ftc (F := einastoH a) hc.le]
  · have h0 : einastoH a 0 = 0 := by
      simp [einastoH, Real.zero_rpow ha.ne', ginc]
    rw [h0, sub_zero]
  · unfold einastoH
    have := (ginc_continuous hs).comp (hca.const_smul (2.0 / a))
    exact ((continuous_const.mul this).div_const a).continuousOn
  · intro x hx
    have hx0 : 0 < x := hx.1
    have hxa : 0 < (2.0 / a) * x ^ a := by
      rw [e2]
      positivity
    have h1 : HasDerivAt (fun y : ℝ => (2.0 / a) * y ^ a) ((2.0 / a) * (a * x ^ (a - 1))) x :=
      (Real.hasDerivAt_rpow_const (Or.inl hx0.ne')).const_mul _
    have h2 := (((ginc_hasDerivAt hs hxa).comp x h1).const_mul
      (Real.exp (2 / a) * (2 / a) ^ (-3.0 / a))).div_const a
    refine h2.congr_deriv ?_
    rw [e2, e3]
    have p2 : (0 : ℝ) < 2 / a := by positivity
    rw [Real.mul_rpow p2.le (by positivity), ← Real.rpow_mul hx0.le]
    have hexp : einastoF a x = Real.exp (2 / a) * Real.exp (-(2 / a * x ^ a)) := by
      unfold einastoF
      rw [e2, ← Real.exp_add]
      congr 1
      ring
    have hpow2 : (2 / a) ^ (-3 / a) * (2 / a) ^ (3 / a - 1) * (2 / a) = 1 := by
      nth_rewrite 3 [← Real.rpow_one (2 / a)]
      rw [← Real.rpow_add p2, ← Real.rpow_add p2]
      have : -3 / a + (3 / a - 1) + 1 = 0 := by ring
      rw [this, Real.rpow_zero]
    have hpowx : x ^ (a * (3 / a - 1)) * x ^ (a - 1) = x ^ 2 := by
      rw [← Real.rpow_add hx0]
      have : a * (3 / a - 1) + (a - 1) = (2 : ℕ) := by
        push_cast
        field_simp
        ring
      rw [this, Real.rpow_natCast]
    rw [hexp]
    calc Real.exp (2 / a) * (2 / a) ^ (-3 / a) * ((2 / a) ^ (3 / a - 1) * x ^ (a * (3 / a - 1)) *
            Real.exp (-(2 / a * x ^ a)) * (2 / a * (a * x ^ (a - 1)))) / a
        = ((2 / a) ^ (-3 / a) * (2 / a) ^ (3 / a - 1) * (2 / a)) * (x ^ (a * (3 / a - 1)) * x ^ (a - 1)) *
            (Real.exp (2 / a) * Real.exp (-(2 / a * x ^ a))) := by
          field_simp
      _ = x ^ 2 * (Real.exp (2 / a) * Real.exp (-(2 / a * x ^ a))) := by
          rw [hpow2, hpowx, one_mul]
  · unfold einastoF
    apply Continuous.intervalIntegrable
    exact (by fun_prop : Continuous fun x : ℝ => x ^ 2).mul
      (Real.continuous_exp.comp (continuous_const.mul (hca.sub continuous_const)))

example : (0 : ℝ) < 0.18 ∧ (0 : ℝ) < 7 := by norm_num

/-- C24: Einasto's shape is positive and strictly decreasing, and 1 at the scale radius. -/
theorem C24_einasto_shape {a x y : ℝ} (ha : 0 < a) (hx : 0 ≤ x) (hxy : x < y) :
    0 < einastoF a x ∧ einastoF a y < einastoF a x ∧ einastoF a 1 = 1 := by
  refine ⟨Real.exp_pos _, ?_, by simp [einastoF]⟩
  unfold einastoF
  apply Real.exp_lt_exp.2
  have h := Real.rpow_lt_rpow hx hxy ha
  have h2 : (-2.0 : ℝ) / a < 0 := by
    apply div_neg_of_neg_of_pos _ ha
    norm_num
  nlinarith

/-- C24: generalised NFW with its default `alpha = 1` is NFW, and is positive and decreasing for
`0 ≤ alpha ≤ 3`. -/
theorem C24_gnfw {α x y : ℝ} (h0 : 0 ≤ α) (h3 : α ≤ 3) (hx : 0 < x) (hxy : x ≤ y) :
    gnfwF 1 x = nfw.f x ∧ 0 < gnfwF α x ∧ gnfwF α y ≤ gnfwF α x := by
  have hy : 0 < y := by linarith
  refine ⟨?_, ?_, ?_⟩
  · unfold gnfwF nfw nfwF
    have : (3 : ℝ) - 1 = (2 : ℕ) := by norm_num
    simp only [Real.rpow_one]
    rw [this, Real.rpow_natCast]
  · unfold gnfwF
    positivity
  · unfold gnfwF
    have a1 : x ^ α ≤ y ^ α := Real.rpow_le_rpow hx.le hxy h0
    have a2 : (1 + x) ^ (3 - α) ≤ (1 + y) ^ (3 - α) :=
      Real.rpow_le_rpow (by linarith) (by linarith) (by linarith)
    gcongr

/-- C24: the normalisation of the power law with exponential cut-off is the mass integral of its shape over
all radii, for every `a > 0`, `b < 3` (the defaults are `a = 0.049`, `b = 2.248`). -/
theorem C24_powerlaw {a b : ℝ} (ha : 0 < a) (hb : b < 3) :
    plH a b = ∫ x in Ioi (0 : ℝ), x ^ 2 * plF a b x := by
  have h := Real.integral_rpow_mul_exp_neg_mul_Ioi (a := 3 - b) (r := a) (by linarith) ha
  have e : ∀ x ∈ Ioi (0 : ℝ), x ^ 2 * plF a b x = x ^ (3 - b - 1) * Real.exp (-(a * x)) := by
    intro x hx
    have hx0 : 0 < x := hx
    unfold plF
    have e1 : (1.0 : ℝ) = 1 := by norm_num
    rw [e1, one_div, ← Real.rpow_neg hx0.le, ← mul_assoc, neg_mul, ← Real.rpow_natCast x 2, ← Real.rpow_add hx0]
    congr 2
    push_cast
    ring
  rw [setIntegral_congr_fun measurableSet_Ioi e, h]
  unfold plH
  rw [one_div, Real.inv_rpow ha.le, ← Real.rpow_neg ha.le, mul_comm]
  congr 2
  ring

/-- C24/C25, finding: the power-law profile is normalised over all space (its `_h` ignores the
concentration), so with `norm="m"` the mass inside the halo radius is strictly less than one halo. -/
theorem C25_powerlaw_inside {a b c : ℝ} (ha : 0 < a) (hb : b < 3) (hc : 0 < c) :
    massInt (plF a b) c < plH a b := by
  rw [C24_powerlaw ha hb]
  have h := Real.integral_rpow_mul_exp_neg_mul_Ioi (a := 3 - b) (r := a) (by linarith) ha
  have e : ∀ x ∈ Ioi (0 : ℝ), x ^ (3 - b - 1) * Real.exp (-(a * x)) = x ^ 2 * plF a b x := by
    intro x hx
    have hx0 : 0 < x := hx
    unfold plF
    have e1 : (1.0 : ℝ) = 1 := by norm_num
    rw [e1, one_div, ← Real.rpow_neg hx0.le, ← mul_assoc, neg_mul, ← Real.rpow_natCast x 2, ← Real.rpow_add hx0]
    congr 2
    push_cast
    ring
  have hi0 : IntegrableOn (fun x : ℝ => x ^ (3 - b - 1) * Real.exp (-(a * x))) (Ioi 0) := by
    refine Integrable.of_integral_ne_zero ?_
    rw [h]
    have := Real.Gamma_pos_of_pos (by linarith : 0 < 3 - b)
    positivity
  have hi : IntegrableOn (fun x : ℝ => x ^ 2 * plF a b x) (Ioi 0) := hi0.congr_fun e measurableSet_Ioi
  have hpos : ∀ x ∈ Ioi (0 : ℝ), 0 < x ^ 2 * plF a b x := by
    intro x hx
    have hx0 : 0 < x := hx
    unfold plF
    positivity
  unfold massInt
  have h2 : IntegrableOn (fun x : ℝ => x ^ 2 * plF a b x) (Ioi c) := hi.mono_set (Ioi_subset_Ioi hc.le)
  have h1 : IntegrableOn (fun x : ℝ => x ^ 2 * plF a b x) (Ioc 0 c) := hi.mono_set Ioc_subset_Ioi_self
  rw [intervalIntegral.integral_of_le hc.le, ← Ioc_union_Ioi_eq_Ioi hc.le,
    setIntegral_union Ioc_disjoint_Ioi_same measurableSet_Ioi h1 h2]
  have : 0 < ∫ x in Ioi c, x ^ 2 * plF a b x := by
    rw [setIntegral_pos_iff_support_of_nonneg_ae]
    · have : Function.support (fun x : ℝ => x ^ 2 * plF a b x) ∩ Ioi c = Ioi c := by
        apply inter_eq_right.2
        intro x hx
        exact (hpos x (lt_trans hc hx)).ne'
      rw [this]
      simp
    · refine (ae_restrict_iff' measurableSet_Ioi).2 (ae_of_all _ fun x hx => (hpos x (lt_trans hc hx)).le)
    · exact h2
  linarith

example : (0 : ℝ) < 0.049 ∧ (2.248 : ℝ) < 3 ∧ (0 : ℝ) < 10 := by norm_num

end

end Halomod.Profiles
