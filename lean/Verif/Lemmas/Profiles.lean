import Verif.Spec.Profiles
import Mathlib.Analysis.SpecialFunctions.Integrals.Basic
import Mathlib.Analysis.SpecialFunctions.Log.Deriv
import Mathlib.Analysis.SpecialFunctions.Pow.Deriv
import Mathlib.MeasureTheory.Integral.DominatedConvergence

/-!
# Calculus lemmas for profiles
-/
namespace Halomod.Profiles

open MeasureTheory Set Filter Topology

noncomputable section

/-- FTC with derivative on the open interval, continuity on the closed one. -/
lemma ftc {F g : ℝ → ℝ} {a b : ℝ} (hab : a ≤ b) (hF : ContinuousOn F (Icc a b))
    (hd : ∀ x ∈ Ioo a b, HasDerivAt F (g x) x) (hg : IntervalIntegrable g volume a b) :
    ∫ x in a..b, g x = F b - F a :=
  intervalIntegral.integral_eq_sub_of_hasDerivAt_of_le hab hF hd hg

lemma nfw_sq {x : ℝ} (hx : 0 ≤ x) : x ^ 2 * nfwF x = x / (1 + x) ^ 2 := by
  unfold nfwF
  rcases hx.eq_or_lt with rfl | h
  · simp
  · field_simp
    norm_num

lemma nfw_lin {x : ℝ} (hx : 0 < x) : x * nfwF x = 1 / (1 + x) ^ 2 := by
  unfold nfwF
  field_simp
  norm_num

lemma her_sq {x : ℝ} (hx : 0 ≤ x) : x ^ 2 * herF x = x / (1 + x) ^ 3 := by
  unfold herF
  rcases hx.eq_or_lt with rfl | h
  · simp
  · field_simp
    norm_num

lemma her_lin {x : ℝ} (hx : 0 < x) : x * herF x = 1 / (1 + x) ^ 3 := by
  unfold herF
  field_simp
  norm_num

lemma integral_congr_Ioc {f g : ℝ → ℝ} {a b : ℝ} (hab : a ≤ b) (h : ∀ x ∈ Ioc a b, f x = g x) :
    ∫ x in a..b, f x = ∫ x in a..b, g x := by
  refine intervalIntegral.integral_congr_ae (ae_of_all _ fun x hx => ?_)
  rw [uIoc_of_le hab] at hx
  exact h x hx

lemma nfw_massInt {c : ℝ} (hc : 0 < c) : nfwH c = massInt nfwF c := by
  unfold massInt
  rw [integral_congr_Ioc hc.le (g := fun x => x / (1 + x) ^ 2) (fun x hx => nfw_sq hx.1.le)]
  have hd : ∀ x ∈ Icc 0 c, HasDerivAt nfwH (x / (1 + x) ^ 2) x := by
    intro x hx
    have h1 : (0 : ℝ) < 1 + x := by linarith [hx.1]
    have h1' : (0 : ℝ) < 1.0 + x := by norm_num; exact h1
    have hl : HasDerivAt (fun y : ℝ => 1.0 + y) 1 x := (hasDerivAt_id x).const_add 1.0
    have := (hl.log h1'.ne').sub ((hasDerivAt_id x).div hl h1'.ne')
    refine this.congr_deriv ?_
    have e : (1.0 : ℝ) = 1 := by norm_num
    simp only [id, e]
    field_simp
    ring
  rw [ftc hc.le (fun x hx => (hd x hx).continuousAt.continuousWithinAt)
    (fun x hx => hd x (Ioo_subset_Icc_self hx))]
  · simp [nfwH]
    norm_num
  · apply ContinuousOn.intervalIntegrable_of_Icc hc.le
    refine ContinuousOn.div (by fun_prop) (by fun_prop) ?_
    intro x hx
    have : (0 : ℝ) < 1 + x := by linarith [hx.1]
    positivity

lemma her_massInt {c : ℝ} (hc : 0 < c) : herH c = massInt herF c := by
  unfold massInt
  rw [integral_congr_Ioc hc.le (g := fun x => x / (1 + x) ^ 3) (fun x hx => her_sq hx.1.le)]
  have hd : ∀ x ∈ Icc 0 c, HasDerivAt herH (x / (1 + x) ^ 3) x := by
    intro x hx
    have h1 : (0 : ℝ) < 1 + x := by linarith [hx.1]
    have hl : HasDerivAt (fun y : ℝ => 1 + y) 1 x := (hasDerivAt_id x).const_add 1
    have hne : 2 * (1 + x) ^ 2 ≠ 0 := by positivity
    have := (hasDerivAt_pow 2 x).div ((hl.pow 2).const_mul 2) hne
    refine this.congr_deriv ?_
    simp only [Pi.pow_apply]
    field_simp
    push_cast
    ring
  rw [ftc hc.le (fun x hx => (hd x hx).continuousAt.continuousWithinAt)
    (fun x hx => hd x (Ioo_subset_Icc_self hx))]
  · simp [herH]
  · apply ContinuousOn.intervalIntegrable_of_Icc hc.le
    refine ContinuousOn.div (by fun_prop) (by fun_prop) ?_
    intro x hx
    have : (0 : ℝ) < 1 + x := by linarith [hx.1]
    positivity

lemma const_massInt {c : ℝ} : constH c = massInt constF c := by
  unfold massInt constF constH
  norm_num

lemma cored_massInt {c : ℝ} (hc : 0 < c) : coredH c = massInt coredF c := by
  unfold massInt
  have hd : ∀ x ∈ Icc 0 c, HasDerivAt coredH (x ^ 2 * coredF x) x := by
    intro x hx
    have h1 : (0 : ℝ) < x + 1 := by linarith [hx.1]
    have h2 : (0 : ℝ) < x + 0.75 := by norm_num; linarith [hx.1]
    have hl : HasDerivAt (fun y : ℝ => y + 1) 1 x := (hasDerivAt_id x).add_const 1
    have hl2 : HasDerivAt (fun y : ℝ => y + 0.75) 1 x := (hasDerivAt_id x).add_const 0.75
    have hn : HasDerivAt (fun y : ℝ => -(2 * y + 3)) (-(2 * 1)) x :=
      (((hasDerivAt_id x).const_mul 2).add_const 3).neg
    have := (((((hn.div hl h1.ne').add ((hl.log h1.ne').const_mul 2)).const_mul (-4)).add
      ((hl2.log h2.ne').const_mul 9)).sub_const 12).sub_const (9 * Real.log 0.75)
    refine this.congr_deriv ?_
    have e : (0.75 : ℝ) = 3 / 4 := by norm_num
    rw [e] at h2
    have h3 : (0 : ℝ) < x * 4 + 3 := by linarith
    have h2' : x + 3 / 4 ≠ 0 := h2.ne'
    have e1 : (1.0 : ℝ) = 1 := by norm_num
    simp only [coredF, e, e1]
    obtain ⟨y, hy⟩ : ∃ y, x + 3 / 4 = y := ⟨_, rfl⟩
    obtain ⟨w, hw⟩ : ∃ w, x + 1 = w := ⟨_, rfl⟩
    rw [hy] at h2' ⊢
    rw [hw] at h1 ⊢
    have hxy : y = w - 1 / 4 := by linarith
    have hxw : x = w - 1 := by linarith
    field_simp
    rw [hxy, hxw]
    ring
  rw [ftc hc.le (fun x hx => (hd x hx).continuousAt.continuousWithinAt)
    (fun x hx => hd x (Ioo_subset_Icc_self hx))]
  · simp [coredH]
    ring
  · apply ContinuousOn.intervalIntegrable_of_Icc hc.le
    unfold coredF
    have ha : ∀ x ∈ Icc 0 c, x + 0.75 ≠ 0 := fun x hx => by norm_num; linarith [hx.1]
    have hb : ∀ x ∈ Icc 0 c, (x + 1) ^ 2 ≠ 0 := fun x hx => by
      have : (0 : ℝ) < x + 1 := by linarith [hx.1]
      positivity
    exact ContinuousOn.mul (by fun_prop)
      ((continuousOn_const.div (by fun_prop) ha).div (by fun_prop) hb)

lemma moore_sq {x : ℝ} (hx : 0 ≤ x) :
    x ^ 2 * mooreF x = x ^ (0.5 : ℝ) / (1 + x ^ (1.5 : ℝ)) := by
  unfold mooreF
  rcases hx.eq_or_lt with rfl | h
  · simp
    norm_num
  · have h1 : x ^ (2 : ℕ) = x ^ (0.5 : ℝ) * x ^ (1.5 : ℝ) := by
      rw [← Real.rpow_add h]
      norm_num
    have h2 : 0 < x ^ (1.5 : ℝ) := Real.rpow_pos_of_pos h _
    rw [h1]
    field_simp
    norm_num

lemma moore_massInt {c : ℝ} (hc : 0 < c) : mooreH c = massInt mooreF c := by
  unfold massInt
  rw [integral_congr_Ioc hc.le (g := fun x => x ^ (0.5 : ℝ) / (1 + x ^ (1.5 : ℝ)))
    (fun x hx => moore_sq hx.1.le)]
  have hc1 : Continuous fun x : ℝ => x ^ (1.5 : ℝ) :=
    Real.continuous_rpow_const (by norm_num)
  have hc5 : Continuous fun x : ℝ => x ^ (0.5 : ℝ) :=
    Real.continuous_rpow_const (by norm_num)
  have hpos : ∀ x ∈ Icc 0 c, 1 + x ^ (1.5 : ℝ) ≠ 0 := fun x hx => by
    have := Real.rpow_nonneg hx.1 1.5
    linarith
  have hd : ∀ x ∈ Ioo 0 c, HasDerivAt mooreH (x ^ (0.5 : ℝ) / (1 + x ^ (1.5 : ℝ))) x := by
    intro x hx
    have h := (((Real.hasDerivAt_rpow_const (p := 1.5) (Or.inl hx.1.ne')).const_add 1).log
      (hpos x (Ioo_subset_Icc_self hx))).const_mul 2.0 |>.div_const 3
    refine h.congr_deriv ?_
    have e : ((1.5 : ℝ) - 1) = 0.5 := by norm_num
    rw [e]
    have e2 : (2.0 : ℝ) * 1.5 / 3 = 1 := by norm_num
    calc 2.0 * (1.5 * x ^ (0.5 : ℝ) / (1 + x ^ (1.5 : ℝ))) / 3
        = (2.0 * 1.5 / 3) * (x ^ (0.5 : ℝ) / (1 + x ^ (1.5 : ℝ))) := by
          generalize x ^ (0.5 : ℝ) = u
          generalize x ^ (1.5 : ℝ) = v
          generalize (2.0 : ℝ) = t
          generalize (1.5 : ℝ) = w
          ring
      _ = _ := by rw [e2, one_mul]
  rw [ftc hc.le ?_ hd]
  · simp [mooreH]
    norm_num
  · apply ContinuousOn.intervalIntegrable_of_Icc hc.le
    exact hc5.continuousOn.div (by fun_prop) hpos
  · unfold mooreH
    exact (continuousOn_const.mul ((continuousOn_const.add hc1.continuousOn).log hpos)).div_const 3


lemma hasDerivAt_Si_comp {k b x : ℝ} (hk : 0 < k) (hx : 0 < x + b) :
    HasDerivAt (fun y => Si (k * (y + b))) (Real.sin (k * (x + b)) / (x + b)) x := by
  have h1 : HasDerivAt (fun y : ℝ => k * (y + b)) (k * 1) x :=
    ((hasDerivAt_id x).add_const b).const_mul k
  have := (Si_hasDerivAt (mul_pos hk hx)).comp x h1
  refine this.congr_deriv ?_
  field_simp

lemma hasDerivAt_Ci_comp {k b x : ℝ} (hk : 0 < k) (hx : 0 < x + b) :
    HasDerivAt (fun y => Ci (k * (y + b))) (Real.cos (k * (x + b)) / (x + b)) x := by
  have h1 : HasDerivAt (fun y : ℝ => k * (y + b)) (k * 1) x :=
    ((hasDerivAt_id x).add_const b).const_mul k
  have := (Ci_hasDerivAt (mul_pos hk hx)).comp x h1
  refine this.congr_deriv ?_
  field_simp

/-- Antiderivative of `sin(kx)/(x+b)`. -/
lemma hasDerivAt_sinInt {k b x : ℝ} (hk : 0 < k) (hx : 0 < x + b) :
    HasDerivAt (fun y => Real.cos (b * k) * Si (k * (y + b)) - Real.sin (b * k) * Ci (k * (y + b)))
      (Real.sin (k * x) / (x + b)) x := by
  have := ((hasDerivAt_Si_comp hk hx).const_mul (Real.cos (b * k))).sub
    ((hasDerivAt_Ci_comp hk hx).const_mul (Real.sin (b * k)))
  refine this.congr_deriv ?_
  have e : k * (x + b) = k * x + b * k := by ring
  rw [e, Real.sin_add, Real.cos_add]
  field_simp
  linear_combination Real.sin (k * x) * Real.sin_sq_add_cos_sq (b * k)

/-- Antiderivative of `cos(kx)/(x+b)`. -/
lemma hasDerivAt_cosInt {k b x : ℝ} (hk : 0 < k) (hx : 0 < x + b) :
    HasDerivAt (fun y => Real.cos (b * k) * Ci (k * (y + b)) + Real.sin (b * k) * Si (k * (y + b)))
      (Real.cos (k * x) / (x + b)) x := by
  have := ((hasDerivAt_Ci_comp hk hx).const_mul (Real.cos (b * k))).add
    ((hasDerivAt_Si_comp hk hx).const_mul (Real.sin (b * k)))
  refine this.congr_deriv ?_
  have e : k * (x + b) = k * x + b * k := by ring
  rw [e, Real.sin_add, Real.cos_add]
  field_simp
  linear_combination Real.cos (k * x) * Real.sin_sq_add_cos_sq (b * k)

lemma hasDerivAt_sin_mul (k x : ℝ) : HasDerivAt (fun y => Real.sin (k * y)) (k * Real.cos (k * x)) x := by
  have h1 : HasDerivAt (fun y : ℝ => k * y) (k * 1) x := (hasDerivAt_id x).const_mul k
  refine ((Real.hasDerivAt_sin (k * x)).comp x h1).congr_deriv (by ring)

lemma hasDerivAt_cos_mul (k x : ℝ) :
    HasDerivAt (fun y => Real.cos (k * y)) (-(k * Real.sin (k * x))) x := by
  have h1 : HasDerivAt (fun y : ℝ => k * y) (k * 1) x := (hasDerivAt_id x).const_mul k
  refine ((Real.hasDerivAt_cos (k * x)).comp x h1).congr_deriv (by ring)

lemma nfw_fourierInt {K c : ℝ} (hK : 0 < K) (hc : 0 < c) : nfwP K c = fourierInt nfwF K c := by
  unfold fourierInt
  rw [integral_congr_Ioc hc.le (g := fun x => Real.sin (K * x) / (1 + x) ^ 2)
    (fun x hx => by rw [nfw_lin hx.1]; ring)]
  have hd : ∀ x ∈ Icc 0 c, HasDerivAt (fun y => K * (Real.cos (1 * K) * Ci (K * (y + 1))
      + Real.sin (1 * K) * Si (K * (y + 1))) - Real.sin (K * y) / (y + 1))
      (Real.sin (K * x) / (1 + x) ^ 2) x := by
    intro x hx
    have h1 : (0 : ℝ) < x + 1 := by linarith [hx.1]
    have hl : HasDerivAt (fun y : ℝ => y + 1) 1 x := (hasDerivAt_id x).add_const 1
    have := ((hasDerivAt_cosInt hK h1).const_mul K).sub ((hasDerivAt_sin_mul K x).div hl h1.ne')
    refine this.congr_deriv ?_
    rw [add_comm 1 x]
    field_simp
    ring
  rw [ftc hc.le (fun x hx => (hd x hx).continuousAt.continuousWithinAt)
    (fun x hx => hd x (Ioo_subset_Icc_self hx))]
  · unfold nfwP
    have e1 : (1 + c) * K = K * (c + 1) := by ring
    have e2 : K * (0 + 1) = K := by ring
    have e3 : c * K = K * c := by ring
    have h1 : (0 : ℝ) < c + 1 := by linarith
    rw [e1, e2, e3, one_mul, mul_zero, Real.sin_zero]
    field_simp
    ring
  · apply ContinuousOn.intervalIntegrable_of_Icc hc.le
    refine ContinuousOn.div (by fun_prop) (by fun_prop) ?_
    intro x hx
    have : (0 : ℝ) < 1 + x := by linarith [hx.1]
    positivity

lemma her_fourierInt {K c : ℝ} (hK : 0 < K) (hc : 0 < c) : herP K c = fourierInt herF K c := by
  unfold fourierInt
  rw [integral_congr_Ioc hc.le (g := fun x => Real.sin (K * x) / (1 + x) ^ 3)
    (fun x hx => by rw [her_lin hx.1]; ring)]
  have hd : ∀ x ∈ Icc 0 c, HasDerivAt (fun y => -(Real.sin (K * y) / (2 * (y + 1) ^ 2))
      - K / 2 * (Real.cos (K * y) / (y + 1))
      - K ^ 2 / 2 * (Real.cos (1 * K) * Si (K * (y + 1)) - Real.sin (1 * K) * Ci (K * (y + 1))))
      (Real.sin (K * x) / (1 + x) ^ 3) x := by
    intro x hx
    have h1 : (0 : ℝ) < x + 1 := by linarith [hx.1]
    have hl : HasDerivAt (fun y : ℝ => y + 1) 1 x := (hasDerivAt_id x).add_const 1
    have hne : 2 * (x + 1) ^ 2 ≠ 0 := by positivity
    have hl2 : HasDerivAt (fun y : ℝ => 2 * (y + 1) ^ 2) (2 * (2 * (x + 1))) x := by
      refine ((hl.pow 2).const_mul 2).congr_deriv ?_
      push_cast
      ring
    have := ((((hasDerivAt_sin_mul K x).div hl2 hne).neg).sub
      (((hasDerivAt_cos_mul K x).div hl h1.ne').const_mul (K / 2))).sub
      ((hasDerivAt_sinInt hK h1).const_mul (K ^ 2 / 2))
    refine this.congr_deriv ?_
    rw [add_comm 1 x]
    field_simp
    ring
  rw [ftc hc.le (fun x hx => (hd x hx).continuousAt.continuousWithinAt)
    (fun x hx => hd x (Ioo_subset_Icc_self hx))]
  · unfold herP
    have e1 : K + c * K = K * (c + 1) := by ring
    have e2 : K * (0 + 1) = K := by ring
    have e3 : c * K = K * c := by ring
    have e4 : (0.5 : ℝ) = 1 / 2 := by norm_num
    have h1 : (0 : ℝ) < c + 1 := by linarith
    rw [e1, e2, e3, one_mul, mul_zero, Real.sin_zero, Real.cos_zero, add_comm 1 c, e4]
    field_simp
    ring
  · apply ContinuousOn.intervalIntegrable_of_Icc hc.le
    refine ContinuousOn.div (by fun_prop) (by fun_prop) ?_
    intro x hx
    have : (0 : ℝ) < 1 + x := by linarith [hx.1]
    positivity

lemma const_fourierInt {K c : ℝ} (hK : 0 < K) (hc : 0 < c) : constP K c = fourierInt constF K c := by
  unfold fourierInt
  have hd : ∀ x ∈ Icc 0 c, HasDerivAt
      (fun y => (Real.sin (K * y) - K * (y * Real.cos (K * y))) / K ^ 2)
      (x * constF x * Real.sin (K * x)) x := by
    intro x hx
    have := ((hasDerivAt_sin_mul K x).sub
      (((hasDerivAt_id x).mul (hasDerivAt_cos_mul K x)).const_mul K)).div_const (K ^ 2)
    refine this.congr_deriv ?_
    have e : (1.0 : ℝ) = 1 := by norm_num
    simp only [constF, id, e]
    field_simp
    ring
  rw [ftc hc.le (fun x hx => (hd x hx).continuousAt.continuousWithinAt)
    (fun x hx => hd x (Ioo_subset_Icc_self hx))]
  · unfold constP
    have e3 : c * K = K * c := by ring
    rw [neg_mul, e3, mul_zero, Real.sin_zero]
    field_simp
    ring
  · apply ContinuousOn.intervalIntegrable_of_Icc hc.le
    unfold constF
    fun_prop

lemma cored_fourierInt {K c : ℝ} (hK : 0 < K) (hc : 0 < c) : coredP K c = fourierInt coredF K c := by
  unfold fourierInt
  have hd : ∀ x ∈ Icc 0 c, HasDerivAt (fun y => 12 * (Real.cos (1 * K) * Si (K * (y + 1))
        - Real.sin (1 * K) * Ci (K * (y + 1)))
      + 4 * K * (Real.cos (1 * K) * Ci (K * (y + 1)) + Real.sin (1 * K) * Si (K * (y + 1)))
      - 4 * (Real.sin (K * y) / (y + 1))
      + -12 * (Real.cos (0.75 * K) * Si (K * (y + 0.75)) - Real.sin (0.75 * K) * Ci (K * (y + 0.75))))
      (x * coredF x * Real.sin (K * x)) x := by
    intro x hx
    have h1 : (0 : ℝ) < x + 1 := by linarith [hx.1]
    have h2 : (0 : ℝ) < x + 0.75 := by norm_num; linarith [hx.1]
    have hl : HasDerivAt (fun y : ℝ => y + 1) 1 x := (hasDerivAt_id x).add_const 1
    have := ((((hasDerivAt_sinInt hK h1).const_mul 12).add
      ((hasDerivAt_cosInt hK h1).const_mul (4 * K))).sub
      (((hasDerivAt_sin_mul K x).div hl h1.ne').const_mul 4)).add
      ((hasDerivAt_sinInt hK h2).const_mul (-12))
    refine this.congr_deriv ?_
    have e1 : (1.0 : ℝ) = 1 := by norm_num
    have e : (0.75 : ℝ) = 3 / 4 := by norm_num
    simp only [coredF, e1]
    obtain ⟨y, hy⟩ : ∃ y, x + 0.75 = y := ⟨_, rfl⟩
    obtain ⟨w, hw⟩ : ∃ w, x + 1 = w := ⟨_, rfl⟩
    rw [hy] at h2 ⊢
    rw [hw] at h1 ⊢
    have hxy : y = w - 1 / 4 := by rw [e] at hy; linarith
    have hxw : x = w - 1 := by linarith
    generalize Real.sin (K * x) = S
    generalize Real.cos (K * x) = C
    field_simp
    rw [hxy, hxw]
    ring
  rw [ftc hc.le (fun x hx => (hd x hx).continuousAt.continuousWithinAt)
    (fun x hx => hd x (Ioo_subset_Icc_self hx))]
  · unfold coredP coredAnti
    have e1 : (1.0 : ℝ) = 1 := by norm_num
    simp only [e1, one_mul, mul_zero, Real.sin_zero, zero_div, sub_zero]
    ring
  · apply ContinuousOn.intervalIntegrable_of_Icc hc.le
    unfold coredF
    have ha : ∀ x ∈ Icc 0 c, x + 0.75 ≠ 0 := fun x hx => by norm_num; linarith [hx.1]
    have hb : ∀ x ∈ Icc 0 c, (x + 1) ^ 2 ≠ 0 := fun x hx => by
      have : (0 : ℝ) < x + 1 := by linarith [hx.1]
      positivity
    exact (continuousOn_id.mul
      ((continuousOn_const.div (by fun_prop) ha).div (by fun_prop) hb)).mul (by fun_prop)

end

end Halomod.Profiles
