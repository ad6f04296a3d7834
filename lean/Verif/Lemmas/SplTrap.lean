import Verif.Lemmas.Arange

/-! # The integral of a cubic spline on a uniform grid is that of the polygon, up to one step -/
namespace Halomod

open Finset MeasureTheory Filter Topology Halomod.Tools

/-- what is used of an interpolating spline to integrate functions with jumps: on a uniform grid its integral up to the last
sample differs from that of the polygon by at most a constant times the step times the largest datum. -/
def SplQuad (isp : Spl) : Prop :=
  ∃ K, 0 ≤ K ∧ ∀ (n : ℕ) (A s : ℝ) (y : ℕ → ℝ) (M c : ℝ), 5 ≤ n → 0 < s → (∀ i < n, |y i| ≤ M) →
    c ∈ Set.Icc A (A + ((n - 1 : ℕ):ℝ) * s) →
    |splIntegral isp n (fun i : ℕ => A + i * s) y c (A + ((n - 1 : ℕ):ℝ) * s) -
      splIntegral linSpl n (fun i : ℕ => A + i * s) y c (A + ((n - 1 : ℕ):ℝ) * s)| ≤ K * M * s

theorem linSpl_quad : SplQuad linSpl := ⟨0, le_rfl, fun n A s y M c _ _ _ _ => by simp⟩

theorem splIntegral_inside {isp : Spl} {n : ℕ} {A s : ℝ} {y : ℕ → ℝ} {c d : ℝ} (hcd : c ≤ d) (hc : A ≤ c) (hd : d ≤ A + ((n - 1 : ℕ):ℝ) * s) :
    splIntegral isp n (fun i : ℕ => A + i * s) y c d = ∫ t in c..d, isp n (fun i : ℕ => A + i * s) y t := by
  unfold splIntegral
  apply intervalIntegral.integral_congr
  intro t ht
  rw [Set.uIcc_of_le hcd] at ht
  apply Set.indicator_of_mem
  exact ⟨by simpa using hc.trans ht.1, ht.2.trans hd⟩

/-- the cubic spline has the property. -/
theorem cubicSpl_quad_bound (n : ℕ) (A s : ℝ) (y : ℕ → ℝ) (M c : ℝ) (hn : 5 ≤ n) (hs : 0 < s) (hM : ∀ i < n, |y i| ≤ M)
    (hc : c ∈ Set.Icc A (A + ((n - 1 : ℕ):ℝ) * s)) :
    |splIntegral cubicSpl n (fun i : ℕ => A + i * s) y c (A + ((n - 1 : ℕ):ℝ) * s) -
      splIntegral linSpl n (fun i : ℕ => A + i * s) y c (A + ((n - 1 : ℕ):ℝ) * s)| ≤ 40 * M * s := by
  set x : ℕ → ℝ := fun i : ℕ => A + i * s with hx
  have hinc : ∀ i k : ℕ, i < k → k < n → x i < x k := lin_inc A hs n
  have hstep : ∀ i : ℕ, x (i + 1) - x i = s := fun i => by simp only [hx]; push_cast; ring
  have hM0 : 0 ≤ M := (abs_nonneg _).trans (hM 0 (by omega))
  have hS := cubicSpl_isSpline hn hinc y
  have hD : ∀ i, i + 1 < n → |y (i + 1) - y i| ≤ 2 * M := fun i hi =>
    (abs_sub _ _).trans (by linarith [hM i (by omega), hM (i + 1) hi])
  obtain ⟨m, hon, hmom, hB⟩ := spline_moments hn hS (lo := s) (hi := s) (D := 2 * M) hs (fun i _ => (hstep i).ge) (fun i _ => (hstep i).le) hD
  have hss : s / s = 1 := div_self hs.ne'
  have hB' : ∀ i < n, |m i| ≤ 18 * M / s ^ 2 := by
    intro i hi
    have := hB i hi
    rw [hss] at this
    refine this.trans (le_of_eq ?_)
    field_simp
    ring
  -- the difference from the polygon
  set S := cubicSpl n x y with hSdef
  set L := linSpl n x y with hLdef
  have hSc : Continuous S := cubicSpl_lin.cont n x y hinc
  have hLc : Continuous L := linSpl_lin.cont n x y hinc
  have hLon : ∀ j, j + 1 < n → ∀ t, x j ≤ t → t ≤ x (j + 1) → L t = y j + (y (j + 1) - y j) * ((t - x j) / s) := by
    intro j hj t h1 h2
    rw [hLdef, linSpl_on n x y hinc j hj t h1 h2, hstep]
  have panel : ∀ j, j + 1 < n → ∫ t in x j..x (j + 1), (S t - L t) = -(s ^ 3 / 12) * (m j + m (j + 1)) := by
    intro j hj
    have hle : x j ≤ x (j + 1) := (hinc j (j + 1) (by omega) hj).le
    have e1 : ∫ t in x j..x (j + 1), (S t - L t) = ∫ t in x j..x (j + 1),
        (m j * (-(2 * s / 3) * (t - x j) + (t - x j) ^ 2 - (t - x j) ^ 3 / (3 * s)) + m (j + 1) * (-(s / 3) * (t - x j) + (t - x j) ^ 3 / (3 * s))) := by
      apply intervalIntegral.integral_congr
      intro t ht
      rw [Set.uIcc_of_le hle] at ht
      beta_reduce
      rw [hon j hj t ht.1 ht.2, hLon j hj t ht.1 ht.2, hstep]
      field_simp
      ring
    rw [e1]
    rw [intervalIntegral.integral_comp_sub_right (fun u => m j * (-(2 * s / 3) * u + u ^ 2 - u ^ 3 / (3 * s)) + m (j + 1) * (-(s / 3) * u + u ^ 3 / (3 * s))) (x j),
      sub_self, hstep]
    have hder : ∀ u ∈ Set.uIcc 0 s, HasDerivAt (fun u : ℝ => m j * (-(2 * s / 3) * (u ^ 2 / 2) + u ^ 3 / 3 - u ^ 4 / 4 / (3 * s)) + m (j + 1) * (-(s / 3) * (u ^ 2 / 2) + u ^ 4 / 4 / (3 * s)))
        (m j * (-(2 * s / 3) * u + u ^ 2 - u ^ 3 / (3 * s)) + m (j + 1) * (-(s / 3) * u + u ^ 3 / (3 * s))) u := by
      intro u _
      have p2 : HasDerivAt (fun u : ℝ => u ^ 2 / 2) u u := ((hasDerivAt_pow 2 u).div_const 2).congr_deriv (by simp)
      have p3 : HasDerivAt (fun u : ℝ => u ^ 3 / 3) (u ^ 2) u := ((hasDerivAt_pow 3 u).div_const 3).congr_deriv (by simp)
      have p4 : HasDerivAt (fun u : ℝ => u ^ 4 / 4) (u ^ 3) u := ((hasDerivAt_pow 4 u).div_const 4).congr_deriv (by simp)
      exact ((((p2.const_mul (-(2 * s / 3))).add p3).sub (p4.div_const (3 * s))).const_mul (m j)).add
        (((p2.const_mul (-(s / 3))).add (p4.div_const (3 * s))).const_mul (m (j + 1)))
    rw [intervalIntegral.integral_eq_sub_of_hasDerivAt hder (Continuous.intervalIntegrable (by fun_prop) _ _)]
    field_simp
    ring
  have hint : ∀ a b, IntervalIntegrable (fun t => S t - L t) volume a b := fun a b => (hSc.sub hLc).intervalIntegrable a b
  have panels : ∀ J k, J + k + 1 ≤ n → ∫ t in x J..x (J + k), (S t - L t) = -(s ^ 3 / 12) * ∑ i ∈ range k, (m (J + i) + m (J + i + 1)) := by
    intro J k
    induction k with
    | zero => intro _; simp
    | succ k ih =>
      intro hk
      rw [← intervalIntegral.integral_add_adjacent_intervals (hint (x J) (x (J + k))) (hint _ _), ih (by omega), sum_range_succ,
        show J + (k + 1) = J + k + 1 by ring, panel (J + k) (by omega)]
      ring
  -- the sum of the moments telescopes
  have tele : ∀ J k, J + k + 2 ≤ n → 3 * ∑ i ∈ range (k + 1), (m (J + i) + m (J + i + 1)) =
      3 / s ^ 2 * ((y (J + k + 1) - y (J + k)) - (y (J + 1) - y J)) + 2 * (m J + m (J + k + 1)) + (m (J + 1) + m (J + k)) := by
    intro J k
    induction k with
    | zero => intro _; simp; ring
    | succ k ih =>
      intro hk
      rw [sum_range_succ, mul_add, ih (by omega)]
      have h3 := hmom (J + k) (by omega)
      rw [hstep, show x (J + k + 2) - x (J + k + 1) = s from hstep (J + k + 1)] at h3
      have h4 : m (J + k) + 4 * m (J + k + 1) + m (J + k + 2) = 3 / s ^ 2 * ((y (J + k + 2) - y (J + k + 1)) - (y (J + k + 1) - y (J + k))) := by
        field_simp
        field_simp at h3
        linarith
      rw [show J + (k + 1) = J + k + 1 by ring, show J + k + 1 + 1 = J + k + 2 by ring]
      linear_combination (1 : ℝ) * h4
  have whole : ∀ J, J < n → |∫ t in x J..x (n - 1), (S t - L t)| ≤ 4 * M * s := by
    intro J hJ
    rcases Nat.lt_or_ge (J + 1) n with h | h
    · obtain ⟨k, hk⟩ : ∃ k, n = J + k + 2 := ⟨n - J - 2, by omega⟩
      have e1 := panels J (k + 1) (by omega)
      rw [show J + (k + 1) = n - 1 by omega] at e1
      have e2 := tele J k (by omega)
      rw [e1]
      generalize hG : ∑ i ∈ range (k + 1), (m (J + i) + m (J + i + 1)) = G at *
      have b1 := hB' J (by omega)
      have b2 := hB' (J + k + 1) (by omega)
      have b3 := hB' (J + 1) (by omega)
      have b4 := hB' (J + k) (by omega)
      have d1 := hD (J + k) (by omega)
      have d2 := hD J (by omega)
      have e3 : 3 * (s ^ 2 * G) = 3 * ((y (J + k + 1) - y (J + k)) - (y (J + 1) - y J)) + s ^ 2 * (2 * (m J + m (J + k + 1)) + (m (J + 1) + m (J + k))) := by
        have : s ^ 2 * (3 * G) = s ^ 2 * (3 / s ^ 2 * ((y (J + k + 1) - y (J + k)) - (y (J + 1) - y J)) + 2 * (m J + m (J + k + 1)) + (m (J + 1) + m (J + k))) := by rw [e2]
        have h5 : s ^ 2 * (3 / s ^ 2 * ((y (J + k + 1) - y (J + k)) - (y (J + 1) - y J))) = 3 * ((y (J + k + 1) - y (J + k)) - (y (J + 1) - y J)) := by field_simp
        linear_combination this + h5
      have sm : ∀ i, |m i| ≤ 18 * M / s ^ 2 → |s ^ 2 * m i| ≤ 18 * M := by
        intro i hi
        rw [abs_mul, abs_of_pos (by positivity : 0 < s ^ 2)]
        rw [le_div_iff₀ (by positivity)] at hi
        linarith
      have c1 := abs_le.mp (sm _ b1)
      have c2 := abs_le.mp (sm _ b2)
      have c3 := abs_le.mp (sm _ b3)
      have c4 := abs_le.mp (sm _ b4)
      rw [abs_le] at d1 d2
      have hG2 : |s ^ 2 * G| ≤ 48 * M := by
        rw [abs_le]
        constructor <;> nlinarith [c1.1, c1.2, c2.1, c2.2, c3.1, c3.2, c4.1, c4.2, d1.1, d1.2, d2.1, d2.2]
      rw [show -(s ^ 3 / 12) * G = -(s / 12) * (s ^ 2 * G) by ring, abs_mul, abs_neg, abs_of_pos (by positivity : 0 < s / 12)]
      nlinarith
    · rw [show J = n - 1 by omega, intervalIntegral.integral_same, abs_zero]
      positivity
  -- the part of the first panel
  have hlast : x (n - 1) = A + ((n - 1 : ℕ):ℝ) * s := rfl
  obtain ⟨j, hj, hj1, hj2⟩ := inc_panel (n := n) (by omega) (x := x) (t := c) (by simpa [hx] using hc.1) (by rw [hlast]; exact hc.2)
  rw [splIntegral_inside hc.2 hc.1 le_rfl, splIntegral_inside hc.2 hc.1 le_rfl, ← intervalIntegral.integral_sub (hSc.intervalIntegrable _ _) (hLc.intervalIntegrable _ _)]
  rw [← hlast, ← intervalIntegral.integral_add_adjacent_intervals (hint c (x (j + 1))) (hint _ _)]
  have hpart : |∫ t in c..x (j + 1), (S t - L t)| ≤ 36 * M * s := by
    rw [← Real.norm_eq_abs]
    have := intervalIntegral.norm_integral_le_of_norm_le_const (a := c) (b := x (j + 1)) (C := 36 * M) (f := fun t => S t - L t) (by
      intro t ht
      rw [Set.uIoc_of_le hj2] at ht
      have h1 : x j ≤ t := hj1.trans ht.1.le
      have := spline_near_polygon hn hS (lo := s) (hi := s) (D := 2 * M) hs (fun i _ => (hstep i).ge) (fun i _ => (hstep i).le) hD hj h1 ht.2
      rw [hss, hstep] at this
      rw [Real.norm_eq_abs, hLon j hj t h1 ht.2]
      refine this.trans (le_of_eq (by ring)))
    refine this.trans ?_
    rw [abs_of_nonneg (by linarith)]
    have : x (j + 1) - c ≤ s := by linarith [hstep j]
    exact mul_le_mul_of_nonneg_left this (by positivity)
  refine (abs_add_le _ _).trans ?_
  have := whole (j + 1) hj
  linarith

theorem cubicSpl_quad : SplQuad cubicSpl := ⟨40, by norm_num, cubicSpl_quad_bound⟩

end Halomod
