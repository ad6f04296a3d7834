import Verif.Props.IntegrateCorr
import Mathlib.Tactic
import Mathlib.Analysis.SpecialFunctions.Integrals.Basic
import Mathlib.Analysis.Calculus.Deriv.MeanValue
import Mathlib.MeasureTheory.Integral.IntervalIntegral.FundThmCalculus

/-! # C42, continued: what the projection integrates, where it starts, and the two forms of the angular
correlation -/
namespace Halomod.IntegrateCorr

open Finset Halomod.Tools Halomod.HaloModel

/-! ## where the projection integral starts -/

/-- the square of the integrand per unit `ln y` of the projection of `r^-a` at unit projected separation,
`y` being the separation minus 1: `(y * (1+y)^(1-a) / sqrt((y+2) y))^2`. -/
noncomputable def peakFn (a y : ℝ) : ℝ := (y * ((1 + y) * (1 + y) ^ (-a) / Real.sqrt ((y + 2) * y))) ^ 2

theorem peakFn_eq (a y : ℝ) (hy : 0 < y) :
    peakFn a y = Real.exp (Real.log y + (2 - 2 * a) * Real.log (1 + y) - Real.log (y + 2)) := by
  unfold peakFn
  have h1 : 0 < 1 + y := by linarith
  have h2 : 0 < y + 2 := by linarith
  rw [mul_pow, div_pow, Real.sq_sqrt (by positivity), mul_pow, Real.exp_sub, Real.exp_add, Real.exp_log hy, Real.exp_log h2,
    mul_comm (2 - 2 * a), ← Real.rpow_def_of_pos h1, ← Real.rpow_natCast ((1 + y) ^ (-a)), ← Real.rpow_mul h1.le,
    ← Real.rpow_natCast (1 + y), ← Real.rpow_add h1]
  rw [show ((2 : ℕ) : ℝ) + -a * ((2 : ℕ) : ℝ) = 2 - 2 * a by push_cast; ring]
  field_simp

/-- the root of `(a-1) y^2 + (2a-3) y - 1`. -/
noncomputable def peakY (a : ℝ) : ℝ := (3 - 2 * a + Real.sqrt (5 - 8 * a + 4 * a ^ 2)) / (2 * (a - 1))

theorem peakY_facts (a : ℝ) (ha : 1 < a) :
    0 < peakY a ∧ (a - 1) * peakY a ^ 2 + (2 * a - 3) * peakY a - 1 = 0 ∧
    1 + peakY a = (1 + Real.sqrt (5 - 8 * a + 4 * a ^ 2)) / (2 * (a - 1)) ∧
    peakY a + 2 = (-1 + 2 * a + Real.sqrt (5 - 8 * a + 4 * a ^ 2)) / (2 * (a - 1)) := by
  unfold peakY
  set s := Real.sqrt (5 - 8 * a + 4 * a ^ 2) with hs
  have hsq : s ^ 2 = 5 - 8 * a + 4 * a ^ 2 := Real.sq_sqrt (by nlinarith [sq_nonneg (2 * a - 2)])
  have hs0 : 0 ≤ s := Real.sqrt_nonneg _
  have h1 : 0 < a - 1 := by linarith
  have hpos : 0 < 3 - 2 * a + s := by
    rcases le_or_gt (2 * a - 3) 0 with h | h
    · have : 0 < s := by
        apply Real.sqrt_pos.mpr; nlinarith [sq_nonneg (2 * a - 2)]
      linarith
    · have : 2 * a - 3 < s := by
        apply Real.lt_sqrt_of_sq_lt; nlinarith
      linarith
  refine ⟨div_pos hpos (by linarith), ?_, ?_, ?_⟩
  · field_simp
    nlinarith [hsq]
  · field_simp; ring
  · field_simp; ring

theorem peakFn_le (a : ℝ) (ha : 1 < a) (y : ℝ) (hy : 0 < y) : peakFn a y ≤ peakFn a (peakY a) := by
  obtain ⟨hp, hroot, -, -⟩ := peakY_facts a ha
  set p := peakY a with hpdef
  rw [peakFn_eq a y hy, peakFn_eq a p hp]
  apply Real.exp_le_exp.mpr
  set g : ℝ → ℝ := fun y => Real.log y + (2 - 2 * a) * Real.log (1 + y) - Real.log (y + 2) with hg
  have hder : ∀ t, 0 < t → HasDerivAt g (-2 * ((a - 1) * t ^ 2 + (2 * a - 3) * t - 1) / (t * (1 + t) * (t + 2))) t := by
    intro t ht
    have d1 := Real.hasDerivAt_log ht.ne'
    have d2 : HasDerivAt (fun y : ℝ => Real.log (1 + y)) (1 / (1 + t)) t :=
      ((hasDerivAt_id t).const_add 1).log (by simp; linarith)
    have d3 : HasDerivAt (fun y : ℝ => Real.log (y + 2)) (1 / (t + 2)) t :=
      ((hasDerivAt_id t).add_const 2).log (by simp; linarith)
    have := (d1.add (d2.const_mul (2 - 2 * a))).sub d3
    convert! this using 1
    have h1 : (1 + t) ≠ 0 := by linarith
    have h2 : (t + 2) ≠ 0 := by linarith
    field_simp
    ring
  have hsgn : ∀ t, 0 < t → (a - 1) * t ^ 2 + (2 * a - 3) * t - 1 = (t - p) * ((a - 1) * t + 1 / p) := by
    intro t ht
    have : 2 * a - 3 = (1 - (a - 1) * p ^ 2) / p := by field_simp; linarith
    rw [this]; field_simp; ring
  change g y ≤ g p
  rcases le_total y p with h | h
  · have : MonotoneOn g (Set.Icc y p) := by
      apply monotoneOn_of_deriv_nonneg (convex_Icc y p)
      · exact fun t ht => (hder t (lt_of_lt_of_le hy ht.1)).continuousAt.continuousWithinAt
      · intro t ht
        rw [interior_Icc] at ht
        exact (hder t (hy.trans ht.1)).differentiableAt.differentiableWithinAt
      · intro t ht
        rw [interior_Icc] at ht
        have ht0 := hy.trans ht.1
        rw [(hder t ht0).deriv, hsgn t ht0]
        apply div_nonneg _ (by positivity)
        have : 0 < (a - 1) * t + 1 / p := by have := sub_pos.mpr ha; positivity
        nlinarith [ht.2]
    exact this (Set.left_mem_Icc.mpr h) (Set.right_mem_Icc.mpr h) h
  · have : AntitoneOn g (Set.Icc p y) := by
      apply antitoneOn_of_deriv_nonpos (convex_Icc p y)
      · exact fun t ht => (hder t (lt_of_lt_of_le hp ht.1)).continuousAt.continuousWithinAt
      · intro t ht
        rw [interior_Icc] at ht
        exact (hder t (hp.trans ht.1)).differentiableAt.differentiableWithinAt
      · intro t ht
        rw [interior_Icc] at ht
        have ht0 := hp.trans ht.1
        rw [(hder t ht0).deriv, hsgn t ht0]
        apply div_nonpos_of_nonpos_of_nonneg _ (by positivity)
        have : 0 < (a - 1) * t + 1 / p := by have := sub_pos.mpr ha; positivity
        nlinarith [ht.1]
    exact this (Set.left_mem_Icc.mpr h) (Set.right_mem_Icc.mpr h) h

theorem peakFn_peak (a : ℝ) (ha : 1 < a) : 2 * peakFn a (peakY a) = getTheta a := by
  obtain ⟨hp, -, e1, e2⟩ := peakY_facts a ha
  set s := Real.sqrt (5 - 8 * a + 4 * a ^ 2) with hs
  have hsq : s ^ 2 = 5 - 8 * a + 4 * a ^ 2 := Real.sq_sqrt (by nlinarith [sq_nonneg (2 * a - 2)])
  have hs0 : 0 ≤ s := Real.sqrt_nonneg _
  have h1 : 0 < a - 1 := by linarith
  unfold getTheta
  rw [← hs]
  unfold peakFn
  have hy1 : 0 < 1 + peakY a := by linarith
  rw [mul_pow, div_pow, Real.sq_sqrt (by positivity), mul_pow, ← Real.rpow_natCast ((1 + peakY a) ^ (-a)),
    ← Real.rpow_mul hy1.le, show -a * ((2 : ℕ) : ℝ) = -2 * a by push_cast; ring, e1, e2]
  have hb : ((1 + s) / (2 * (a - 1))) ^ (-2 * a) = 2 ^ (2 * a) * ((1 + s) / (a - 1)) ^ (-2 * a) := by
    rw [show (1 + s) / (2 * (a - 1)) = (1 / 2) * ((1 + s) / (a - 1)) by field_simp,
      Real.mul_rpow (by norm_num) (by positivity), one_div, Real.inv_rpow (by norm_num), ← Real.rpow_neg (by norm_num)]
    congr 2; ring
  rw [hb, Real.rpow_add (by norm_num), Real.rpow_one]
  unfold peakY
  rw [← hs]
  set B := ((1 + s) / (a - 1)) ^ (-2 * a)
  set T := (2 : ℝ) ^ (2 * a)
  have hd : 0 < -1 + 2 * a + s := by linarith
  have hn : 3 - 2 * a + s ≠ 0 := by
    intro h0
    have : peakY a = 0 := by unfold peakY; rw [← hs, h0, zero_div]
    linarith
  have key : (3 - 2 * a + s) * (1 + s) ^ 2 = 4 * (7 - 2 * a ^ 3 + 3 * s + a ^ 2 * (9 + s) - a * (13 + 3 * s)) := by
    have : (3 - 2 * a + s) * (1 + s) ^ 2 = (3 - 2 * a) * (1 + s ^ 2) + 2 * s ^ 2 + s * (2 * (3 - 2 * a) + 1 + s ^ 2) := by ring
    rw [this, hsq]; ring
  rw [show 7 - 2 * a ^ 3 + 3 * s + a ^ 2 * (9 + s) - a * (13 + 3 * s) = (3 - 2 * a + s) * (1 + s) ^ 2 / 4 by
    rw [key]; ring]
  generalize 3 - 2 * a + s = N at hn
  generalize -1 + 2 * a + s = D at hd
  have hd' := hd.ne'
  have h1' := h1.ne'
  field_simp
  ring

/-- C42: the number from which the lower limit of the projection integral is computed is twice the largest
squared integrand (per unit logarithm of `y`) of a power law of slope `a`, for every slope above 1. -/
theorem C42_theta_peak (a : ℝ) (ha : 1 < a) :
    IsGreatest {v | ∃ y, 0 < y ∧ v = peakFn a y} (getTheta a / 2) := by
  have h := peakFn_peak a ha
  refine ⟨⟨peakY a, (peakY_facts a ha).1, by linarith⟩, ?_⟩
  rintro v ⟨y, hy, rfl⟩
  have := peakFn_le a ha y hy
  linarith

/-- C42: so for a power law the integral starts where the integrand has dropped to at most one per cent of its
peak. -/
theorem C42_theta_cut (a : ℝ) (ha : 1 < a) :
    ∃ y, 0 < y ∧ Real.sqrt (peakFn a (getTheta a * 0.01 ^ 2)) ≤ 0.01 * Real.sqrt (peakFn a y) := by
  refine ⟨peakY a, (peakY_facts a ha).1, ?_⟩
  have hT := getTheta_pos a ha
  have h := peakFn_peak a ha
  set y := getTheta a * 0.01 ^ 2 with hy
  have hy0 : 0 < y := by positivity
  have hle : peakFn a y ≤ y / 2 := by
    unfold peakFn
    have h1 : 0 < 1 + y := by linarith
    rw [mul_pow, div_pow, Real.sq_sqrt (by positivity)]
    have hb : (1 + y) * (1 + y) ^ (-a) ≤ 1 := by
      conv_lhs => rw [show (1 + y) * (1 + y) ^ (-a) = (1 + y) ^ (1 : ℝ) * (1 + y) ^ (-a) by rw [Real.rpow_one]]
      rw [← Real.rpow_add h1]
      exact Real.rpow_le_one_of_one_le_of_nonpos (by linarith) (by linarith)
    have hb0 : 0 ≤ (1 + y) * (1 + y) ^ (-a) := by positivity
    have hb2 : ((1 + y) * (1 + y) ^ (-a)) ^ 2 ≤ 1 := pow_le_one₀ hb0 hb
    rw [mul_div_assoc', div_le_div_iff₀ (by positivity) (by norm_num)]
    have := mul_le_mul_of_nonneg_left hb2 (sq_nonneg y)
    nlinarith
  have e : (0.01 : ℝ) * Real.sqrt (peakFn a (peakY a)) = Real.sqrt (0.01 ^ 2 * peakFn a (peakY a)) := by
    rw [Real.sqrt_mul (by norm_num), Real.sqrt_sq (by norm_num)]
  rw [e]
  apply Real.sqrt_le_sqrt
  refine hle.trans (le_of_eq ?_)
  rw [hy, ← h]; ring

/-- slopes above 1 are those used (`1.3` and steeper). -/
example : (1:ℝ) < 1.3 := by norm_num

/-! ## what the projection integrates -/

theorem simpsonX_affine (n : ℕ) (x y : ℕ → ℝ) (c e : ℝ) (hc : c ≠ 0) :
    simpsonX n (fun i => c * x i + e) y = c * simpsonX n x y := by
  have hb : ∀ b, basicSimpsonX b (fun i => c * x i + e) y = c * basicSimpsonX b x y := by
    intro b
    unfold basicSimpsonX
    rw [mul_sum]
    apply sum_congr rfl
    intro i _
    unfold simpsonBlock
    rw [show c * x (2 * i + 1) + e - (c * x (2 * i) + e) = c * (x (2 * i + 1) - x (2 * i)) by ring,
      show c * x (2 * i + 2) + e - (c * x (2 * i + 1) + e) = c * (x (2 * i + 2) - x (2 * i + 1)) by ring]
    generalize x (2 * i + 1) - x (2 * i) = h0
    generalize x (2 * i + 2) - x (2 * i + 1) = h1
    rw [mul_div_mul_left _ _ hc, show (c * h0 + c * h1) * ((c * h0 + c * h1) / (c * h0 * (c * h1))) =
      (h0 + h1) * ((h0 + h1) / (h0 * h1)) by
        by_cases h : h0 * h1 = 0
        · rw [show c * h0 * (c * h1) = c ^ 2 * (h0 * h1) by ring, h]; simp
        · have : h0 ≠ 0 := left_ne_zero_of_mul h
          have : h1 ≠ 0 := right_ne_zero_of_mul h
          field_simp]
    ring
  unfold simpsonX
  dsimp only
  split_ifs with h1 h2
  · ring
  · rw [hb, show c * x (n - 2) + e - (c * x (n - 3) + e) = c * (x (n - 2) - x (n - 3)) by ring,
      show c * x (n - 1) + e - (c * x (n - 2) + e) = c * (x (n - 1) - x (n - 2)) by ring]
    generalize x (n - 2) - x (n - 3) = h0
    generalize x (n - 1) - x (n - 2) = h1
    rw [show (2 * (c * h1) ^ 2 + 3 * (c * h0) * (c * h1)) / (6 * (c * h1 + c * h0)) =
        c * ((2 * h1 ^ 2 + 3 * h0 * h1) / (6 * (h1 + h0))) by
          by_cases h : h1 + h0 = 0
          · rw [← mul_add, h]; simp
          · rw [← mul_add]; field_simp,
      show ((c * h1) ^ 2 + 3 * (c * h0) * (c * h1)) / (6 * (c * h0)) = c * ((h1 ^ 2 + 3 * h0 * h1) / (6 * h0)) by
          by_cases h : h0 = 0
          · simp [h]
          · field_simp,
      show (c * h1) ^ 3 / (6 * (c * h0) * (c * h0 + c * h1)) = c * (h1 ^ 3 / (6 * h0 * (h0 + h1))) by
          by_cases h : h0 = 0
          · simp [h]
          · by_cases h' : h0 + h1 = 0
            · rw [← mul_add, h']; simp
            · rw [← mul_add]; field_simp]
    ring
  · exact hb _

/-- the projection integrand of Davis & Peebles: `r xi(r) / sqrt(r^2 - rp^2)`. -/
noncomputable def projIntegrand (xi : ℝ → ℝ) (rp r : ℝ) : ℝ := r * xi r / Real.sqrt (r ^ 2 - rp ^ 2)

/-- C42: the projected correlation is twice Simpson's rule for the Davis-Peebles integrand on the sampled
separations `r = y + rp`. -/
theorem C42_projected_integrand (fit : ℝ → ℝ) (a rl rp : ℝ) :
    projAt fit a rl rp = 2 * simpsonX 1000 (fun t => yGrid a rl rp t + rp)
      (fun t => projIntegrand fit rp (yGrid a rl rp t + rp)) := by
  unfold projAt projIntegrand
  have h := simpsonX_affine 1000 (yGrid a rl rp) (fun t => (yGrid a rl rp t + rp) * fit (yGrid a rl rp t + rp) /
    Real.sqrt ((yGrid a rl rp t + rp) ^ 2 - rp ^ 2)) 1 rp one_ne_zero
  simp only [one_mul] at h
  rw [h, mul_comm]
  congr 2
  funext t
  congr 2
  ring

/-- C42: that integrand is the line-of-sight integral: between separations `s` and `b` it is the integral of the
correlation along the line of sight at projected separation `rp`. -/
theorem C42_projection_is_line_of_sight (xi : ℝ → ℝ) (hxi : Continuous xi) (rp s b : ℝ) (h0 : 0 < rp) (h1 : rp < s)
    (h2 : s ≤ b) :
    ∫ r in s..b, projIntegrand xi rp r =
      ∫ l in Real.sqrt (s ^ 2 - rp ^ 2)..Real.sqrt (b ^ 2 - rp ^ 2), xi (Real.sqrt (rp ^ 2 + l ^ 2)) := by
  have hpos : ∀ r ∈ Set.uIcc s b, 0 < r ^ 2 - rp ^ 2 := by
    intro r hr
    rw [Set.uIcc_of_le h2] at hr
    nlinarith [hr.1]
  have hder : ∀ r ∈ Set.uIcc s b, HasDerivAt (fun r => Real.sqrt (r ^ 2 - rp ^ 2)) (r / Real.sqrt (r ^ 2 - rp ^ 2)) r := by
    intro r hr
    have := ((hasDerivAt_pow 2 r).sub_const (rp ^ 2)).sqrt (hpos r hr).ne'
    convert! this using 1
    have := Real.sqrt_pos.mpr (hpos r hr)
    field_simp
    push_cast; ring
  have hc : ContinuousOn (fun r => r / Real.sqrt (r ^ 2 - rp ^ 2)) (Set.uIcc s b) := by
    apply ContinuousOn.div continuousOn_id (by fun_prop)
    intro r hr
    exact (Real.sqrt_pos.mpr (hpos r hr)).ne'
  have := intervalIntegral.integral_comp_mul_deriv (g := fun l => xi (Real.sqrt (rp ^ 2 + l ^ 2))) hder hc (by fun_prop)
  rw [← this]
  apply intervalIntegral.integral_congr
  intro r hr
  simp only [Function.comp, projIntegrand]
  rw [Real.sq_sqrt (hpos r hr).le, show rp ^ 2 + (r ^ 2 - rp ^ 2) = r ^ 2 by ring, Real.sqrt_sq]
  · ring
  · rw [Set.uIcc_of_le h2] at hr; linarith [hr.1]

/-! ## the two forms of the angular correlation -/

/-- a distance-redshift relation that is linear: `d0 + d z` Mpc, so `dx/dz = d h` Mpc/h. -/
def linearCosmo (h d0 d : ℝ) : Cosmo := ⟨h, fun z => d0 + d * z, fun _ => d * h⟩

/-- the density in distance of objects with density `p` in redshift, for the linear relation. -/
noncomputable def perDistance (h d0 d : ℝ) (p : ℝ → ℝ) (x : ℝ) : ℝ := p ((x / h - d0) / d) / (d * h)

theorem linearCosmo_grid (h d0 d zmin zmax : ℝ) (znum i : ℕ) :
    xGrid (linearCosmo h d0 d) false zmin zmax znum i = d * h * zGrid zmin zmax znum i + d0 * h ∧
    xGrid (linearCosmo h d0 d) true zmin zmax znum i = d * h * zGrid zmin zmax znum i + d0 * h := by
  unfold xGrid zGrid linspace linearCosmo
  simp only [if_true, Bool.false_eq_true, if_false]
  constructor <;> split_ifs <;> ring

theorem checkP_linear (h d0 d : ℝ) (hh : h ≠ 0) (hd : d ≠ 0) (p : ℝ → ℝ) (n : ℕ) (z : ℕ → ℝ) :
    ∀ i, (checkP ⟨perDistance h d0 d p, none⟩ n (fun i => d * h * z i + d0 * h)).f (d * h * z i + d0 * h) =
      (checkP ⟨p, none⟩ n z).f (z i) / (d * h) := by
  have harg : ∀ t : ℝ, ((d * h * t + d0 * h) / h - d0) / d = t := by intro t; field_simp; ring
  have hint : integ ⟨perDistance h d0 d p, none⟩ n (fun i => d * h * z i + d0 * h) = integ ⟨p, none⟩ n z := by
    unfold integ
    simp only [perDistance, harg]
    rw [simpsonX_affine n z _ (d * h) (d0 * h) (mul_ne_zero hd hh), ← simpsonX_mul]
    congr 1; funext i; field_simp
  intro i
  unfold checkP
  rw [hint]
  split_ifs
  · simp only [perDistance, harg]
  · simp only [perDistance, harg]; rw [div_right_comm]

/-- C42: giving the distribution of objects in redshift, or the equivalent distribution in distance, yields the
same angular correlation: exactly so if distance is linear in redshift (so that the two grids coincide). -/
theorem C42_redshift_or_distance (h d0 d : ℝ) (hh : h ≠ 0) (hd : d ≠ 0) (A : AngArgs) (xi : ℝ → ℝ)
    (p q : ℝ → ℝ) (theta : ℝ) :
    angular (linearCosmo h d0 d) { A with pOfZ := true } xi ⟨p, none⟩ (some ⟨q, none⟩) theta =
      angular (linearCosmo h d0 d) { A with pOfZ := false } xi ⟨perDistance h d0 d p, none⟩
        (some ⟨perDistance h d0 d q, none⟩) theta := by
  have gx : xGrid (linearCosmo h d0 d) false A.zmin A.zmax A.znum = fun i => d * h * zGrid A.zmin A.zmax A.znum i + d0 * h :=
    funext fun i => (linearCosmo_grid h d0 d _ _ _ i).1
  have gt : xGrid (linearCosmo h d0 d) true A.zmin A.zmax A.znum = fun i => d * h * zGrid A.zmin A.zmax A.znum i + d0 * h :=
    funext fun i => (linearCosmo_grid h d0 d _ _ _ i).2
  have harg : ∀ t : ℝ, ((d * h * t + d0 * h) / h - d0) / d = t := by intro t; field_simp; ring
  have cp := checkP_linear h d0 d hh hd p A.znum (zGrid A.zmin A.zmax A.znum)
  have cq := checkP_linear h d0 d hh hd q A.znum (zGrid A.zmin A.zmax A.znum)
  unfold angular AngArgs.grid
  simp only [if_true, Bool.false_eq_true, if_false]
  rw [gx, gt]
  congr 2
  funext i
  congr 1
  funext j
  congr 1
  change _ / (d * h) ^ 2 = _
  split_ifs with hc
  · simp only [cp i, cq i]; field_simp
  · simp only [perDistance, harg]; field_simp

/-- non-degenerate relations exist. -/
example : (linearCosmo 0.7 100 3000).dist 0.5 = 1600 ∧ (linearCosmo 0.7 100 3000).dxdz 0.5 = 2100 := by
  constructor <;> norm_num [linearCosmo]

/-- C42: with neither normalisation requested, the angular correlation is Limber's double integral by Simpson's
rule: twice the integral over distance and line-of-sight separation of the correlation at
`sqrt(u^2 + theta^2 x^2)`, weighted with the two densities per unit distance. -/
theorem C42_limber (C : Cosmo) (A : AngArgs) (hc : A.check = false) (hz : A.pOfZ = true) (xi p q : ℝ → ℝ)
    (theta : ℝ) :
    angular C A xi ⟨p, none⟩ (some ⟨q, none⟩) theta =
      2 * simpsonX A.znum (fun i => C.dist (linspace A.zmin A.zmax A.znum i) * C.h) (fun i =>
        p (linspace A.zmin A.zmax A.znum i) / C.dxdz (linspace A.zmin A.zmax A.znum i) *
        (q (linspace A.zmin A.zmax A.znum i) / C.dxdz (linspace A.zmin A.zmax A.znum i)) *
        simpsonX A.unum (fun j => (10:ℝ) ^ linspace A.logu_min A.logu_max A.unum j) (fun j =>
          xi (Real.sqrt (((10:ℝ) ^ linspace A.logu_min A.logu_max A.unum j) ^ 2 +
            theta ^ 2 * (C.dist (linspace A.zmin A.zmax A.znum i) * C.h) ^ 2)))) := by
  unfold angular AngArgs.grid xGrid uGrid zGrid
  simp only [hc, hz, if_true, Bool.false_eq_true, if_false]
  congr 2
  funext i
  rw [← simpsonX_mul]
  congr 1
  funext j
  rw [add_comm]
  field_simp

end Halomod.IntegrateCorr
