import Verif.Props.Exclusion

/-!
# C16, C17, C19, C22 continued: the density modifications of the exclusion classes

Values of `density_mod` for every class, stated with the kept haloes/pairs described by radii, and
bounds on them.
-/
namespace Halomod.Exclusion

open Finset Halomod.Spec

open Classical in
/-- C16: `Sphere.density_mod` integrates `m · density` over the haloes whose radius is at most half the
separation, and over nothing else. -/
theorem C16_sphere_density (ius : Ius) (hi : IusOk ius) (e : Excl) (ir : ℕ) (hn : 0 < e.n)
    (hd : 0 < e.haloDensity) (hr : 0 ≤ e.r ir) (hm : ∀ i < e.n, 0 < e.m i) :
    sphereDensityMod ius e ir =
      e.splineIntegrate ius (fun i => if e.rHalo i ≤ e.r ir / 2 then e.m i * e.density i else 0) := by
  unfold sphereDensityMod
  apply splineIntegrate_congr hi e hn
  intro i hin
  have h := C16_sphere_mask e ir i hd hr _ (C16_radius e i (hm i hin) hd).1
  unfold masked
  by_cases hc : e.rHalo i ≤ e.r ir / 2
  · rw [if_neg (h.mpr hc), if_pos hc]; ring
  · rw [if_pos (not_not.mp (mt h.mp hc)), if_neg hc]

open Classical in
/-- C16: `DblSphere.density_mod` is the square root of the double integral of the product of `m · density`
over the pairs whose radii add up to at most the separation. -/
theorem C16_dblsphere_density (ius : Ius) (hi : IusOk ius) (e : Excl) (ir : ℕ) (hn : 0 < e.n) :
    dblSphereDensityMod ius e ir =
      Real.sqrt (e.splineIntegrate ius (fun i => e.splineIntegrate ius (fun j =>
        if e.rHalo i + e.rHalo j ≤ e.r ir then (e.m i * e.density i) * (e.m j * e.density j) else 0))) := by
  unfold dblSphereDensityMod
  congr 1
  apply splineIntegrate_congr hi e hn
  intro i _
  apply splineIntegrate_congr hi e hn
  intro j _
  have h := (C16_dblsphere_mask e ir i j).1
  unfold masked
  by_cases hc : e.rHalo i + e.rHalo j ≤ e.r ir
  · rw [if_neg (h.mpr hc), if_pos hc]; ring
  · rw [if_pos (not_not.mp (mt h.mp hc)), if_neg hc]

/-- C17: `DblEllipsoid.density_mod` is the square root of the double integral of the product of
`m · density` weighted by the documented probability that two ellipsoids of those radii do not overlap
at that separation — by the trapezoid rule without a minimum mass, by splines with one. -/
theorem C17_ellipsoid_density (ius : Ius) (e : Excl) (ir : ℕ) (hn : 2 ≤ e.n) :
    (e.xmin = none → ellDensityMod ius e ir = Real.sqrt (trapzDx e.n e.dlnx fun i => trapzDx e.n e.dlnx
      fun j => ellipsoidP (e.r ir / (e.rHalo i + e.rHalo j)) *
        ((e.m i * e.density i) * (e.m j * e.density j)))) ∧
    (∀ x, e.xmin = some x → ellDensityMod ius e ir = Real.sqrt (e.splineIntegrate ius fun i =>
      e.splineIntegrate ius fun j => ellipsoidP (e.r ir / (e.rHalo i + e.rHalo j)) *
        ((e.m i * e.density i) * (e.m j * e.density j)))) := by
  have key : ∀ i j, ellProb (e.r ir) (e.rHalo i) (e.rHalo j)
      * (1 * ((e.density i * e.m i) * (e.density j * e.m j)))
      = ellipsoidP (e.r ir / (e.rHalo i + e.rHalo j)) * ((e.m i * e.density i) * (e.m j * e.density j)) := by
    intro i j; rw [C17_prob_is_documented]; ring
  constructor
  · intro h
    unfold ellDensityMod; rw [h]; simp only [key]
    rw [(C19_dbltrapz e.n hn _ e.dlnx 0).2.1]
  · intro x h
    unfold ellDensityMod; rw [h]; simp only [key]

/-- C19: passing `dy = 0` to `dbltrapz` is the same as not passing it. -/
theorem C19_dbltrapz_dy_zero (n : ℕ) (hn : 2 ≤ n) (X : Mat) (dx : ℝ) :
    dbltrapz n X dx (some 0) = trapzDx n dx (fun i => trapzDx n dx (fun j => X i j)) := by
  rw [← (C19_dbltrapz n hn X dx 0).2.1]
  simp [dbltrapz]

/-- C22: `NgMatched` keeps exactly the mass bins up to which the cumulated number density does not
exceed the modified density by more than one part in ten thousand. -/
theorem C22_ng_threshold (e : Excl) (dmod : ℝ) (im : ℕ) :
    ¬ ngMask e dmod im ↔
      (∑ j ∈ range im, e.dlnx * (e.m j * e.density j + e.m (j + 1) * e.density (j + 1)) / 2)
        ≤ dmod + dmod / 10000 := by
  unfold ngMask cumtrapz0
  have h : ∀ j, e.dlnx * (e.density j * e.m j + e.density (j + 1) * e.m (j + 1)) / 2
      = e.dlnx * (e.m j * e.density j + e.m (j + 1) * e.density (j + 1)) / 2 := by intro j; ring
  simp only [h, one_mul, mul_one, gt_iff_lt, not_lt]
  constructor <;> intro h <;> norm_num at h ⊢ <;> linarith

/-- C22: for a non-negative density and no minimum mass, the modified densities of every class are
non-negative, `Sphere`'s grows with separation and never exceeds the unmodified density. -/
theorem C22_density_bounds (ius : Ius) (junk : Mat) (e : Excl) (ir ir' : ℕ) (hn : 0 < e.n)
    (hx : e.xmin = none) (hdl : 0 ≤ e.dlnx) (hd : 0 < e.haloDensity) (hr : 0 ≤ e.r ir)
    (hle : e.r ir ≤ e.r ir') (hnn : ∀ i < e.n, 0 ≤ e.density i * e.m i) :
    0 ≤ sphereDensityMod ius e ir ∧ sphereDensityMod ius e ir ≤ sphereDensityMod ius e ir' ∧
    sphereDensityMod ius e ir ≤ simpsonDx e.n e.dlnx (fun i => e.density i * e.m i) ∧
    0 ≤ dblSphereDensityMod ius e ir ∧ 0 ≤ ellDensityMod ius e ir ∧ 0 ≤ ellDensityMod_ junk e ir := by
  refine ⟨?_, ?_, ?_, Real.sqrt_nonneg _, ?_, Real.sqrt_nonneg _⟩
  · unfold sphereDensityMod Excl.splineIntegrate; rw [hx]; simp only
    apply simpsonDx_nonneg hn hdl
    intro i hi; unfold masked; split_ifs
    · exact le_rfl
    · rw [one_mul]; exact hnn i hi
  · unfold sphereDensityMod Excl.splineIntegrate; rw [hx]; simp only
    apply simpsonDx_mono hn hdl
    intro i hi; unfold masked
    by_cases h1 : sphereMask e ir i
    · rw [if_pos h1]; split_ifs
      · exact le_rfl
      · rw [one_mul]; exact hnn i hi
    · rw [if_neg h1, if_neg ((C16_monotone e ir ir' hd hr hle).1 i h1)]
  · unfold sphereDensityMod Excl.splineIntegrate; rw [hx]; simp only
    apply simpsonDx_mono hn hdl
    intro i hi; unfold masked; split_ifs
    · exact hnn i hi
    · rw [one_mul]
  · unfold ellDensityMod; rw [hx]; exact Real.sqrt_nonneg _

theorem demo_conditions : 2 ≤ demo.n ∧ demo.xmin = none ∧ 0 ≤ demo.dlnx ∧ 0 < demo.haloDensity ∧
    (∀ i < demo.n, 0 < demo.m i) ∧ (∀ i < demo.n, 0 ≤ demo.density i * demo.m i) ∧
    0 ≤ demo.r 0 ∧ demo.r 0 ≤ demo.r 1 := by
  refine ⟨by norm_num [demo], rfl, ?_, by norm_num [demo], fun i _ => Real.exp_pos _, fun i _ => ?_,
    by norm_num [demo], by norm_num [demo]⟩
  · simp only [Excl.dlnx, demo]; rw [← Real.exp_sub]; simp
  · simp only [demo]; have := Real.exp_pos (i:ℝ); positivity

/-- a minimum mass inside the grid is kept -/
example : ({ demo with xminArg := some (Real.exp 1) } : Excl).xmin = some (Real.exp 1) := by
  unfold Excl.xmin
  exact if_pos (by simp [demo])

end Halomod.Exclusion
