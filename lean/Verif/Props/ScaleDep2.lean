import Verif.Props.ScaleDep
import Verif.Props.Exclusion2

/-! # C54: the modified density of every exclusion class -/
namespace Halomod.HaloModel

open Halomod.Exclusion

open Classical in
/-- weight of a pair of haloes of radii `r1`, `r2` at separation `R` according to the documentation of each class. -/
noncomputable def pairWeight (cls : ExclCls) (R r1 r2 : ℝ) : ℝ :=
  match cls with
  | .noExclusion => 1
  | .sphere => if r1 ≤ R / 2 ∧ r2 ≤ R / 2 then 1 else 0
  | .dblSphere | .dblSphere_ => if r1 + r2 ≤ R then 1 else 0
  | .dblEllipsoid | .dblEllipsoid_ | .ngMatched | .ngMatched_ => Spec.ellipsoidP (R / (r1 + r2))

/-- the quadrature rule each class uses for its density without a minimum mass: Simpson for the spherical ones,
trapezoid for the ellipsoidal ones. -/
noncomputable def densRule (cls : ExclCls) (n : ℕ) (dx : ℝ) (f : ℕ → ℝ) : ℝ :=
  match cls with
  | .noExclusion | .sphere | .dblSphere | .dblSphere_ => simpsonDx n dx f
  | _ => trapzDx n dx f

/-- C54: for every exclusion class and without a minimum mass, the density entering the 2-halo term at a separation is
the square root of the double integral, over pairs of haloes, of the product of their densities weighted by the
documented weight of the pair (for `Sphere` up to the sign of its single integral); without exclusion the density is
not modified. -/
theorem C54_density (ius : Ius) (hi : IusOk ius) (junk : Mat) (cls : ExclCls) (e : Excl) (ir : ℕ) (hn : 2 ≤ e.n)
    (hx : e.xmin = none) (hd : 0 < e.haloDensity) (hr : 0 ≤ e.r ir) (hm : ∀ i < e.n, 0 < e.m i) :
    (cls = .noExclusion → exclDensityMod ius junk cls e ir = 1) ∧
    (cls ≠ .noExclusion → |exclDensityMod ius junk cls e ir| =
      Real.sqrt (densRule cls e.n e.dlnx fun i => densRule cls e.n e.dlnx fun j =>
        pairWeight cls (e.r ir) (e.rHalo i) (e.rHalo j) * ((e.m i * e.density i) * (e.m j * e.density j)))) := by
  classical
  have hell := (C17_ellipsoid_density ius e ir hn).1 hx
  have hell' := (C20_ellipsoid_density_ng ius junk e ir 0 hn hx).1
  have hsi : ∀ f, e.splineIntegrate ius f = simpsonDx e.n e.dlnx f := by
    intro f; unfold Excl.splineIntegrate; rw [hx]
  have hdbl := C16_dblsphere_density ius hi e ir (by omega)
  have hsph := C16_sphere_density ius hi e ir (by omega) hd hr hm
  simp only [hsi] at hdbl hsph
  refine ⟨fun h => by subst h; rfl, fun h => ?_⟩
  have hdblw : ∀ i j : ℕ, (if e.rHalo i + e.rHalo j ≤ e.r ir then (1:ℝ) else 0) * ((e.m i * e.density i) * (e.m j * e.density j)) =
      if e.rHalo i + e.rHalo j ≤ e.r ir then (e.m i * e.density i) * (e.m j * e.density j) else 0 := by
    intro i j; split_ifs <;> simp
  cases cls with
  | noExclusion => exact absurd rfl h
  | sphere =>
    change |sphereDensityMod ius e ir| = _
    rw [hsph]
    simp only [pairWeight, densRule]
    set g : ℕ → ℝ := fun i => if e.rHalo i ≤ e.r ir / 2 then e.m i * e.density i else 0 with hg
    have h1 : ∀ i j : ℕ, (if e.rHalo i ≤ e.r ir / 2 ∧ e.rHalo j ≤ e.r ir / 2 then (1:ℝ) else 0) *
        ((e.m i * e.density i) * (e.m j * e.density j)) = g i * g j := by
      intro i j
      simp only [hg]
      by_cases a : e.rHalo i ≤ e.r ir / 2 <;> by_cases b : e.rHalo j ≤ e.r ir / 2 <;> simp [a, b]
    have h2 : (fun i => simpsonDx e.n e.dlnx fun j => (if e.rHalo i ≤ e.r ir / 2 ∧ e.rHalo j ≤ e.r ir / 2 then (1:ℝ) else 0) *
        ((e.m i * e.density i) * (e.m j * e.density j))) = fun i => simpsonDx e.n e.dlnx g * g i := by
      funext i
      simp only [h1]
      rw [simpsonDx_mul, mul_comm]
    rw [h2, simpsonDx_mul, Real.sqrt_mul_self_eq_abs]
  | dblSphere =>
    change |dblSphereDensityMod ius e ir| = _
    rw [hdbl, abs_of_nonneg (Real.sqrt_nonneg _)]
    simp only [pairWeight, densRule, hdblw]
  | dblSphere_ =>
    change |dblSphereDensityMod ius e ir| = _
    rw [hdbl, abs_of_nonneg (Real.sqrt_nonneg _)]
    simp only [pairWeight, densRule, hdblw]
  | dblEllipsoid =>
    change |ellDensityMod ius e ir| = _
    rw [hell, abs_of_nonneg (Real.sqrt_nonneg _)]; rfl
  | ngMatched =>
    change |ellDensityMod ius e ir| = _
    rw [hell, abs_of_nonneg (Real.sqrt_nonneg _)]; rfl
  | dblEllipsoid_ =>
    change |ellDensityMod_ junk e ir| = _
    rw [hell', hell, abs_of_nonneg (Real.sqrt_nonneg _)]; rfl
  | ngMatched_ =>
    change |ellDensityMod_ junk e ir| = _
    rw [hell', hell, abs_of_nonneg (Real.sqrt_nonneg _)]; rfl

/-- the hypotheses hold for an exclusion object with four masses -/
example : 2 ≤ demo.n ∧ demo.xmin = none ∧ 0 < demo.haloDensity ∧ 0 ≤ demo.r 2 ∧ ∀ i < demo.n, 0 < demo.m i := by
  refine ⟨by simp [demo], by simp [demo, Excl.xmin], by simp [demo], by norm_num [demo], fun i _ => by simp [demo, Real.exp_pos]⟩

end Halomod.HaloModel
