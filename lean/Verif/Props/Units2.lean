import Verif.Props.Units

/-! # C78: exclusion, averages and spectra in other units of mass and length -/
namespace Halomod.Exclusion

open Finset Halomod.Tools

/-- an exclusion object whose masses are counted in units `μ` of which make an old one and whose lengths in units `l` of which make an old one. -/
noncomputable def unitsExcl (μ l : ℝ) (e : Excl) : Excl :=
  { e with m := fun i => μ * e.m i, density := fun i => e.density i / μ, pint := fun j i => e.pint j i / μ, r := fun i => l * e.r i,
           haloDensity := μ / l ^ 3 * e.haloDensity, xminArg := e.xminArg.map fun v => μ * v }

section
variable {μ l : ℝ} {e : Excl} {ius : Ius}

/-- a log-integral that does not see a shift of its abscissae. -/
def IusShift (ius : Ius) : Prop := ∀ n x (y : ℕ → ℝ) a b d, ius n (fun i => x i + d) y (a + d) (b + d) = ius n x y a b

theorem units_dlnx (hμ : 0 < μ) : (unitsExcl μ l e).dlnx = e.dlnx := by
  unfold Excl.dlnx
  change Real.log (μ * e.m 1 / (μ * e.m 0)) = _
  rw [mul_div_mul_left _ _ hμ.ne']

theorem units_xmin (hμ : 0 < μ) : (unitsExcl μ l e).xmin = e.xmin.map fun v => μ * v := by
  unfold Excl.xmin
  change (match e.xminArg.map (fun v => μ * v) with | some x => if x > μ * e.m 0 then some x else none | none => none) = _
  cases e.xminArg with
  | none => rfl
  | some v =>
    simp only [Option.map_some, gt_iff_lt, mul_lt_mul_iff_right₀ hμ]
    split_ifs <;> rfl

theorem units_raw (hμ : 0 < μ) (ir ik im : ℕ) : (unitsExcl μ l e).raw ir ik im = e.raw ir ik im := by
  unfold Excl.raw
  change (match e.bias with | .d1 b => 1 * (e.pint ik im / μ * b im * (μ * e.m im)) | .d2 b => (e.pint ik im / μ * (μ * e.m im)) * b ir im) = _
  have := hμ.ne'
  cases e.bias <;> dsimp only <;> field_simp

theorem units_dm (hμ : 0 < μ) (i : ℕ) : (unitsExcl μ l e).density i * (unitsExcl μ l e).m i = e.density i * e.m i := by
  change e.density i / μ * (μ * e.m i) = _
  have := hμ.ne'
  field_simp

theorem units_spl (hμ : 0 < μ) (hi : IusShift ius) (hm : ∀ i, 0 < e.m i) (f : ℕ → ℝ) :
    (unitsExcl μ l e).splineIntegrate ius f = e.splineIntegrate ius f := by
  have hl (v : ℝ) (hv : 0 < v) : Real.log (μ * v) = Real.log v + Real.log μ := by
    rw [Real.log_mul hμ.ne' hv.ne', add_comm]
  unfold Excl.splineIntegrate
  rw [units_xmin hμ, units_dlnx hμ]
  cases hx : e.xmin with
  | none => rfl
  | some v =>
    have hv : 0 < v := by
      unfold Excl.xmin at hx
      split at hx
      · split_ifs at hx with h1
        · cases hx; exact (hm 0).trans h1
      · cases hx
    simp only [Option.map_some]
    change ius e.n (fun i => Real.log (μ * e.m i)) f (Real.log (μ * v)) (Real.log (μ * e.m (e.n - 1))) = _
    rw [show (fun i => Real.log (μ * e.m i)) = fun i => Real.log (e.m i) + Real.log μ from funext fun i => hl _ (hm i), hl _ hv, hl _ (hm _), hi]

theorem units_mlim (hl : 0 < l) (ir : ℕ) : (unitsExcl μ l e).mlim ir = μ * e.mlim ir := by
  unfold Excl.mlim
  change 4 * Real.pi * (l * e.r ir / 2) ^ 3 * (μ / l ^ 3 * e.haloDensity) / 3 = _
  have := hl.ne'
  field_simp

theorem units_sphere (hμ : 0 < μ) (hl : 0 < l) (ir im : ℕ) : sphereMask (unitsExcl μ l e) ir im = sphereMask e ir im := by
  unfold sphereMask
  rw [units_mlim hl]
  change (μ * e.m im > μ * e.mlim ir) = _
  rw [gt_iff_lt, mul_lt_mul_iff_right₀ hμ]

theorem units_rHalo (hμ : 0 < μ) (hl : 0 < l) (hm : ∀ i, 0 < e.m i) (hd : 0 < e.haloDensity) (im : ℕ) : (unitsExcl μ l e).rHalo im = l * e.rHalo im := by
  unfold Excl.rHalo
  change (3 * (μ * e.m im) / (4 * Real.pi * (μ / l ^ 3 * e.haloDensity))) ^ ((1.0 : ℝ) / 3.0) = _
  have hx : 0 < 3 * e.m im / (4 * Real.pi * e.haloDensity) := by have := hm im; positivity
  rw [show 3 * (μ * e.m im) / (4 * Real.pi * (μ / l ^ 3 * e.haloDensity)) = l ^ 3 * (3 * e.m im / (4 * Real.pi * e.haloDensity)) by
    have := hμ.ne'; have := hl.ne'; have := hd.ne'; have := Real.pi_ne_zero; field_simp, Real.mul_rpow (by positivity) hx.le]
  congr 1
  rw [← Real.rpow_natCast, ← Real.rpow_mul hl.le]
  norm_num

theorem units_dblMask (hμ : 0 < μ) (hl : 0 < l) (hm : ∀ i, 0 < e.m i) (hd : 0 < e.haloDensity) (ir i j : ℕ) :
    dblSphereMask (unitsExcl μ l e) ir i j = dblSphereMask e ir i j := by
  unfold dblSphereMask
  rw [units_rHalo hμ hl hm hd, units_rHalo hμ hl hm hd]
  change ((l * e.rHalo j + l * e.rHalo i) * 1 > l * e.r ir) = _
  rw [gt_iff_lt, show (l * e.rHalo j + l * e.rHalo i) * 1 = l * ((e.rHalo j + e.rHalo i) * 1) by ring, mul_lt_mul_iff_right₀ hl]

theorem units_prob (hμ : 0 < μ) (hl : 0 < l) (hm : ∀ i, 0 < e.m i) (hd : 0 < e.haloDensity) (ir i j : ℕ) :
    ellProb ((unitsExcl μ l e).r ir) ((unitsExcl μ l e).rHalo i) ((unitsExcl μ l e).rHalo j) = ellProb (e.r ir) (e.rHalo i) (e.rHalo j) := by
  rw [units_rHalo hμ hl hm hd, units_rHalo hμ hl hm hd]
  unfold ellProb
  rw [show (unitsExcl μ l e).r ir * (1 / (l * e.rHalo i + l * e.rHalo j)) = e.r ir * (1 / (e.rHalo i + e.rHalo j)) by
    change l * e.r ir * _ = _
    rw [mul_one_div, mul_one_div, ← mul_add, mul_div_mul_left _ _ hl.ne']]

theorem units_inner (junk : Mat) (hμ : 0 < μ) (hl : 0 < l) (hm : ∀ i, 0 < e.m i) (hd : 0 < e.haloDensity) (ir i j : ℕ) :
    probInner_ junk ((unitsExcl μ l e).r ir) (unitsExcl μ l e).rHalo i j = probInner_ junk (e.r ir) e.rHalo i j := by
  unfold probInner_
  rw [units_rHalo hμ hl hm hd, units_rHalo hμ hl hm hd]
  unfold probInner
  rw [show (unitsExcl μ l e).r ir / (l * e.rHalo i + l * e.rHalo j) = e.r ir / (e.rHalo i + e.rHalo j) by
    change l * e.r ir / _ = _
    rw [← mul_add, mul_div_mul_left _ _ hl.ne']]

theorem units_ellDensity (hμ : 0 < μ) (hl : 0 < l) (hi : IusShift ius) (hm : ∀ i, 0 < e.m i) (hd : 0 < e.haloDensity) (ir : ℕ) :
    ellDensityMod ius (unitsExcl μ l e) ir = ellDensityMod ius e ir := by
  unfold ellDensityMod
  simp only [units_prob hμ hl hm hd, units_dm hμ, units_dlnx hμ, units_xmin hμ, units_spl hμ hi hm]
  cases e.xmin <;> rfl

theorem units_ellDensity_ (junk : Mat) (hμ : 0 < μ) (hl : 0 < l) (hm : ∀ i, 0 < e.m i) (hd : 0 < e.haloDensity) (ir : ℕ) :
    ellDensityMod_ junk (unitsExcl μ l e) ir = ellDensityMod_ junk e ir := by
  unfold ellDensityMod_
  simp only [units_inner junk hμ hl hm hd, units_dm hμ, units_dlnx hμ]
  rfl

theorem units_ngMask (hμ : 0 < μ) (dmod : ℝ) (im : ℕ) : ngMask (unitsExcl μ l e) dmod im = ngMask e dmod im := by
  unfold ngMask
  simp only [units_dm hμ, units_dlnx hμ]

end
end Halomod.Exclusion

namespace Halomod.HaloModel

open Finset Halomod.Tools Halomod.Exclusion Halomod.HOD

/-- C78: whatever the exclusion model, the exclusion integrals and the modified densities do not depend on the units of mass and length. -/
theorem C78_exclusion {μ l : ℝ} {e : Excl} {ius : Ius} (junk : Mat) (cls : ExclCls) (hμ : 0 < μ) (hl : 0 < l) (hi : IusShift ius) (hm : ∀ i, 0 < e.m i)
    (hd : 0 < e.haloDensity) :
    exclIntegrate ius junk cls (unitsExcl μ l e) = exclIntegrate ius junk cls e ∧ exclDensityMod ius junk cls (unitsExcl μ l e) = exclDensityMod ius junk cls e := by
  have hraw (ir ik : ℕ) : (unitsExcl μ l e).raw ir ik = e.raw ir ik := funext fun im => units_raw hμ ir ik im
  constructor
  · funext ir ik
    cases cls <;> dsimp only [exclIntegrate]
    · unfold noExclIntegrate
      simp only [units_spl hμ hi hm, hraw]
      change (match e.bias with | .d1 b => (e.splineIntegrate ius fun im => e.pint ik im / μ * b im * (μ * e.m im)) ^ 2 | .d2 _ => (e.splineIntegrate ius (e.raw ir ik)) ^ 2) = _
      cases e.bias with
      | d1 b =>
        dsimp only
        congr 2
        funext im
        have := hμ.ne'
        field_simp
      | d2 b => rfl
    · unfold sphereIntegrate
      simp only [units_spl hμ hi hm, units_raw hμ, units_sphere hμ hl]
    · unfold dblSphereIntegrate Excl.outerInt
      simp only [units_spl hμ hi hm, units_raw hμ, units_dblMask hμ hl hm hd, units_dlnx hμ]
      rfl
    · unfold dblSphereIntegrate_
      rw [units_dlnx hμ]
      change dblsimps_ e.n _ _ _ = dblsimps_ e.n _ _ _
      congr 1
      funext i j
      rw [units_raw hμ, units_raw hμ]
      by_cases hij : i ≤ j
      · rw [if_pos hij, if_pos hij]
        have hM := units_dblMask (e := e) hμ hl hm hd ir i j
        by_cases hk : dblSphereMask e ir i j
        · rw [if_pos hk, if_pos (cast hM.symm hk)]
        · rw [if_neg hk, if_neg fun h => hk (cast hM h)]
      · rw [if_neg hij, if_neg hij]
    · unfold ellIntegrate Excl.outerInt
      simp only [units_spl hμ hi hm, units_raw hμ, units_prob hμ hl hm hd, units_dlnx hμ]
      rfl
    · unfold ellIntegrate_
      simp only [units_raw hμ, units_inner junk hμ hl hm hd, units_dlnx hμ]
      rfl
    · unfold ngIntegrate
      simp only [units_spl hμ hi hm, units_raw hμ, units_ngMask hμ, units_ellDensity hμ hl hi hm hd]
    · unfold ngIntegrate_
      simp only [units_raw hμ, units_ngMask hμ, units_ellDensity_ junk hμ hl hm hd, units_dlnx hμ]
      rfl
  · funext ir
    cases cls <;> dsimp only [exclDensityMod]
    · rfl
    · unfold sphereDensityMod
      simp only [units_spl hμ hi hm, units_dm hμ, units_sphere hμ hl]
    · unfold dblSphereDensityMod
      simp only [units_spl hμ hi hm, units_dm hμ, units_dblMask hμ hl hm hd]
    · unfold dblSphereDensityMod
      simp only [units_spl hμ hi hm, units_dm hμ, units_dblMask hμ hl hm hd]
    · exact units_ellDensity hμ hl hi hm hd ir
    · exact units_ellDensity_ junk hμ hl hm hd ir
    · exact units_ellDensity hμ hl hi hm hd ir
    · exact units_ellDensity_ junk hμ hl hm hd ir

end Halomod.HaloModel
