import Verif.Lemmas.Exclusion
import Verif.Spec.Exclusion
import Mathlib.Analysis.SpecialFunctions.Pow.NNReal
import Mathlib.Tactic.NormNum

/-!
# Properties C16–C22 of `halo_exclusion.py`
-/
namespace Halomod.Exclusion

open Finset Halomod.Spec

/-- Assumption on `InterpolatedUnivariateSpline(...).integral`: linear in the data and dependent only
on the first `n` samples. -/
structure IusOk (ius : Ius) : Prop where
  smul : ∀ n x f a b (c : ℝ), ius n x (fun i => c * f i) a b = c * ius n x f a b
  local' : ∀ n x f g a b, (∀ i < n, f i = g i) → ius n x f a b = ius n x g a b

/-- the assumption is satisfiable by a rule that is exact for constants -/
example : ∃ ius : Ius, IusOk ius ∧ ∀ n x (c a b : ℝ), 0 < n → ius n x (fun _ => c) a b = (b - a) * c := by
  refine ⟨fun n _ y a b => if 0 < n then (b - a) * y 0 else 0, ⟨?_, ?_⟩, ?_⟩
  · intro n x f a b c; split_ifs <;> ring
  · intro n x f g a b h; split_ifs with hn
    · rw [h 0 hn]
    · rfl
  · intro n x c a b hn; simp [hn]

theorem splineIntegrate_congr {ius : Ius} (h : IusOk ius) (e : Excl) (hn : 0 < e.n) {f g : ℕ → ℝ}
    (hfg : ∀ i < e.n, f i = g i) : e.splineIntegrate ius f = e.splineIntegrate ius g := by
  unfold Excl.splineIntegrate
  split
  · exact simpsonDx_congr hn hfg
  · exact h.local' _ _ _ _ _ _ hfg

theorem splineIntegrate_smul {ius : Ius} (h : IusOk ius) (e : Excl) (c : ℝ) (f : ℕ → ℝ) :
    e.splineIntegrate ius (fun i => c * f i) = c * e.splineIntegrate ius f := by
  unfold Excl.splineIntegrate
  split
  · exact simpsonDx_mul _ _ _ _
  · exact h.smul _ _ _ _ _ _

/-! ## C16 -/

/-- C16: `r_halo` is the radius of a sphere holding the halo's mass at the halo density. -/
theorem C16_radius (e : Excl) (im : ℕ) (hm : 0 < e.m im) (hd : 0 < e.haloDensity) :
    IsHaloRadius (e.m im) e.haloDensity (e.rHalo im) ∧ 0 < e.rHalo im := by
  have hpi := Real.pi_pos
  have hpos : 0 < 3 * e.m im / (4 * Real.pi * e.haloDensity) := by positivity
  have hr : 0 < e.rHalo im := by unfold Excl.rHalo; positivity
  refine ⟨⟨hr.le, ?_⟩, hr⟩
  have h3 : e.rHalo im ^ 3 = 3 * e.m im / (4 * Real.pi * e.haloDensity) := by
    unfold Excl.rHalo
    rw [← Real.rpow_natCast, ← Real.rpow_mul hpos.le]
    norm_num
  rw [h3]; field_simp

theorem cube_lt {a b : ℝ} (ha : 0 ≤ a) (h : a < b) : a ^ 3 < b ^ 3 := pow_lt_pow_left₀ h ha (by norm_num)

/-- C16: `Sphere` keeps a halo at separation `r` iff twice its radius does not exceed `r`
(ties kept). -/
theorem C16_sphere_mask (e : Excl) (ir im : ℕ) (hd : 0 < e.haloDensity)
    (hr : 0 ≤ e.r ir) (R : ℝ) (hR : IsHaloRadius (e.m im) e.haloDensity R) :
    ¬ sphereMask e ir im ↔ R ≤ e.r ir / 2 := by
  have hpi := Real.pi_pos
  have hk : 0 < 4 / 3 * Real.pi * e.haloDensity := by positivity
  unfold sphereMask Excl.mlim
  rw [← hR.2]
  have e1 : 4 / 3 * Real.pi * R ^ 3 * e.haloDensity = 4 / 3 * Real.pi * e.haloDensity * R ^ 3 := by ring
  have e2 : 4 * Real.pi * (e.r ir / 2) ^ 3 * e.haloDensity / 3
      = 4 / 3 * Real.pi * e.haloDensity * (e.r ir / 2) ^ 3 := by ring
  rw [e1, e2, gt_iff_lt, mul_lt_mul_iff_right₀ hk, not_lt]
  constructor
  · intro h
    by_contra hc
    exact absurd h (not_le.mpr (cube_lt (by positivity) (not_le.mp hc)))
  · intro h; exact pow_le_pow_left₀ hR.1 h 3

/-- C16: `DblSphere` keeps a pair iff the sum of the radii does not exceed the separation; the rule is
symmetric in the pair. -/
theorem C16_dblsphere_mask (e : Excl) (ir i j : ℕ) :
    (¬ dblSphereMask e ir i j ↔ e.rHalo i + e.rHalo j ≤ e.r ir) ∧
    (dblSphereMask e ir i j ↔ dblSphereMask e ir j i) := by
  unfold dblSphereMask
  constructor
  · rw [gt_iff_lt, not_lt, mul_one, add_comm]
  · rw [mul_one, mul_one, add_comm]

/-- C16: the kept sets grow with the separation. -/
theorem C16_monotone (e : Excl) (ir ir' : ℕ) (hd : 0 < e.haloDensity) (hr : 0 ≤ e.r ir)
    (hle : e.r ir ≤ e.r ir') :
    (∀ im, ¬ sphereMask e ir im → ¬ sphereMask e ir' im) ∧
    (∀ i j, ¬ dblSphereMask e ir i j → ¬ dblSphereMask e ir' i j) := by
  have hpi := Real.pi_pos
  constructor
  · intro im h
    unfold sphereMask Excl.mlim at *
    rw [gt_iff_lt, not_lt] at *
    refine h.trans ?_
    have : (e.r ir / 2) ^ 3 ≤ (e.r ir' / 2) ^ 3 := pow_le_pow_left₀ (by positivity) (by linarith) 3
    gcongr
  · intro i j h
    rw [(C16_dblsphere_mask e ir i j).1] at h
    rw [(C16_dblsphere_mask e ir' i j).1]
    linarith

/-- C16: a pair kept by `Sphere` (each halo no larger than half the separation) is kept by
`DblSphere`. -/
theorem C16_sphere_stricter (e : Excl) (ir i j : ℕ) (hi : 0 < e.m i) (hj : 0 < e.m j)
    (hd : 0 < e.haloDensity) (hr : 0 ≤ e.r ir) (h1 : ¬ sphereMask e ir i) (h2 : ¬ sphereMask e ir j) :
    ¬ dblSphereMask e ir i j := by
  rw [C16_sphere_mask e ir i hd hr _ (C16_radius e i hi hd).1] at h1
  rw [C16_sphere_mask e ir j hd hr _ (C16_radius e j hj hd).1] at h2
  rw [(C16_dblsphere_mask e ir i j).1]
  linarith

/-- a concrete grid used to show that hypotheses are met: four masses `e^0..e^3`, separations
`1, 2, 3, …`. -/
noncomputable def demo : Excl :=
  { n := 4, m := fun i => Real.exp i, density := fun _ => 1, pint := fun _ _ => 1,
    bias := .d1 fun _ => 1, r := fun i => i + 1, haloDensity := 1, xminArg := none }

example : 0 < demo.m 2 ∧ 0 < demo.haloDensity ∧ 0 ≤ demo.r 0 ∧ demo.r 0 ≤ demo.r 1 := by
  refine ⟨Real.exp_pos _, by norm_num [demo], by norm_num [demo], by norm_num [demo]⟩

/-! ## C17 -/

theorem smooth_range {y : ℝ} (h0 : 0 ≤ y) (h1 : y ≤ 1) : 0 ≤ 3 * y ^ 2 - 2 * y ^ 3 ∧
    3 * y ^ 2 - 2 * y ^ 3 ≤ 1 := by
  constructor
  · nlinarith [mul_nonneg (sq_nonneg y) (sub_nonneg.mpr h1), sq_nonneg y]
  · nlinarith [mul_nonneg (sq_nonneg (1 - y)) h0, sq_nonneg (1 - y)]

/-- C17: `DblEllipsoid.prob` is the documented probability, for every pair of (positive) radii. -/
theorem C17_prob_is_documented (r r1 r2 : ℝ) :
    ellProb r r1 r2 = ellipsoidP (r / (r1 + r2)) := by
  unfold ellProb ellipsoidP
  set x := r / (r1 + r2) with hx
  have e1 : r * (1 / (r1 + r2)) = x := by rw [hx]; ring
  rw [e1]
  by_cases h0 : x ≤ 0.8
  · rw [if_pos h0]
    have : (x - 0.8) / 0.29 ≤ 0 := div_nonpos_of_nonpos_of_nonneg (by linarith) (by norm_num)
    simp [max_eq_right this]
  · rw [if_neg h0]
    have hpos : 0 ≤ (x - 0.8) / 0.29 := div_nonneg (by linarith) (by norm_num)
    by_cases h1 : 1.09 ≤ x
    · rw [if_pos h1]
      have : 1 ≤ (x - 0.8) / 0.29 := by rw [le_div_iff₀ (by norm_num)]; linarith
      simp only [max_eq_left hpos, min_eq_right this]; norm_num
    · rw [if_neg h1]
      have : (x - 0.8) / 0.29 ≤ 1 := by rw [div_le_iff₀ (by norm_num)]; linarith
      simp only [max_eq_left hpos, min_eq_left this]

/-- C17: range, symmetry, monotonicity in separation, and the two plateaus. -/
theorem C17_prob (r1 r2 : ℝ) (h : 0 < r1 + r2) :
    (∀ r, 0 ≤ ellProb r r1 r2 ∧ ellProb r r1 r2 ≤ 1) ∧
    (∀ r, ellProb r r1 r2 = ellProb r r2 r1) ∧
    Monotone (fun r => ellProb r r1 r2) ∧
    (∀ r, r ≤ 0.8 * (r1 + r2) → ellProb r r1 r2 = 0) ∧
    (∀ r, 1.09 * (r1 + r2) ≤ r → ellProb r r1 r2 = 1) := by
  refine ⟨fun r => ?_, fun r => ?_, ?_, fun r hr => ?_, fun r hr => ?_⟩
  · unfold ellProb
    exact smooth_range (le_min (le_max_right _ _) zero_le_one) (min_le_right _ _)
  · rw [C17_prob_is_documented, C17_prob_is_documented, add_comm]
  · intro a b hab
    unfold ellProb
    simp only
    set y := min (max ((a * (1 / (r1 + r2)) - 0.8) / 0.29) 0) 1
    set z := min (max ((b * (1 / (r1 + r2)) - 0.8) / 0.29) 0) 1
    have hyz : y ≤ z := by
      apply min_le_min_right; apply max_le_max_right
      have : a * (1 / (r1 + r2)) ≤ b * (1 / (r1 + r2)) := by gcongr
      exact div_le_div_of_nonneg_right (by linarith) (by norm_num)
    have y0 : 0 ≤ y := le_min (le_max_right _ _) zero_le_one
    have z1 : z ≤ 1 := min_le_right _ _
    nlinarith [mul_nonneg (sub_nonneg.mpr hyz) (mul_nonneg y0 (sub_nonneg.mpr z1)),
      mul_nonneg (sub_nonneg.mpr hyz) (mul_nonneg (y0.trans hyz) (sub_nonneg.mpr z1)),
      mul_nonneg (sub_nonneg.mpr hyz) (mul_nonneg y0 (sub_nonneg.mpr (hyz.trans z1))),
      mul_nonneg (sub_nonneg.mpr hyz) (mul_nonneg (sub_nonneg.mpr hyz) (sub_nonneg.mpr z1)),
      mul_nonneg (sub_nonneg.mpr hyz) (sq_nonneg (z - y))]
  · rw [C17_prob_is_documented, ellipsoidP, if_pos]
    rw [div_le_iff₀ h]; exact hr
  · rw [C17_prob_is_documented, ellipsoidP]
    have : 1.09 ≤ r / (r1 + r2) := by rw [le_div_iff₀ h]; exact hr
    rw [if_neg (by intro h'; linarith), if_pos this]

example : (0:ℝ) < 1 + 2 := by norm_num

/-- C17: the compiled routine computes the same probability for every pair it writes, and its results
never depend on the memory it leaves uninitialised. -/
theorem C17_fast_prob (junk junk' : Mat) (e : Excl) (ir ik : ℕ) :
    (∀ i j, i ≤ j → probInner_ junk (e.r ir) e.rHalo i j = ellProb (e.r ir) (e.rHalo i) (e.rHalo j)) ∧
    ellIntegrate_ junk e ir ik = ellIntegrate_ junk' e ir ik ∧
    ellDensityMod_ junk e ir = ellDensityMod_ junk' e ir ∧
    ngIntegrate_ junk e ir ik = ngIntegrate_ junk' e ir ik := by
  have hdm : ellDensityMod_ junk e ir = ellDensityMod_ junk' e ir := by
    unfold ellDensityMod_ dbltrapz_
    rw [triSum_congr]; intro i _ j _ hij; simp [probInner_, hij]
  refine ⟨?_, ?_, hdm, ?_⟩
  · intro i j hij
    rw [C17_prob_is_documented]
    simp only [probInner_, hij, if_true, probInner, ellipsoidP]
    set x := e.r ir / (e.rHalo i + e.rHalo j)
    have h1 : (x - 0.8) / 0.29 ≤ 0 ↔ x ≤ 0.8 := by
      rw [div_le_iff₀ (by norm_num)]; constructor <;> intro h <;> linarith
    have h2 : (x - 0.8) / 0.29 ≥ 1 ↔ 1.09 ≤ x := by
      rw [ge_iff_le, le_div_iff₀ (by norm_num)]; constructor <;> intro h <;> linarith
    simp only [h1, h2]
  · unfold ellIntegrate_ dbltrapz_
    rw [triSum_congr]; intro i _ j _ hij; simp [probInner_, hij]
  · unfold ngIntegrate_; rw [hdm]

/-! ## C19 -/

/-- C19: `dblsimps_` on a symmetric integrand is the iterated one-dimensional rule — Simpson, with a
trapezoid on the last interval if the number of samples is even — for every size but 1 and 2. -/
theorem C19_dblsimps (n : ℕ) (hn : 3 ≤ n) (X : Mat) (dx dy : ℝ)
    (hX : ∀ i < n, ∀ j < n, X i j = X j i) :
    dblsimps_ n X dx dy = simpsonTrap n dx (fun i => simpsonTrap n dy (fun j => X i j)) := by
  have hw : ∀ (y : ℕ → ℝ) (d : ℝ), d / 3 * ∑ i ∈ range n, axisW n i * y i = simpsonTrap n d y := by
    intro y d
    unfold simpsonTrap
    by_cases h : n % 2 = 1
    · obtain ⟨b, rfl⟩ : ∃ b, n = 2 * (b + 1) + 1 := ⟨(n - 3) / 2, by omega⟩
      rw [if_pos h, axisW_odd_sum]; congr 1; omega
    · obtain ⟨b, rfl⟩ : ∃ b, n = 2 * b + 4 := ⟨(n - 4) / 2, by omega⟩
      rw [if_neg h, axisW_even_sum]
      rw [show (2 * b + 4 - 2) / 2 = b + 1 by omega, show 2 * b + 4 - 2 = 2 * b + 2 by omega,
        show 2 * b + 4 - 1 = 2 * b + 3 by omega]
  unfold dblsimps_
  rw [triSum_symm n _ X (axisW n) (fun i hi j hj => makeW_eq n i j hi hj) hX, ← hw]
  simp only [← hw]
  rw [mul_sum, mul_sum, sum_div]
  apply sum_congr rfl; intro i _
  rw [mul_sum, mul_sum, sum_div, mul_sum, mul_sum]
  apply sum_congr rfl; intro j _
  ring

/-- C19: for an odd number of samples this is scipy's Simpson rule applied twice. -/
theorem C19_dblsimps_odd (n : ℕ) (hn : 3 ≤ n) (hodd : n % 2 = 1) (X : Mat) (dx dy : ℝ)
    (hX : ∀ i < n, ∀ j < n, X i j = X j i) :
    dblsimps_ n X dx dy = simpsonDx n dx (fun i => simpsonDx n dy (fun j => X i j)) := by
  rw [C19_dblsimps n hn X dx dy hX]
  have : ∀ d (y : ℕ → ℝ), simpsonTrap n d y = simpsonDx n d y := by
    intro d y
    unfold simpsonTrap simpsonDx
    rw [if_pos hodd, if_neg (by omega)]
  simp only [this]

/-- C19: `dblsimps_` reads only the upper triangle, so the other half may hold anything. -/
theorem C19_upper_only (n : ℕ) (X Y : Mat) (dx dy : ℝ)
    (h : ∀ i < n, ∀ j < n, i ≤ j → X i j = Y i j) :
    dblsimps_ n X dx dy = dblsimps_ n Y dx dy ∧ dbltrapz_ n X dx dy = dbltrapz_ n Y dx dy := by
  unfold dblsimps_ dbltrapz_
  rw [triSum_congr n _ X Y h, triSum_congr n _ X Y h]
  exact ⟨rfl, rfl⟩

theorem dbltrapz_double_sum (n : ℕ) (hn : 2 ≤ n) (X : Mat) (dx dy : ℝ) :
    dx * dy * (∑ i ∈ range n, ∑ j ∈ range n, X i j * trapzW n i * trapzW n j) / 4
      = trapzDx n dx (fun i => trapzDx n dy (fun j => X i j)) := by
  rw [← trapzW_sum n hn]
  simp only [← trapzW_sum n hn]
  rw [mul_sum, mul_sum, sum_div]
  apply sum_congr rfl; intro i _
  rw [mul_sum, mul_sum, sum_div, mul_sum, mul_sum]
  apply sum_congr rfl; intro j _
  ring

/-- C19: `dbltrapz` (any integrand, `dy` given and non-zero) and `dbltrapz_` (symmetric integrand) are
the iterated trapezoid rule, for every size ≥ 2. -/
theorem C19_dbltrapz (n : ℕ) (hn : 2 ≤ n) (X : Mat) (dx dy : ℝ) :
    (dy ≠ 0 → dbltrapz n X dx (some dy) = trapzDx n dx (fun i => trapzDx n dy (fun j => X i j))) ∧
    dbltrapz n X dx none = trapzDx n dx (fun i => trapzDx n dx (fun j => X i j)) ∧
    ((∀ i < n, ∀ j < n, X i j = X j i) →
      dbltrapz_ n X dx dy = trapzDx n dx (fun i => trapzDx n dy (fun j => X i j))) := by
  refine ⟨fun h => ?_, ?_, fun hX => ?_⟩
  · unfold dbltrapz; simp only [h, if_false]; exact dbltrapz_double_sum n hn X dx dy
  · unfold dbltrapz; exact dbltrapz_double_sum n hn X dx dx
  · unfold dbltrapz_
    rw [triSum_symm n _ X (trapzW n) (fun i hi j hj => makeH_eq n i j hi hj) hX,
      ← dbltrapz_double_sum n hn]
    congr 2
    apply sum_congr rfl; intro i _; apply sum_congr rfl; intro j _; ring

example : ∃ X : Mat, (∀ i < 5, ∀ j < 5, X i j = X j i) ∧ X 0 1 ≠ X 1 2 :=
  ⟨fun i j => (i:ℝ) * j, fun i _ j _ => by ring, by norm_num⟩

/-- C19 finding: the non-symmetric weight helper `makeW` (unused by the classes) is not a quadrature
for even sizes: its weights add up to `3n - 4` instead of `3(n-1)`, so a constant is mis-integrated. -/
theorem C19_makeW_even (b : ℕ) :
    ∑ i ∈ range (2 * b + 4), makeWaxis (2 * b + 4) i = 3 * ((2 * b + 4 : ℕ) : ℝ) - 4 := by
  have h1 : ∀ k, k ≤ b + 1 → ∑ i ∈ range (2 * k + 1), makeWaxis (2 * b + 4) i = 6 * k + 1 := by
    intro k
    induction k with
    | zero => intro _; simp [makeWaxis]
    | succ k ih =>
      intro hk
      rw [show 2 * (k + 1) + 1 = 2 * k + 1 + 1 + 1 by ring, sum_range_succ, sum_range_succ,
        ih (by omega)]
      have a1 : makeWaxis (2 * b + 4) (2 * k + 1) = 4 := by
        unfold makeWaxis; rw [if_pos (by omega), if_neg (by omega)]; ring
      have a2 : makeWaxis (2 * b + 4) (2 * k + 1 + 1) = 2 := by
        unfold makeWaxis; rw [if_neg (by omega), if_pos (by omega)]; ring
      rw [a1, a2]; push_cast; ring
  have h2 := h1 (b + 1) le_rfl
  rw [show 2 * b + 4 = (2 * (b + 1) + 1) + 1 by ring] at h2 ⊢
  rw [sum_range_succ, h2]
  have : makeWaxis (2 * (b + 1) + 1 + 1) (2 * (b + 1) + 1) = 1 := by
    unfold makeWaxis; rw [if_neg (by omega), if_neg (by omega)]; ring
  rw [this]; push_cast; ring

/-! ## C18 -/

theorem noExcl_eq (ius : Ius) (e : Excl) (ir ik : ℕ) :
    noExclIntegrate ius e ir ik = e.splineIntegrate ius (e.raw ir ik) ^ 2 := by
  unfold noExclIntegrate
  split
  next b hb => congr 2; ext im; simp [Excl.raw, hb]
  next => rfl

/-- C18 for `Sphere`: beyond twice the largest halo radius nothing is removed, so the result equals
`NoExclusion`'s and the density modification is the full density integral (1 for a normalised density),
for every grid size, minimum mass, and bias shape. -/
theorem C18_sphere (ius : Ius) (hi : IusOk ius) (e : Excl) (ir ik : ℕ) (hn : 0 < e.n)
    (hm : ∀ i < e.n, 0 < e.m i) (hd : 0 < e.haloDensity)
    (hbig : ∀ i < e.n, 2 * e.rHalo i ≤ e.r ir) :
    sphereIntegrate ius e ir ik = noExclIntegrate ius e ir ik ∧
    (e.splineIntegrate ius (fun i => e.density i * e.m i) = 1 → sphereDensityMod ius e ir = 1) := by
  have hr : 0 ≤ e.r ir := by
    have := hbig 0 hn
    have := (C16_radius e 0 (hm 0 hn) hd).2
    linarith
  have hno : ∀ i < e.n, ¬ sphereMask e ir i := by
    intro i hin
    rw [C16_sphere_mask e ir i hd hr _ (C16_radius e i (hm i hin) hd).1]
    linarith [hbig i hin]
  constructor
  · rw [noExcl_eq]; unfold sphereIntegrate
    rw [splineIntegrate_congr hi e hn (g := e.raw ir ik)]
    intro i hin; simp [masked, hno i hin]
  · intro h1
    rw [← h1]; unfold sphereDensityMod
    apply splineIntegrate_congr hi e hn
    intro i hin; simp [masked, hno i hin]

/-- C18 for `DblSphere` without a minimum mass. -/
theorem C18_dblsphere_partial (ius : Ius) (hi : IusOk ius) (e : Excl) (ir ik : ℕ) (hn : 0 < e.n)
    (hx : e.xmin = none) (hbig : ∀ i < e.n, ∀ j < e.n, e.rHalo i + e.rHalo j ≤ e.r ir) :
    dblSphereIntegrate ius e ir ik = noExclIntegrate ius e ir ik ∧
    (e.splineIntegrate ius (fun i => e.density i * e.m i) = 1 → dblSphereDensityMod ius e ir = 1) := by
  have hno : ∀ i < e.n, ∀ j < e.n, ¬ dblSphereMask e ir i j := fun i h j h' =>
    (C16_dblsphere_mask e ir i j).1.mpr (hbig i h j h')
  constructor
  · rw [noExcl_eq]; unfold dblSphereIntegrate Excl.outerInt
    rw [splineIntegrate_congr hi e hn
      (g := fun i => simpsonDx e.n e.dlnx fun j => e.raw ir ik i * e.raw ir ik j)]
    · unfold Excl.splineIntegrate; rw [hx]; simp only
      rw [simpsonDx_outer, sq]
    · intro i h
      apply simpsonDx_congr hn
      intro j h'; simp [masked, hno i h j h']
  · intro h1
    unfold dblSphereDensityMod
    rw [splineIntegrate_congr hi e hn
      (g := fun i => e.splineIntegrate ius fun j => (e.density i * e.m i) * (e.density j * e.m j))]
    · simp only [splineIntegrate_smul hi, h1, mul_one, Real.sqrt_one]
    · intro i h
      apply splineIntegrate_congr hi e hn
      intro j h'; simp [masked, hno i h j h']

/-- C18 for `DblEllipsoid` without a minimum mass: beyond 1.09 times the largest sum of radii.  The
density modification is the *trapezoid* integral of the density (the class uses `dbltrapz`). -/
theorem C18_ellipsoid_partial (ius : Ius) (hi : IusOk ius) (e : Excl) (ir ik : ℕ) (hn : 2 ≤ e.n)
    (hx : e.xmin = none) (hm : ∀ i < e.n, 0 < e.m i) (hd : 0 < e.haloDensity)
    (hbig : ∀ i < e.n, ∀ j < e.n, 1.09 * (e.rHalo i + e.rHalo j) ≤ e.r ir) :
    ellIntegrate ius e ir ik = noExclIntegrate ius e ir ik ∧
    ellDensityMod ius e ir = |trapzDx e.n e.dlnx (fun i => e.density i * e.m i)| := by
  have hn0 : 0 < e.n := by omega
  have hp : ∀ i < e.n, ∀ j < e.n, ellProb (e.r ir) (e.rHalo i) (e.rHalo j) = 1 := by
    intro i h j h'
    have h1 := (C16_radius e i (hm i h) hd).2
    have h2 := (C16_radius e j (hm j h') hd).2
    exact (C17_prob _ _ (by linarith)).2.2.2.2 _ (hbig i h j h')
  constructor
  · rw [noExcl_eq]; unfold ellIntegrate Excl.outerInt
    rw [splineIntegrate_congr hi e hn0
      (g := fun i => simpsonDx e.n e.dlnx fun j => e.raw ir ik i * e.raw ir ik j)]
    · unfold Excl.splineIntegrate; rw [hx]; simp only
      rw [simpsonDx_outer, sq]
    · intro i h
      apply simpsonDx_congr hn0
      intro j h'; rw [hp i h j h', one_mul]
  · unfold ellDensityMod
    simp only [hx]
    rw [(C19_dbltrapz e.n hn _ e.dlnx 1).2.1]
    rw [trapzDx_congr (g := fun i => trapzDx e.n e.dlnx (fun j => e.density j * e.m j)
      * (e.density i * e.m i))]
    · rw [trapzDx_mul, Real.sqrt_mul_self_eq_abs]
    · intro i h
      rw [mul_comm (trapzDx e.n e.dlnx fun j => e.density j * e.m j), ← trapzDx_mul]
      apply trapzDx_congr
      intro j h'; rw [hp i h j h']; ring

/-- the demo grid with large separations meets the hypotheses of the C18 theorems. -/
example : ∃ ir : ℕ, (∀ i < demo.n, 0 < demo.m i) ∧ 0 < demo.haloDensity ∧ demo.xmin = none ∧
    (∀ i < demo.n, ∀ j < demo.n, 1.09 * (demo.rHalo i + demo.rHalo j) ≤ demo.r ir) := by
  obtain ⟨N, hN⟩ := exists_nat_gt (∑ i ∈ range demo.n, ∑ j ∈ range demo.n,
    1.09 * (demo.rHalo i + demo.rHalo j))
  have hpos : ∀ i, 0 ≤ demo.rHalo i := fun i =>
    (C16_radius demo i (Real.exp_pos _) (by norm_num [demo])).2.le
  refine ⟨N, fun i _ => Real.exp_pos _, by norm_num [demo], rfl, fun i hi j hj => ?_⟩
  have h1 : 1.09 * (demo.rHalo i + demo.rHalo j)
      ≤ ∑ i ∈ range demo.n, ∑ j ∈ range demo.n, 1.09 * (demo.rHalo i + demo.rHalo j) := by
    refine le_trans ?_ (single_le_sum (f := fun i => ∑ j ∈ range demo.n,
      1.09 * (demo.rHalo i + demo.rHalo j)) (fun a _ => sum_nonneg fun b _ => ?_) (mem_range.mpr hi))
    · exact single_le_sum (f := fun j => 1.09 * (demo.rHalo i + demo.rHalo j))
        (fun b _ => by have := hpos i; have := hpos b; positivity) (mem_range.mpr hj)
    · have := hpos a; have := hpos b; positivity
  have : demo.r N = N + 1 := rfl
  linarith

/-- C18 finding: with a minimum mass (`xmin` above the first grid mass, which is what the tracer
spectra pass), `DblSphere` and `DblEllipsoid` integrate the inner mass over the *whole* grid and only
the outer one from `xmin` (halo_exclusion.py:428, 519): beyond the exclusion scale the result is
`I_full * I_xmin`, and it equals `NoExclusion`'s `I_xmin²` only if these coincide (or vanish). -/
theorem C18_dblsphere_xmin (ius : Ius) (hi : IusOk ius) (e : Excl) (ir ik : ℕ) (hn : 0 < e.n)
    (hbig : ∀ i < e.n, ∀ j < e.n, e.rHalo i + e.rHalo j ≤ e.r ir) :
    dblSphereIntegrate ius e ir ik
      = simpsonDx e.n e.dlnx (e.raw ir ik) * e.splineIntegrate ius (e.raw ir ik) ∧
    (dblSphereIntegrate ius e ir ik = noExclIntegrate ius e ir ik ↔
      e.splineIntegrate ius (e.raw ir ik) = 0 ∨
      e.splineIntegrate ius (e.raw ir ik) = simpsonDx e.n e.dlnx (e.raw ir ik)) := by
  have hno : ∀ i < e.n, ∀ j < e.n, ¬ dblSphereMask e ir i j := fun i h j h' =>
    (C16_dblsphere_mask e ir i j).1.mpr (hbig i h j h')
  have h1 : dblSphereIntegrate ius e ir ik
      = simpsonDx e.n e.dlnx (e.raw ir ik) * e.splineIntegrate ius (e.raw ir ik) := by
    unfold dblSphereIntegrate Excl.outerInt
    rw [splineIntegrate_congr hi e hn
      (g := fun i => simpsonDx e.n e.dlnx (e.raw ir ik) * e.raw ir ik i)]
    · rw [splineIntegrate_smul hi]
    · intro i h
      rw [← simpsonDx_mul_right, ]
      apply simpsonDx_congr hn
      intro j h'; simp [masked, hno i h j h']; ring
  refine ⟨h1, ?_⟩
  rw [h1, noExcl_eq, sq]
  set a := simpsonDx e.n e.dlnx (e.raw ir ik)
  set b := e.splineIntegrate ius (e.raw ir ik)
  constructor
  · intro h
    have : b * (b - a) = 0 := by linear_combination -h
    rcases mul_eq_zero.mp this with h | h
    · left; exact h
    · right; linarith
  · rintro (h | h) <;> rw [h]; ring

/-- a grid with a minimum mass inside it. -/
noncomputable def demoXmin : Excl :=
  { n := 5, m := fun i => Real.exp i, density := fun _ => 1,
    pint := fun _ i => 1 / Real.exp i, bias := .d1 fun _ => 1,
    r := fun i => i, haloDensity := 1, xminArg := some (Real.exp 1) }

/-- an even grid whose integrand is 1 at the last mass only. -/
noncomputable def demoEven : Excl :=
  { n := 4, m := fun i => Real.exp i, density := fun _ => 1,
    pint := fun _ i => if i = 3 then 1 / Real.exp i else 0, bias := .d1 fun _ => 1,
    r := fun i => i, haloDensity := 1, xminArg := none }

/-- C18 (full statement with `xmin`, false): a constant integrand on a log-uniform grid and any spline
that is exact for constants give a different answer as soon as `xmin` is inside the grid. -/
theorem C18_xmin_not_noexclusion (ius : Ius) (hi : IusOk ius)
    (hconst : ∀ n x (c a b : ℝ), 0 < n → ius n x (fun _ => c) a b = (b - a) * c) :
    ∃ (e : Excl) (ir ik : ℕ), e.xmin ≠ none ∧ (∀ i < e.n, 0 < e.m i) ∧
      (∀ i < e.n, ∀ j < e.n, e.rHalo i + e.rHalo j ≤ e.r ir) ∧
      dblSphereIntegrate ius e ir ik ≠ noExclIntegrate ius e ir ik := by
  set e : Excl := demoXmin with he
  have hx : e.xmin = some (Real.exp 1) := by
    unfold Excl.xmin
    have : Real.exp 1 > Real.exp ((0:ℕ):ℝ) := by
      rw [gt_iff_lt, Real.exp_lt_exp]; norm_num
    simp only [he, demoXmin, this, if_true]
  have hpos : ∀ i, 0 ≤ e.rHalo i := fun i =>
    (C16_radius e i (Real.exp_pos _) (by norm_num [he, demoXmin])).2.le
  obtain ⟨N, hN⟩ := exists_nat_gt (2 * ∑ i ∈ range e.n, e.rHalo i)
  have hle : ∀ i < e.n, e.rHalo i ≤ ∑ i ∈ range e.n, e.rHalo i := fun i h =>
    single_le_sum (f := e.rHalo) (fun a _ => hpos a) (mem_range.mpr h)
  have hbig : ∀ i < e.n, ∀ j < e.n, e.rHalo i + e.rHalo j ≤ e.r N := by
    intro i h j h'
    have h1 : e.r N = N := rfl
    have := hle i h; have := hle j h'
    linarith
  refine ⟨e, N, 0, by rw [hx]; simp, fun i _ => Real.exp_pos _, hbig, ?_⟩
  rw [Ne, (C18_dblsphere_xmin ius hi e N 0 (by norm_num [he, demoXmin]) hbig).2]
  have hraw : e.raw N 0 = fun _ => 1 := by
    ext i
    simp only [Excl.raw, he, demoXmin, demoXmin]
    have := Real.exp_pos (i:ℝ)
    field_simp
  have hdl : e.dlnx = 1 := by
    simp only [Excl.dlnx, he, demoXmin, demoXmin]
    rw [← Real.exp_sub]; simp
  have h1 : e.splineIntegrate ius (e.raw N 0) = 3 := by
    unfold Excl.splineIntegrate
    rw [hx, hraw]; simp only
    rw [hconst _ _ _ _ _ (by norm_num [he, demoXmin])]
    simp only [he, demoXmin, Real.log_exp]; norm_num
  have h2 : simpsonDx e.n e.dlnx (e.raw N 0) = 4 := by
    rw [hraw, simpsonDx_const _ _ (by norm_num [he, demoXmin]), hdl]; norm_num [he, demoXmin]
  rw [h1, h2]; norm_num

/-- C18: the minimum mass is used only if it lies strictly above the first grid mass. -/
theorem C18_xmin_rule (e : Excl) : e.xmin = none ↔ ∀ x, e.xminArg = some x → x ≤ e.m 0 := by
  unfold Excl.xmin
  cases h : e.xminArg with
  | none => simp
  | some x =>
    simp only
    by_cases hx : x > e.m 0
    · simp [hx]
    · simp [hx]; exact not_lt.mp hx

/-! ## C20 fast versus plain classes -/

/-- C20 partial: for an odd number of masses and no minimum mass `DblSphere_` equals `DblSphere`.
Missing: even sizes and minimum mass, where it is false (next theorems). -/
theorem C20_dblsphere_partial (ius : Ius) (e : Excl) (ir ik : ℕ) (hn : 3 ≤ e.n) (hodd : e.n % 2 = 1)
    (hx : e.xmin = none) : dblSphereIntegrate_ e ir ik = dblSphereIntegrate ius e ir ik := by
  unfold dblSphereIntegrate_ dblSphereIntegrate Excl.outerInt Excl.splineIntegrate
  rw [hx]; simp only
  rw [(C19_upper_only e.n _ (fun i j => masked (dblSphereMask e ir i j)
    (e.raw ir ik i * e.raw ir ik j)) _ _ ?_).1]
  · rw [C19_dblsimps_odd _ hn hodd]
    intro i _ j _
    have h := (C16_dblsphere_mask e ir i j).2
    unfold masked
    by_cases hm : dblSphereMask e ir i j
    · rw [if_pos hm, if_pos (h.mp hm)]
    · rw [if_neg hm, if_neg (fun h' => hm (h.mpr h')), mul_comm]
  · intro i _ j _ hij; simp [hij, masked]

/-- C20 finding: for an even number of masses (halomod's default grid) `DblSphere_` uses a trapezoid on
the last mass bin where `DblSphere` uses scipy's parabolic correction; they differ already when nothing
is excluded. -/
theorem C20_dblsphere_even_differs :
    ∃ (e : Excl) (ir ik : ℕ), e.n = 4 ∧ e.xmin = none ∧ (∀ i < e.n, 0 < e.m i) ∧
      ∀ ius, dblSphereIntegrate_ e ir ik ≠ dblSphereIntegrate ius e ir ik := by
  set e : Excl := demoEven with he
  have hpos : ∀ i, 0 ≤ e.rHalo i := fun i =>
    (C16_radius e i (Real.exp_pos _) (by norm_num [he, demoEven])).2.le
  obtain ⟨N, hN⟩ := exists_nat_gt (2 * ∑ i ∈ range e.n, e.rHalo i)
  have hle : ∀ i < e.n, e.rHalo i ≤ ∑ i ∈ range e.n, e.rHalo i := fun i h =>
    single_le_sum (f := e.rHalo) (fun a _ => hpos a) (mem_range.mpr h)
  have hno : ∀ i < e.n, ∀ j < e.n, ¬ dblSphereMask e N i j := by
    intro i h j h'
    rw [(C16_dblsphere_mask e N i j).1]
    have h1 : e.r N = N := rfl
    have := hle i h; have := hle j h'
    linarith
  refine ⟨e, N, 0, rfl, rfl, fun i _ => Real.exp_pos _, fun ius => ?_⟩
  have hraw : e.raw N 0 = fun i => if i = 3 then 1 else 0 := by
    ext i
    simp only [Excl.raw, he, demoEven, demoEven]
    have := Real.exp_pos (i:ℝ)
    split_ifs
    · field_simp
    · simp
  have hdl : e.dlnx = 1 := by
    simp only [Excl.dlnx, he, demoEven, demoEven]
    rw [← Real.exp_sub]; simp
  have h1 : dblSphereIntegrate ius e N 0 = 25 / 144 := by
    unfold dblSphereIntegrate Excl.outerInt Excl.splineIntegrate
    have hx : e.xmin = none := rfl
    rw [hx]; simp only
    rw [simpsonDx_congr (g := fun i => simpsonDx e.n e.dlnx fun j =>
      e.raw N 0 i * e.raw N 0 j) (by norm_num [he, demoEven])]
    · rw [simpsonDx_outer, hraw, hdl]
      have : e.n = 4 := rfl
      rw [this]
      norm_num [simpsonDx, basicSimpson]
    · intro i h
      apply simpsonDx_congr (by norm_num [he, demoEven])
      intro j h'; simp [masked, hno i h j h']
  have h2 : dblSphereIntegrate_ e N 0 = 1 / 4 := by
    unfold dblSphereIntegrate_
    have h4 : e.n = 4 := rfl
    rw [(C19_upper_only e.n _ (fun i j => e.raw N 0 i * e.raw N 0 j) _ _ ?_).1]
    · rw [C19_dblsimps _ (by norm_num [he, demoEven])]
      · rw [hraw, hdl, h4]
        norm_num [simpsonTrap, basicSimpson]
      · intro i _ j _; ring
    · intro i hi j hj hij
      simp [hij, hno i hi j hj]
  rw [h1, h2]; norm_num

/-- C20: `DblEllipsoid_.density_mod` and `NgMatched_` do equal their plain counterparts when there is no
minimum mass, for every grid size and whatever the uninitialised memory holds. -/
theorem C20_ellipsoid_density_ng (ius : Ius) (junk : Mat) (e : Excl) (ir ik : ℕ) (hn : 2 ≤ e.n)
    (hx : e.xmin = none) :
    ellDensityMod_ junk e ir = ellDensityMod ius e ir ∧
    ngIntegrate_ junk e ir ik = ngIntegrate ius e ir ik := by
  have h1 : ellDensityMod_ junk e ir = ellDensityMod ius e ir := by
    unfold ellDensityMod_ ellDensityMod
    rw [hx]; simp only
    rw [(C19_dbltrapz e.n hn _ e.dlnx 1).2.1]
    rw [(C19_upper_only e.n _ (fun i j => ellProb (e.r ir) (e.rHalo i) (e.rHalo j)
      * (1 * ((e.density i * e.m i) * (e.density j * e.m j)))) _ _ ?_).2]
    · rw [(C19_dbltrapz e.n hn _ e.dlnx e.dlnx).2.2]
      intro i _ j _
      rw [C17_prob_is_documented, C17_prob_is_documented, add_comm]; ring
    · intro i _ j _ hij
      rw [(C17_fast_prob junk junk e ir 0).1 i j hij]; ring
  refine ⟨h1, ?_⟩
  unfold ngIntegrate_ ngIntegrate Excl.splineIntegrate
  rw [hx, h1]

/-- C20 finding: `DblEllipsoid_.integrate` is the double *trapezoid* of the same integrand of which
`DblEllipsoid.integrate` is the double Simpson integral, so "the same as DblEllipsoid" is false. -/
theorem C20_ellipsoid_rules (ius : Ius) (junk : Mat) (e : Excl) (ir ik : ℕ) (hn : 2 ≤ e.n)
    (hx : e.xmin = none) :
    let I : Mat := fun i j => ellProb (e.r ir) (e.rHalo i) (e.rHalo j)
      * (e.raw ir ik i * e.raw ir ik j)
    ellIntegrate_ junk e ir ik = trapzDx e.n e.dlnx (fun i => trapzDx e.n e.dlnx (I i)) ∧
    ellIntegrate ius e ir ik = simpsonDx e.n e.dlnx (fun i => simpsonDx e.n e.dlnx (I i)) := by
  constructor
  · unfold ellIntegrate_
    rw [(C19_upper_only e.n _ (fun i j => ellProb (e.r ir) (e.rHalo i) (e.rHalo j)
      * (e.raw ir ik i * e.raw ir ik j)) _ _ ?_).2]
    · rw [(C19_dbltrapz e.n hn _ e.dlnx e.dlnx).2.2]
      intro i _ j _
      rw [C17_prob_is_documented, C17_prob_is_documented, add_comm]; ring
    · intro i _ j _ hij
      simp only [hij, if_true]
      rw [(C17_fast_prob junk junk e ir 0).1 i j hij]; ring
  · unfold ellIntegrate Excl.outerInt Excl.splineIntegrate
    rw [hx]

/-! ## C21 cumsimps -/

theorem cumsimpsF1_eq (n : ℕ) (f : ℕ → ℝ) (i : ℕ) (h : i < n - 1) :
    cumsimpsF1 n f i = openW i * f i := by
  unfold cumsimpsF1 openW
  by_cases h0 : i = 0
  · subst h0; simp
  · by_cases h2 : i % 2 = 1
    · rw [if_pos (by omega), if_pos (by omega), if_neg h0, if_pos h2]; ring
    · rw [if_pos (by omega), if_neg (by omega), if_neg h0, if_neg h2]; ring

/-- C21 partial: at every even index before the last, `cumsimps` is the composite Simpson integral up
to that sample; at odd indices it is Simpson up to the previous sample plus two thirds of a trapezoid.
Missing: the last index (next theorem). -/
theorem C21_cumsimps_partial (n : ℕ) (f : ℕ → ℝ) (dx : ℝ) (b : ℕ) :
    (2 * b < n - 1 → cumsimps n f dx (2 * b) = basicSimpson b dx f) ∧
    (2 * b + 1 < n - 1 → cumsimps n f dx (2 * b + 1)
      = basicSimpson b dx f + 2 / 3 * (dx * (f (2 * b) + f (2 * b + 1)) / 2)) := by
  have hsum : ∀ k, k < n - 1 → ∑ j ∈ range (k + 1), cumsimpsF1 n f j
      = ∑ j ∈ range (k + 1), openW j * f j := by
    intro k hk
    apply sum_congr rfl; intro i hi
    have := mem_range.mp hi
    exact cumsimpsF1_eq n f i (by omega)
  have hopen : ∑ j ∈ range (2 * b + 1), openW j * f j
      = (∑ i ∈ range b, (f (2 * i) + 4 * f (2 * i + 1) + f (2 * i + 2))) + f (2 * b) := by
    cases b with
    | zero => simp [openW]
    | succ b => exact openW_sum b f
  constructor
  · intro h
    unfold cumsimps basicSimpson
    rw [hsum _ h, hopen]
    have : cumsimpsRm n f (2 * b) = f (2 * b) := by
      unfold cumsimpsRm; rw [if_neg (by omega)]; ring
    rw [this]; ring
  · intro h
    unfold cumsimps basicSimpson
    rw [hsum _ h, sum_range_succ, hopen]
    have h1 : cumsimpsRm n f (2 * b + 1) = 3 * f (2 * b + 1) := by
      unfold cumsimpsRm; rw [if_pos (by omega)]; ring
    have h2 : openW (2 * b + 1) = 4 := by unfold openW; rw [if_neg (by omega), if_pos (by omega)]
    rw [h1, h2]; ring

/-- C21 finding: the last entry (the one that should be the full integral) drops the last sample: for
an odd number of samples it is Simpson's result minus `dx/3` times the last sample. -/
theorem C21_cumsimps_last (b : ℕ) (f : ℕ → ℝ) (dx : ℝ) :
    cumsimps (2 * (b + 1) + 1) f dx (2 * (b + 1))
      = simpsonDx (2 * (b + 1) + 1) dx f - dx / 3 * f (2 * (b + 1)) := by
  have h1 : simpsonDx (2 * (b + 1) + 1) dx f = basicSimpson (b + 1) dx f := by
    unfold simpsonDx; rw [if_neg (by omega)]; congr 1; omega
  rw [h1]
  unfold cumsimps
  rw [sum_range_succ]
  have h2 : ∑ j ∈ range (2 * (b + 1)), cumsimpsF1 (2 * (b + 1) + 1) f j
      = ∑ j ∈ range (2 * (b + 1)), openW j * f j := by
    apply sum_congr rfl; intro i hi
    have := mem_range.mp hi
    exact cumsimpsF1_eq _ f i (by omega)
  have h3 := openW_sum b f
  rw [sum_range_succ] at h3
  have h4 : openW (2 * (b + 1)) = 2 := by unfold openW; rw [if_neg (by omega), if_neg (by omega)]
  have h5 : cumsimpsF1 (2 * (b + 1) + 1) f (2 * (b + 1)) = f (2 * (b + 1)) := by
    unfold cumsimpsF1; rw [if_neg (by omega), if_neg (by omega)]; ring
  have h6 : cumsimpsRm (2 * (b + 1) + 1) f (2 * (b + 1)) = f (2 * (b + 1)) := by
    unfold cumsimpsRm; rw [if_neg (by omega)]; ring
  rw [h4] at h3
  rw [h2, h5, h6]
  unfold basicSimpson
  have : ∑ j ∈ range (2 * (b + 1)), openW j * f j
      = ∑ i ∈ range (b + 1), (f (2 * i) + 4 * f (2 * i + 1) + f (2 * i + 2)) - f (2 * (b + 1)) := by
    linarith
  rw [this]; ring

/-- C21: so already the constant function is mis-integrated by the last entry. -/
theorem C21_cumsimps_constant_wrong :
    cumsimps 3 (fun _ => 1) 1 2 = 5 / 3 ∧ simpsonDx 3 1 (fun _ => 1) = 2 := by
  constructor
  · rw [C21_cumsimps_last 0, simpsonDx_const _ _ (by norm_num)]; norm_num
  · rw [simpsonDx_const _ _ (by norm_num)]; norm_num

/-! ## C22 -/

/-- C22: the integrand is `m · (power integrand) · bias` at every grid point, whatever the bias shape;
a 2D bias with identical rows is the same as the 1D bias. -/
theorem C22_raw (e : Excl) (ir ik im : ℕ) :
    (∀ b, e.bias = .d1 b → e.raw ir ik im = e.m im * e.pint ik im * b im) ∧
    (∀ b, e.bias = .d2 b → e.raw ir ik im = e.m im * e.pint ik im * b ir im) ∧
    (∀ b, e.bias = .d1 b → ({ e with bias := .d2 fun _ => b } : Excl).raw ir ik im = e.raw ir ik im)
    := by
  refine ⟨fun b h => ?_, fun b h => ?_, fun b h => ?_⟩ <;> simp only [Excl.raw, h] <;> ring

/-- C22: the one-row result of `NoExclusion` for 1D bias equals each of the rows the full (r,k,m)
computation gives. -/
theorem C22_noexclusion_row (ius : Ius) (e : Excl) (ir ik : ℕ) :
    noExclIntegrate ius e ir ik = e.splineIntegrate ius (e.raw ir ik) ^ 2 ∧
    (∀ b, e.bias = .d1 b → ∀ ir', noExclIntegrate ius e ir ik = noExclIntegrate ius e ir' ik) ∧
    ((∃ b, e.bias = .d1 b) → ∀ nr, noExclRows e nr = 1) ∧
    ((∃ b, e.bias = .d2 b) → ∀ nr, noExclRows e nr = nr) := by
  refine ⟨noExcl_eq ius e ir ik, fun b h ir' => ?_, ?_, ?_⟩
  · simp [noExclIntegrate, h]
  · rintro ⟨b, h⟩ nr; simp [noExclRows, h]
  · rintro ⟨b, h⟩ nr; simp [noExclRows, h]

/-- C22: for non-negative integrands on an increasing log grid without minimum mass, `Sphere` never
increases the two-halo integral, is non-negative, and grows with separation (1D bias). -/
theorem C22_sphere_bounds (ius : Ius) (e : Excl) (ir ir' ik : ℕ) (hn : 0 < e.n) (hx : e.xmin = none)
    (hdl : 0 ≤ e.dlnx) (hd : 0 < e.haloDensity) (hr : 0 ≤ e.r ir) (hle : e.r ir ≤ e.r ir')
    (b : ℕ → ℝ) (hb : e.bias = .d1 b) (hnn : ∀ i < e.n, 0 ≤ e.raw ir ik i) :
    0 ≤ sphereIntegrate ius e ir ik ∧
    sphereIntegrate ius e ir ik ≤ sphereIntegrate ius e ir' ik ∧
    sphereIntegrate ius e ir ik ≤ noExclIntegrate ius e ir ik := by
  have hraw : ∀ i, e.raw ir' ik i = e.raw ir ik i := by intro i; simp [Excl.raw, hb]
  have h0 : 0 ≤ simpsonDx e.n e.dlnx (fun im => masked (sphereMask e ir im) (e.raw ir ik im)) := by
    apply simpsonDx_nonneg hn hdl
    intro i hi; unfold masked; split_ifs
    · exact le_rfl
    · exact hnn i hi
  refine ⟨sq_nonneg _, ?_, ?_⟩
  · unfold sphereIntegrate Excl.splineIntegrate
    rw [hx]; simp only
    apply pow_le_pow_left₀ h0
    apply simpsonDx_mono hn hdl
    intro i hi
    rw [hraw]
    unfold masked
    by_cases h1 : sphereMask e ir i
    · rw [if_pos h1]; split_ifs
      · exact le_rfl
      · exact hnn i hi
    · rw [if_neg h1, if_neg ((C16_monotone e ir ir' hd hr hle).1 i h1)]
  · rw [noExcl_eq]
    unfold sphereIntegrate Excl.splineIntegrate
    rw [hx]; simp only
    apply pow_le_pow_left₀ h0
    apply simpsonDx_mono hn hdl
    intro i hi
    unfold masked; split_ifs
    · exact hnn i hi
    · exact le_rfl

example : demo.xmin = none ∧ 0 ≤ demo.dlnx ∧ (∀ i < demo.n, 0 ≤ demo.raw 0 0 i) := by
  refine ⟨rfl, ?_, fun i _ => ?_⟩
  · simp only [Excl.dlnx, demo]; rw [← Real.exp_sub]; simp
  · simp only [Excl.raw, demo]; have := Real.exp_pos (i:ℝ); positivity

/-- C22: the `NgMatched` mask removes the most massive haloes: it is upward closed, and (for a
non-negative density modification) never removes the first mass bin. -/
theorem C22_ng_mask (e : Excl) (dmod : ℝ) (hdl : 0 ≤ e.dlnx) (hnn : ∀ i, 0 ≤ e.density i * e.m i) :
    (∀ i j, i ≤ j → ngMask e dmod i → ngMask e dmod j) ∧ (0 ≤ dmod → ¬ ngMask e dmod 0) := by
  constructor
  · intro i j hij h
    unfold ngMask at *
    have := cumtrapz0_mono hdl hnn hij
    simp only [one_mul] at *
    linarith
  · intro h0 h
    unfold ngMask cumtrapz0 at h
    simp at h
    linarith

end Halomod.Exclusion
