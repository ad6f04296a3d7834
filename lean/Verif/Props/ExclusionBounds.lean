import Verif.Props.Exclusion2

/-! # C22, continued: how the exclusion models are ordered -/
namespace Halomod.Exclusion

open Finset

/-- a weighted double Simpson rule over a mass grid. -/
noncomputable def dbl (n : ℕ) (dx : ℝ) (K : Mat) (f : ℕ → ℝ) : ℝ :=
  simpsonDx n dx fun i => simpsonDx n dx fun j => K i j * (f i * f j)

theorem dbl_mono {n : ℕ} {dx : ℝ} (hn : 0 < n) (hdx : 0 ≤ dx) {K L : Mat} {f : ℕ → ℝ} (hf : ∀ i < n, 0 ≤ f i)
    (h : ∀ i < n, ∀ j < n, K i j ≤ L i j) : dbl n dx K f ≤ dbl n dx L f :=
  simpsonDx_mono hn hdx fun i hi => simpsonDx_mono hn hdx fun j hj => mul_le_mul_of_nonneg_right (h i hi j hj) (mul_nonneg (hf i hi) (hf j hj))

theorem dbl_nonneg {n : ℕ} {dx : ℝ} (hn : 0 < n) (hdx : 0 ≤ dx) {K : Mat} {f : ℕ → ℝ} (hf : ∀ i < n, 0 ≤ f i)
    (h : ∀ i < n, ∀ j < n, 0 ≤ K i j) : 0 ≤ dbl n dx K f :=
  simpsonDx_nonneg hn hdx fun i hi => simpsonDx_nonneg hn hdx fun j hj => mul_nonneg (h i hi j hj) (mul_nonneg (hf i hi) (hf j hj))

theorem dbl_prod (n : ℕ) (dx : ℝ) (a f : ℕ → ℝ) : dbl n dx (fun i j => a i * a j) f = simpsonDx n dx (fun i => a i * f i) ^ 2 := by
  unfold dbl
  have h : ∀ i j, a i * a j * (f i * f j) = (a i * f i) * (a j * f j) := fun i j => by ring
  simp only [h, simpsonDx_mul]
  rw [sq, ← simpsonDx_mul]
  congr 1; funext i; ring

open Classical in
theorem masked_eq (p : Prop) (x : ℝ) : masked p x = (if p then 0 else 1) * x := by
  unfold masked
  by_cases h : p
  · rw [if_pos h, if_pos h, zero_mul]
  · rw [if_neg h, if_neg h, one_mul]

open Classical in
theorem keep_mono {p q : Prop} (h : ¬ p → ¬ q) : (if p then (0:ℝ) else 1) ≤ if q then 0 else 1 := by
  by_cases hp : p
  · rw [if_pos hp]; split_ifs <;> norm_num
  · rw [if_neg hp, if_neg (h hp)]

open Classical in
theorem keep_range (p : Prop) : (0:ℝ) ≤ (if p then (0:ℝ) else 1) ∧ (if p then (0:ℝ) else 1) ≤ 1 := by
  split_ifs <;> norm_num

open Classical in
/-- the sphere cut is stricter than the pair cut -/
theorem keep_sphere (e : Excl) (ir : ℕ) (hd : 0 < e.haloDensity) (hm : ∀ i < e.n, 0 < e.m i) (hr : 0 ≤ e.r ir) (i : ℕ) (hi : i < e.n) (j : ℕ) (hj : j < e.n) :
    (if sphereMask e ir i then (0:ℝ) else 1) * (if sphereMask e ir j then (0:ℝ) else 1) ≤ if dblSphereMask e ir i j then 0 else 1 := by
  by_cases h1 : sphereMask e ir i
  · rw [if_pos h1, zero_mul]; exact (keep_range _).1
  · by_cases h2 : sphereMask e ir j
    · rw [if_pos h2, mul_zero]; exact (keep_range _).1
    · rw [if_neg h1, if_neg h2, if_neg (C16_sphere_stricter e ir i j (hm i hi) (hm j hj) hd hr h1 h2), one_mul]

open Classical in
theorem dblSphere_eq (ius : Ius) (e : Excl) (hx : e.xmin = none) (ir ik : ℕ) :
    dblSphereIntegrate ius e ir ik = dbl e.n e.dlnx (fun i j => if dblSphereMask e ir i j then 0 else 1) (e.raw ir ik) := by
  unfold dblSphereIntegrate Excl.outerInt Excl.splineIntegrate dbl
  rw [hx]; simp only [masked_eq]

theorem ell_eq (ius : Ius) (e : Excl) (hx : e.xmin = none) (ir ik : ℕ) :
    ellIntegrate ius e ir ik = dbl e.n e.dlnx (fun i j => ellProb (e.r ir) (e.rHalo i) (e.rHalo j)) (e.raw ir ik) := by
  unfold ellIntegrate Excl.outerInt Excl.splineIntegrate dbl
  rw [hx]

theorem noExcl_dbl (ius : Ius) (e : Excl) (hx : e.xmin = none) (ir ik : ℕ) :
    noExclIntegrate ius e ir ik = dbl e.n e.dlnx (fun _ _ => 1) (e.raw ir ik) := by
  have := dbl_prod e.n e.dlnx (fun _ => 1) (e.raw ir ik)
  simp only [one_mul] at this
  rw [noExcl_eq, Excl.splineIntegrate, hx, this]

open Classical in
theorem sphere_dbl (ius : Ius) (e : Excl) (hx : e.xmin = none) (ir ik : ℕ) :
    sphereIntegrate ius e ir ik = dbl e.n e.dlnx (fun i j => (if sphereMask e ir i then (0:ℝ) else 1) * (if sphereMask e ir j then (0:ℝ) else 1)) (e.raw ir ik) := by
  rw [dbl_prod e.n e.dlnx (fun i => if sphereMask e ir i then (0:ℝ) else 1), sphereIntegrate, Excl.splineIntegrate, hx]
  simp only [masked_eq]

/-- the conditions of the ordering theorems: an increasing logarithmic grid of positive masses without a minimum mass, and two separations. -/
structure Ordered (e : Excl) (ir ir' : ℕ) : Prop where
  n : 2 ≤ e.n
  noMin : e.xmin = none
  step : 0 ≤ e.dlnx
  dens : 0 < e.haloDensity
  mass : ∀ i < e.n, 0 < e.m i
  sep : 0 ≤ e.r ir
  le : e.r ir ≤ e.r ir'

theorem Ordered.sum_pos {e : Excl} {ir ir' : ℕ} (h : Ordered e ir ir') {i j : ℕ} (hi : i < e.n) (hj : j < e.n) : 0 < e.rHalo i + e.rHalo j :=
  have key : ∀ k < e.n, 0 < e.rHalo k := fun k hk => by
    unfold Excl.rHalo
    have := h.mass k hk; have := h.dens; have := Real.pi_pos
    positivity
  add_pos (key i hi) (key j hj)

/-- C22: for non-negative integrands the two-halo integral of every exclusion model lies between zero and the integral without
exclusion; the one-halo cut at half the separation (`Sphere`) removes at least as much as the pair cut (`DblSphere`); and every
model's integral grows with separation. -/
theorem C22_double_bounds (ius : Ius) (e : Excl) (ir ir' ik : ℕ) (ho : Ordered e ir ir') (b : ℕ → ℝ) (hb : e.bias = .d1 b)
    (hnn : ∀ i < e.n, 0 ≤ e.raw ir ik i) :
    (0 ≤ sphereIntegrate ius e ir ik ∧ sphereIntegrate ius e ir ik ≤ dblSphereIntegrate ius e ir ik ∧
      dblSphereIntegrate ius e ir ik ≤ noExclIntegrate ius e ir ik ∧ dblSphereIntegrate ius e ir ik ≤ dblSphereIntegrate ius e ir' ik) ∧
    (0 ≤ ellIntegrate ius e ir ik ∧ ellIntegrate ius e ir ik ≤ noExclIntegrate ius e ir ik ∧ ellIntegrate ius e ir ik ≤ ellIntegrate ius e ir' ik) ∧
    (0 ≤ ngIntegrate ius e ir ik ∧ ngIntegrate ius e ir ik ≤ noExclIntegrate ius e ir ik) := by
  classical
  have hn : 0 < e.n := by have := ho.n; omega
  have hraw : e.raw ir' ik = e.raw ir ik := by funext i; simp [Excl.raw, hb]
  have hx := ho.noMin
  rw [dblSphere_eq ius e hx, dblSphere_eq ius e hx, ell_eq ius e hx, ell_eq ius e hx, noExcl_dbl ius e hx, sphere_dbl ius e hx, hraw]
  refine ⟨⟨?_, ?_, ?_, ?_⟩, ⟨?_, ?_, ?_⟩, sq_nonneg _, ?_⟩
  · exact dbl_nonneg hn ho.step hnn fun i hi j hj => mul_nonneg (keep_range _).1 (keep_range _).1
  · exact dbl_mono hn ho.step hnn (keep_sphere e ir ho.dens ho.mass ho.sep)
  · exact dbl_mono hn ho.step hnn fun i hi j hj => (keep_range _).2
  · exact dbl_mono hn ho.step hnn fun i hi j hj => keep_mono ((C16_monotone e ir ir' ho.dens ho.sep ho.le).2 i j)
  · exact dbl_nonneg hn ho.step hnn fun i hi j hj => ((C17_prob _ _ (ho.sum_pos hi hj)).1 _).1
  · exact dbl_mono hn ho.step hnn fun i hi j hj => ((C17_prob _ _ (ho.sum_pos hi hj)).1 _).2
  · exact dbl_mono hn ho.step hnn fun i hi j hj => (C17_prob _ _ (ho.sum_pos hi hj)).2.2.1 ho.le
  · rw [← noExcl_dbl ius e hx, noExcl_eq]
    unfold ngIntegrate Excl.splineIntegrate
    rw [hx]; simp only
    refine pow_le_pow_left₀ (simpsonDx_nonneg hn ho.step fun i hi => ?_) (simpsonDx_mono hn ho.step fun i hi => ?_) 2 <;> rw [masked_eq]
    · exact mul_nonneg (keep_range _).1 (hnn i hi)
    · exact mul_le_of_le_one_left (hnn i hi) (keep_range _).2

/-- C22: the same for the modified number densities, in the quadrature rule each class uses. -/
theorem C22_density_order (ius : Ius) (e : Excl) (ir ir' : ℕ) (ho : Ordered e ir ir') (hnn : ∀ i < e.n, 0 ≤ e.density i * e.m i) :
    (sphereDensityMod ius e ir ≤ dblSphereDensityMod ius e ir ∧ dblSphereDensityMod ius e ir ≤ dblSphereDensityMod ius e ir' ∧
      dblSphereDensityMod ius e ir ≤ simpsonDx e.n e.dlnx (fun i => e.density i * e.m i)) ∧
    (ellDensityMod ius e ir ≤ ellDensityMod ius e ir' ∧ ellDensityMod ius e ir ≤ trapzDx e.n e.dlnx (fun i => e.density i * e.m i)) := by
  classical
  have hn : 0 < e.n := by have := ho.n; omega
  have hx := ho.noMin
  have hD : ∀ k, dblSphereDensityMod ius e k = Real.sqrt (dbl e.n e.dlnx (fun i j => if dblSphereMask e k i j then 0 else 1) fun i => e.density i * e.m i) := by
    intro k
    unfold dblSphereDensityMod Excl.splineIntegrate dbl
    rw [hx]; simp only [masked_eq]
  have hS : sphereDensityMod ius e ir = simpsonDx e.n e.dlnx fun i => (if sphereMask e ir i then 0 else 1) * (e.density i * e.m i) := by
    unfold sphereDensityMod Excl.splineIntegrate
    rw [hx]; simp only [masked_eq, one_mul]
  have h0 : 0 ≤ sphereDensityMod ius e ir := by
    rw [hS]; exact simpsonDx_nonneg hn ho.step fun i hi => mul_nonneg (keep_range _).1 (hnn i hi)
  have hE : ∀ k, ellDensityMod ius e k = Real.sqrt (trapzDx e.n e.dlnx fun i => trapzDx e.n e.dlnx fun j =>
      ellProb (e.r k) (e.rHalo i) (e.rHalo j) * ((e.density i * e.m i) * (e.density j * e.m j))) := by
    intro k
    unfold ellDensityMod
    rw [hx]; simp only [one_mul]
    rw [(C19_dbltrapz e.n ho.n _ e.dlnx 0).2.1]
  have tmono : ∀ f g : ℕ → ℝ, (∀ i < e.n, f i ≤ g i) → trapzDx e.n e.dlnx f ≤ trapzDx e.n e.dlnx g := by
    intro f g h
    have := trapzDx_nonneg' (n := e.n) (dx := e.dlnx) (f := fun i => g i - f i) ho.step fun i hi => by linarith [h i hi]
    have h2 : trapzDx e.n e.dlnx (fun i => g i - f i) + trapzDx e.n e.dlnx f = trapzDx e.n e.dlnx g := by
      rw [← trapzDx_add]; congr 1; funext i; ring
    linarith
  refine ⟨⟨?_, ?_, ?_⟩, ?_, ?_⟩
  · rw [hD]
    refine Real.le_sqrt_of_sq_le ?_
    rw [hS, ← dbl_prod]
    exact dbl_mono hn ho.step hnn (keep_sphere e ir ho.dens ho.mass ho.sep)
  · rw [hD, hD]
    exact Real.sqrt_le_sqrt (dbl_mono hn ho.step hnn fun i hi j hj => keep_mono ((C16_monotone e ir ir' ho.dens ho.sep ho.le).2 i j))
  · rw [hD]
    refine Real.sqrt_le_iff.2 ⟨simpsonDx_nonneg hn ho.step hnn, ?_⟩
    have := dbl_prod e.n e.dlnx (fun _ => 1) fun i => e.density i * e.m i
    simp only [one_mul] at this
    rw [← this]
    exact dbl_mono hn ho.step hnn fun i hi j hj => (keep_range _).2
  · rw [hE, hE]
    refine Real.sqrt_le_sqrt (tmono _ _ fun i hi => tmono _ _ fun j hj => ?_)
    exact mul_le_mul_of_nonneg_right ((C17_prob _ _ (ho.sum_pos hi hj)).2.2.1 ho.le) (mul_nonneg (hnn i hi) (hnn j hj))
  · rw [hE]
    refine Real.sqrt_le_iff.2 ⟨trapzDx_nonneg' ho.step hnn, ?_⟩
    rw [sq, ← trapzDx_mul]
    refine tmono _ _ fun i hi => ?_
    have : (trapzDx e.n e.dlnx fun j => e.density j * e.m j) * (e.density i * e.m i) = trapzDx e.n e.dlnx fun j => (e.density i * e.m i) * (e.density j * e.m j) := by
      rw [trapzDx_mul]; ring
    rw [this]
    exact tmono _ _ fun j hj => mul_le_of_le_one_left (mul_nonneg (hnn i hi) (hnn j hj)) ((C17_prob _ _ (ho.sum_pos hi hj)).1 _).2

/-- the demo grid meets the conditions, with a 1D bias and positive integrands. -/
example : Ordered demo 0 1 ∧ demo.bias = .d1 (fun _ => 1) ∧ (∀ i < demo.n, 0 ≤ demo.raw 0 0 i) ∧ (∀ i < demo.n, 0 ≤ demo.density i * demo.m i) := by
  obtain ⟨h1, h2, h3, h4, h5, h6, h7, h8⟩ := demo_conditions
  refine ⟨⟨h1, h2, h3, h4, h5, h7, h8⟩, rfl, fun i _ => ?_, h6⟩
  simp only [Excl.raw, demo]; have := Real.exp_pos (i:ℝ); positivity

/-- C22: the number-matched model also grows with separation. -/
theorem C22_ng_grows (ius : Ius) (e : Excl) (ir ir' ik : ℕ) (ho : Ordered e ir ir') (b : ℕ → ℝ) (hb : e.bias = .d1 b)
    (hnn : ∀ i < e.n, 0 ≤ e.raw ir ik i) (hden : ∀ i < e.n, 0 ≤ e.density i * e.m i) :
    ngIntegrate ius e ir ik ≤ ngIntegrate ius e ir' ik := by
  classical
  have hn : 0 < e.n := by have := ho.n; omega
  have hraw : e.raw ir' ik = e.raw ir ik := by funext i; simp [Excl.raw, hb]
  have hle := (C22_density_order ius e ir ir' ho hden).2.1
  unfold ngIntegrate Excl.splineIntegrate
  rw [ho.noMin]; simp only [masked_eq, hraw]
  refine pow_le_pow_left₀ (simpsonDx_nonneg hn ho.step fun i hi => mul_nonneg (keep_range _).1 (hnn i hi)) (simpsonDx_mono hn ho.step fun i hi => ?_) 2
  refine mul_le_mul_of_nonneg_right (keep_mono ?_) (hnn i hi)
  unfold ngMask
  intro h1 h2
  exact h1 (lt_of_le_of_lt (by gcongr) h2)

end Halomod.Exclusion
