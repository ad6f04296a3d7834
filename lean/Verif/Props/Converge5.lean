import Verif.Props.Converge4

/-! # C56: the two-halo terms with halo exclusion on finer and finer mass grids -/
namespace Halomod.HaloModel

open Filter Topology MeasureTheory Finset Halomod.Tools Halomod.HOD Halomod.Exclusion

/-- `e'` at separation `ir` and wavenumber `ik` has the same haloes as `e` at its first ones, with densities multiplied by `c`. -/
structure Scaled (e e' : Excl) (c : ℝ) (ir ik : ℕ) : Prop where
  n : e'.n = e.n
  m : e'.m = e.m
  hd : e'.haloDensity = e.haloDensity
  xarg : e'.xminArg = e.xminArg
  r : e'.r ir = e.r 0
  dens : ∀ im, e'.density im = c * e.density im
  raw : ∀ im, e'.raw ir ik im = c * e.raw 0 0 im

namespace Scaled
variable {e e' : Excl} {c : ℝ} {ir ik : ℕ}

theorem dlnx (h : Scaled e e' c ir ik) : e'.dlnx = e.dlnx := by unfold Excl.dlnx; rw [h.m]
theorem xmin (h : Scaled e e' c ir ik) : e'.xmin = e.xmin := by unfold Excl.xmin; rw [h.m, h.xarg]
theorem rHalo (h : Scaled e e' c ir ik) : e'.rHalo = e.rHalo := by funext i; unfold Excl.rHalo; rw [h.m, h.hd]
theorem si (h : Scaled e e' c ir ik) (ius : Ius) (f : ℕ → ℝ) : e'.splineIntegrate ius f = e.splineIntegrate ius f := by
  unfold Excl.splineIntegrate; rw [h.m, h.xmin, h.dlnx, h.n]

theorem masked_mul (p : Prop) (c x : ℝ) : masked p (c * x) = c * masked p x := by
  classical
  unfold masked; split_ifs <;> simp

theorem dbltrapz_mul (n : ℕ) (X : Mat) (dx c : ℝ) : dbltrapz n (fun i j => c * X i j) dx none = c * dbltrapz n X dx none := by
  unfold dbltrapz
  have : ∀ i j, c * X i j * trapzW n i * trapzW n j = c * (X i j * trapzW n i * trapzW n j) := fun i j => by ring
  simp only [this, ← mul_sum]
  ring

theorem triSum_mul (n : ℕ) (W X : Mat) (c : ℝ) : triSum n W (fun i j => c * X i j) = c * triSum n W X := by
  unfold triSum
  rw [mul_sum]
  refine sum_congr rfl fun i _ => ?_
  rw [mul_add, mul_sum]
  congr 1
  · ring
  · exact sum_congr rfl fun j _ => by ring

theorem sqrt_mul_sq {c : ℝ} (hc : 0 < c) (x : ℝ) : Real.sqrt (c ^ 2 * x) = c * Real.sqrt x := by
  rw [Real.sqrt_mul (by positivity), Real.sqrt_sq hc.le]

theorem density (h : Scaled e e' c ir ik) (hc : 0 < c) {ius : Ius} (hi : IusOk ius) (junk : Mat) (cls : ExclCls) (hcls : cls ≠ .noExclusion) :
    exclDensityMod ius junk cls e' ir = c * exclDensityMod ius junk cls e 0 := by
  have hdm : ∀ i j, (e'.density i * e'.m i) * (e'.density j * e'.m j) = c ^ 2 * ((e.density i * e.m i) * (e.density j * e.m j)) := by
    intro i j; rw [h.dens, h.dens, h.m]; ring
  have sph : sphereDensityMod ius e' ir = c * sphereDensityMod ius e 0 := by
    unfold sphereDensityMod
    rw [h.si, ← splineIntegrate_smul hi]
    congr 1
    funext i
    rw [← masked_mul, h.dens, h.m]
    unfold sphereMask Excl.mlim
    rw [h.m, h.hd, h.r]
    congr 1; ring
  have dbl : dblSphereDensityMod ius e' ir = c * dblSphereDensityMod ius e 0 := by
    unfold dblSphereDensityMod
    rw [h.si, ← sqrt_mul_sq hc, ← splineIntegrate_smul hi]
    congr 2
    funext i
    rw [h.si, ← splineIntegrate_smul hi]
    congr 1
    funext j
    rw [← masked_mul, hdm]
    unfold dblSphereMask
    rw [h.rHalo, h.r]
  have ell : ellDensityMod ius e' ir = c * ellDensityMod ius e 0 := by
    have hX : (fun i j => ellProb (e'.r ir) (e'.rHalo i) (e'.rHalo j) * (1 * ((e'.density i * e'.m i) * (e'.density j * e'.m j)))) =
        fun i j => c ^ 2 * (ellProb (e.r 0) (e.rHalo i) (e.rHalo j) * (1 * ((e.density i * e.m i) * (e.density j * e.m j)))) := by
      funext i j; rw [hdm, h.rHalo, h.r]; ring
    unfold ellDensityMod
    dsimp only
    rw [hX, h.xmin, h.n, h.dlnx]
    cases e.xmin with
    | none =>
      dsimp only
      rw [dbltrapz_mul, sqrt_mul_sq hc]
    | some v =>
      dsimp only
      rw [← sqrt_mul_sq hc, h.si, ← splineIntegrate_smul hi]
      congr 2
      funext i
      rw [h.si, ← splineIntegrate_smul hi]
      exact congrArg _ (congrFun hX i)
  have ell_ : ellDensityMod_ junk e' ir = c * ellDensityMod_ junk e 0 := by
    have hX : (fun i j => probInner_ junk (e'.r ir) e'.rHalo i j * ((e'.density i * e'.m i) * (e'.density j * e'.m j))) =
        fun i j => c ^ 2 * (probInner_ junk (e.r 0) e.rHalo i j * ((e.density i * e.m i) * (e.density j * e.m j))) := by
      funext i j; rw [hdm, h.rHalo, h.r]; ring
    unfold ellDensityMod_ dbltrapz_
    rw [hX, h.n, h.dlnx, triSum_mul, ← sqrt_mul_sq hc]
    congr 1; ring
  cases cls with
  | noExclusion => exact absurd rfl hcls
  | sphere => exact sph
  | dblSphere => exact dbl
  | dblSphere_ => exact dbl
  | dblEllipsoid => exact ell
  | dblEllipsoid_ => exact ell_
  | ngMatched => exact ell
  | ngMatched_ => exact ell_

theorem integral (h : Scaled e e' c ir ik) (hc : 0 < c) {ius : Ius} (hi : IusOk ius) (junk : Mat) (cls : ExclCls) (hcls : cls ≠ .noExclusion) :
    exclIntegrate ius junk cls e' ir ik = c ^ 2 * exclIntegrate ius junk cls e 0 0 := by
  have hr2 : ∀ i j, e'.raw ir ik i * e'.raw ir ik j = c ^ 2 * (e.raw 0 0 i * e.raw 0 0 j) := by
    intro i j; rw [h.raw, h.raw]; ring
  have hng : ∀ d' d : ℝ, d' = c * d → ∀ im, ngMask e' d' im ↔ ngMask e d im := by
    intro d' d hd im
    unfold ngMask
    have hcum : cumtrapz0 e'.dlnx (fun i => e'.density i * e'.m i) im = c * cumtrapz0 e.dlnx (fun i => e.density i * e.m i) im := by
      unfold cumtrapz0
      rw [mul_sum]
      refine sum_congr rfl fun j _ => ?_
      beta_reduce
      rw [h.dens, h.dens, h.m, h.dlnx]; ring
    rw [hcum, hd, one_mul, one_mul, mul_one, mul_one, gt_iff_lt, gt_iff_lt, show 1.0001 * (c * d) = c * (1.0001 * d) by ring]
    exact mul_lt_mul_iff_right₀ hc
  cases cls with
  | noExclusion => exact absurd rfl hcls
  | sphere =>
    change sphereIntegrate ius e' ir ik = c ^ 2 * sphereIntegrate ius e 0 0
    unfold sphereIntegrate
    rw [h.si, ← mul_pow, ← splineIntegrate_smul hi]
    congr 2
    funext i
    rw [← masked_mul, h.raw]
    unfold sphereMask Excl.mlim
    rw [h.m, h.hd, h.r]
  | dblSphere =>
    change dblSphereIntegrate ius e' ir ik = c ^ 2 * dblSphereIntegrate ius e 0 0
    unfold dblSphereIntegrate Excl.outerInt
    rw [h.si, ← splineIntegrate_smul hi]
    congr 1
    funext i
    rw [← simpsonDx_mul, h.n, h.dlnx]
    congr 1
    funext j
    rw [← masked_mul, hr2]
    unfold dblSphereMask
    rw [h.rHalo, h.r]
  | dblSphere_ =>
    change dblSphereIntegrate_ e' ir ik = c ^ 2 * dblSphereIntegrate_ e 0 0
    classical
    have hX : (fun i j => if i ≤ j then (if dblSphereMask e' ir i j then 0 else e'.raw ir ik i * e'.raw ir ik j) else 0) =
        fun i j => c ^ 2 * (if i ≤ j then (if dblSphereMask e 0 i j then 0 else e.raw 0 0 i * e.raw 0 0 j) else 0) := by
      funext i j
      unfold dblSphereMask
      rw [hr2, h.rHalo, h.r]
      split_ifs <;> simp
    unfold dblSphereIntegrate_ dblsimps_
    rw [h.n, h.dlnx]
    have := congrArg (triSum e.n (makeW_ e.n)) hX
    rw [triSum_mul] at this
    convert! congrArg (fun x => e.dlnx * e.dlnx * x / 9) this using 1
    ring_nf
  | dblEllipsoid =>
    change ellIntegrate ius e' ir ik = c ^ 2 * ellIntegrate ius e 0 0
    unfold ellIntegrate Excl.outerInt
    rw [h.si, ← splineIntegrate_smul hi]
    congr 1
    funext i
    rw [← simpsonDx_mul, h.n, h.dlnx]
    congr 1
    funext j
    rw [hr2, h.rHalo, h.r]
    ring
  | dblEllipsoid_ =>
    change ellIntegrate_ junk e' ir ik = c ^ 2 * ellIntegrate_ junk e 0 0
    have hX : (fun i j => if i ≤ j then e'.raw ir ik i * e'.raw ir ik j * probInner_ junk (e'.r ir) e'.rHalo i j else 0) =
        fun i j => c ^ 2 * (if i ≤ j then e.raw 0 0 i * e.raw 0 0 j * probInner_ junk (e.r 0) e.rHalo i j else 0) := by
      funext i j
      rw [hr2, h.rHalo, h.r]
      split_ifs
      · ring
      · simp
    unfold ellIntegrate_ dbltrapz_
    rw [hX, triSum_mul, h.n, h.dlnx]
    ring
  | ngMatched =>
    change ngIntegrate ius e' ir ik = c ^ 2 * ngIntegrate ius e 0 0
    have hd := h.density hc hi junk .ngMatched (by simp)
    unfold ngIntegrate
    rw [h.si, ← mul_pow, ← splineIntegrate_smul hi]
    congr 2
    funext i
    rw [← masked_mul, h.raw]
    congr 1
    exact propext (hng _ _ hd i)
  | ngMatched_ =>
    change ngIntegrate_ junk e' ir ik = c ^ 2 * ngIntegrate_ junk e 0 0
    have hd := h.density hc hi junk .ngMatched_ (by simp)
    unfold ngIntegrate_
    rw [← mul_pow, ← simpsonDx_mul, h.n, h.dlnx]
    congr 2
    funext i
    rw [← masked_mul, h.raw]
    congr 1
    exact propext (hng _ _ hd i)

end Scaled

open Classical in
/-- documented integral over pairs of halo masses entering the two-halo term at separation `r`: each pair weighted by the
probability that it does not overlap; for the number-matched classes, all haloes up to the mass at which the cumulated
number density reaches that of the ellipsoidal exclusion (with the code's tolerance of one part in ten thousand). -/
noncomputable def pairIntegral (cls : ExclCls) (ρ r M0 M1 : ℝ) (D F : ℝ → ℝ) : ℝ :=
  match cls with
  | .ngMatched | .ngMatched_ => (∫ m in M0..M1, if (∫ x in M0..m, D x) ≤ 1.0001 *
      Real.sqrt (∫ m1 in M0..M1, ∫ m2 in M0..M1, Spec.ellipsoidP (r / (haloRadius ρ m1 + haloRadius ρ m2)) * (D m1 * D m2)) then F m else 0) ^ 2
  | cls => ∫ m1 in M0..M1, ∫ m2 in M0..M1, pairWeight cls r (haloRadius ρ m1) (haloRadius ρ m2) * (F m1 * F m2)

/-- documented modified density at separation `r`. -/
noncomputable def pairDensity (cls : ExclCls) (ρ r M0 M1 : ℝ) (D : ℝ → ℝ) : ℝ :=
  Real.sqrt (∫ m1 in M0..M1, ∫ m2 in M0..M1, pairWeight cls r (haloRadius ρ m1) (haloRadius ρ m2) * (D m1 * D m2))

theorem pairIntegral_tendsto {ius : Ius} (hi : IusOk ius) (junk : Mat) (cls : ExclCls) (M0 M1 ρ r : ℝ) (h0 : 0 < M0) (h1 : M0 < M1) (hρ : 0 < ρ)
    (hr : 0 ≤ r) (D P B : ℝ → ℝ) (hD : ContinuousOn D (Set.Icc M0 M1)) (hDpos : ∀ m ∈ Set.Icc M0 M1, 0 < D m)
    (hP : ContinuousOn P (Set.Icc M0 M1)) (hB : ContinuousOn B (Set.Icc M0 M1)) :
    Tendsto (fun n => exclIntegrate ius junk cls (refined M0 M1 ρ r D P B n) 0 0) atTop (𝓝 (pairIntegral cls ρ r M0 M1 D fun m => P m * B m)) := by
  classical
  cases cls with
  | ngMatched => exact C56_ng_integrals ius hi junk _ (Or.inl rfl) M0 M1 ρ r h0 h1 hρ hr D P B hD hDpos hP hB 0 0
  | ngMatched_ => exact C56_ng_integrals ius hi junk _ (Or.inr rfl) M0 M1 ρ r h0 h1 hρ hr D P B hD hDpos hP hB 0 0
  | _ => exact C56_integrals ius junk _ (by simp) M0 M1 ρ r h0 h1 hρ hr D P B hP hB 0 0

/-- the modified density converges, sign included, for positive densities. -/
theorem pairDensity_tendsto {ius : Ius} (hi : IusOk ius) (junk : Mat) (cls : ExclCls) (hcls : cls ≠ .noExclusion) (M0 M1 ρ r : ℝ) (h0 : 0 < M0)
    (h1 : M0 < M1) (hρ : 0 < ρ) (hr : 0 ≤ r) (D P B : ℝ → ℝ) (hD : ContinuousOn D (Set.Icc M0 M1)) (hDpos : ∀ m ∈ Set.Icc M0 M1, 0 < D m) :
    Tendsto (fun n => exclDensityMod ius junk cls (refined M0 M1 ρ r D P B n) 0) atTop (𝓝 (pairDensity cls ρ r M0 M1 D)) := by
  classical
  have habs := C56_densities ius hi junk cls hcls M0 M1 ρ r h0 h1 hρ hr D P B hD 0
  have hnn : (∀ n, 0 ≤ exclDensityMod ius junk cls (refined M0 M1 ρ r D P B n) 0) →
      Tendsto (fun n => exclDensityMod ius junk cls (refined M0 M1 ρ r D P B n) 0) atTop (𝓝 (pairDensity cls ρ r M0 M1 D)) :=
    fun h => habs.congr fun n => abs_of_nonneg (h n)
  cases cls with
  | noExclusion => exact absurd rfl hcls
  | dblSphere | dblSphere_ => exact hnn fun n => Real.sqrt_nonneg _
  | dblEllipsoid | ngMatched => exact hnn fun n => ellDens_nonneg ius junk .ngMatched (Or.inl rfl) _ 0
  | dblEllipsoid_ | ngMatched_ => exact hnn fun n => Real.sqrt_nonneg _
  | sphere =>
    have hl := Real.log_lt_log h0 h1
    obtain ⟨v, hv, hve⟩ : ∃ v : ℝ → ℝ, Continuous v ∧ ∀ t ∈ Set.Icc (Real.log M0) (Real.log M1), v t = D (Real.exp t) * Real.exp t :=
      ⟨Set.IccExtend hl.le (Set.domRestrict (Set.Icc (Real.log M0) (Real.log M1)) fun t => D (Real.exp t) * Real.exp t),
        (continuousOn_iff_continuous_domRestrict.mp (continuousOn_log h0 h1.le hD)).Icc_extend',
        fun t ht => by rw [Set.IccExtend_of_mem _ _ ht]; rfl⟩
    have hmem : ∀ t ∈ Set.Icc (Real.log M0) (Real.log M1), Real.exp t ∈ Set.Icc M0 M1 := fun t ht =>
      ⟨(Real.log_le_iff_le_exp h0).mp ht.1, (Real.le_log_iff_exp_le (h0.trans h1)).mp ht.2⟩
    obtain ⟨c, hcdef⟩ : ∃ c, ∀ t ∈ Set.Icc (Real.log M0) (Real.log M1), (Real.exp t ≤ 4 * Real.pi * (r / 2) ^ 3 * ρ / 3 ↔ t ≤ c) := by
      rcases hr.eq_or_lt with h | h
      · refine ⟨Real.log M0 - 1, fun t ht => ?_⟩
        subst h
        have := Real.exp_pos t
        have h2 := ht.1
        norm_num
        constructor
        · intro h3; linarith
        · intro h3; linarith
      · have hpi := Real.pi_pos
        exact ⟨Real.log (4 * Real.pi * (r / 2) ^ 3 * ρ / 3), fun t _ => (Real.le_log_iff_exp_le (by positivity)).symm⟩
    have key := cut_tendsto simpson_rule hl (c := c) hv
    have hL : 0 ≤ ∫ t in Real.log M0..Real.log M1, if t ≤ c then v t else 0 := by
      apply intervalIntegral.integral_nonneg hl.le
      intro t ht
      split_ifs
      · rw [hve t ht]; exact mul_nonneg (hDpos _ (hmem t ht)).le (Real.exp_pos t).le
      · exact le_rfl
    have heq : ∀ n, exclDensityMod ius junk .sphere (refined M0 M1 ρ r D P B n) 0 =
        simpsonDx (n + 2) (stp (Real.log M0) (Real.log M1) n) fun i => if Real.log M0 + i * stp (Real.log M0) (Real.log M1) n ≤ c then
          v (Real.log M0 + i * stp (Real.log M0) (Real.log M1) n) else 0 := by
      intro n
      obtain ⟨f1, f2, f3⟩ := refined_facts M0 M1 ρ r D P B n
      change sphereDensityMod ius _ 0 = _
      unfold sphereDensityMod Excl.splineIntegrate
      rw [f2, f1]
      refine simpsonDx_congr (by simp [refined]) fun i hi => ?_
      have hg := grid_mem hl n i hi
      unfold masked sphereMask Excl.mlim
      simp only [refined]
      rw [hve _ hg]
      by_cases hle : Real.log M0 + i * stp (Real.log M0) (Real.log M1) n ≤ c
      · rw [if_pos hle]
        exact (if_neg (not_lt.mpr ((hcdef _ hg).mpr hle))).trans (one_mul _)
      · rw [if_neg hle]
        exact if_pos (lt_of_not_ge fun h => hle ((hcdef _ hg).mp h))
    have k2 : Tendsto (fun n => exclDensityMod ius junk .sphere (refined M0 M1 ρ r D P B n) 0) atTop
        (𝓝 (∫ t in Real.log M0..Real.log M1, if t ≤ c then v t else 0)) := key.congr fun n => (heq n).symm
    have := tendsto_nhds_unique k2.abs habs
    rw [abs_of_nonneg hL] at this
    unfold pairDensity
    rw [← this]
    exact k2

/-- the spline through given abscissae depends continuously on the ordinates. -/
theorem spl_continuous_ordinates {isp : Spl} (hs : SplLin isp) (n : ℕ) (x : ℕ → ℝ) (t : ℝ) (y : ℕ → ℕ → ℝ) (z : ℕ → ℝ)
    (hy : ∀ i < n, Tendsto (fun l => y l i) atTop (𝓝 (z i))) : Tendsto (fun l => isp n x (y l) t) atTop (𝓝 (isp n x z t)) := by
  have hz : isp n x (fun _ => 0) t = 0 := by
    have := hs.smul n x (fun _ => 0) 0 t
    simpa using this
  have hsum : ∀ w : ℕ → ℝ, isp n x w t = ∑ i ∈ range n, w i * isp n x (fun j => if j = i then 1 else 0) t := by
    intro w
    have key : ∀ N, isp n x (fun j => if j < N then w j else 0) t = ∑ i ∈ range N, w i * isp n x (fun j => if j = i then 1 else 0) t := by
      intro N
      induction N with
      | zero => simpa using hz
      | succ N ih =>
        rw [sum_range_succ, ← ih, ← hs.smul, ← hs.add]
        congr 1
        funext j
        rcases lt_trichotomy j N with h | h | h
        · rw [if_pos (by omega), if_pos h, if_neg (by omega)]; ring
        · subst h; simp
        · rw [if_neg (by omega), if_neg (by omega), if_neg (by omega)]; ring
    rw [← key n]
    exact congrFun (hs.congr n x x _ _ fun i hi => ⟨rfl, by rw [if_pos hi]⟩) t
  rw [hsum z]
  simp only [hsum (y _)]
  exact tendsto_finsetSum _ fun i hi => (hy i (mem_range.mp hi)).mul_const _

/-- so does the whole extended spline of the two-halo term with exclusion, inside and outside its range. -/
theorem es_tendsto (E : Env) (hs : SplLin E.isp) (n : ℕ) (x : ℕ → ℝ) (L : ℝ → ℝ) (y : ℕ → ℕ → ℝ) (z : ℕ → ℝ) (f : ℕ → ℝ → ℝ) (g : ℝ → ℝ)
    (hy : ∀ i < n, Tendsto (fun l => y l i) atTop (𝓝 (z i)))
    (hf : ∀ l, mkES E { n := n, x := x, y := y l, lower := .callable L, matchLower := true, upper := .callable fun _ => 0 } = some (f l))
    (hg : mkES E { n := n, x := x, y := z, lower := .callable L, matchLower := true, upper := .callable fun _ => 0 } = some g) (t : ℝ) :
    Tendsto (fun l => f l t) atTop (𝓝 (g t)) := by
  have form : ∀ (w : ℕ → ℝ) (u : ℝ → ℝ), mkES E { n := n, x := x, y := w, lower := .callable L, matchLower := true, upper := .callable fun _ => 0 } = some u →
      u t = if t < x 0 then (if L (x 0) = 0 then L t else L t * (E.isp n x w (x 0) / L (x 0))) else if t > x (n - 1) then 0 else E.isp n x w t := by
    intro w u hu
    unfold mkES esInit at hu
    rw [if_neg (by simp)] at hu
    simp only [extFunc] at hu
    simp only [not_true, if_false, if_true] at hu
    by_cases hL : L (x 0) = 0
    · rw [if_pos hL] at hu
      simp only [Option.map_some, Option.some.injEq] at hu
      rw [← hu, if_pos hL]
      rfl
    · rw [if_neg hL] at hu
      simp only [Option.map_some, Option.some.injEq] at hu
      rw [← hu, if_neg hL]
      rfl
  rw [form z g hg]
  simp only [form _ _ (hf _)]
  split_ifs
  · exact tendsto_const_nhds
  · exact ((spl_continuous_ordinates hs n x (x 0) y z hy).div_const _).const_mul _
  · exact tendsto_const_nhds
  · exact spl_continuous_ordinates hs n x t y z hy

/-- the transform to correlations depends continuously on the spectrum, at the spectrum `g` and the separation `r`. -/
def HankelContAt (hk : (ℝ → ℝ) → ℝ → ℝ) (g : ℝ → ℝ) (r : ℝ) : Prop :=
  ∀ f : ℕ → ℝ → ℝ, (∀ t, Tendsto (fun l => f l t) atTop (𝓝 (g t))) → Tendsto (fun l => hk (f l) r) atTop (𝓝 (hk g r))

/-- a weighted sum over wavenumbers meets it -/
theorem hankelCont_sum (g : ℝ → ℝ) (r : ℝ) : HankelContAt (fun f r => ∑ i ∈ range 5, Real.sin (i * r) * f i) g r :=
  fun _ h => tendsto_finsetSum _ fun i _ => (h i).const_mul _

/-- the extended spline of a two-halo spectrum with exclusion tabulated at the wavenumbers of the model: the linear power,
matched, below the table, and zero above it (halo_model.py:747-759). -/
noncomputable def twoHaloSpectrum (h : HM) (y : ℕ → ℝ) : ESArgs :=
  { n := h.nk, x := h.k, y := y, lower := .callable h.linPow, matchLower := true, upper := .callable fun _ => 0 }

/-- from the convergence of the tables to that of the correlation. -/
theorem corr2h_tendsto (E : Env) (hs : SplLin E.isp) (h : HM) (ho : h.Ok) (M0 M1 : ℝ) (h0 : 0 < M0) (h1 : M0 < M1)
    (D B : ℝ → ℝ) (U T Λ : ℕ → ℝ → ℝ) (junk : Mat) (cls : ExclCls) (hcls : cls ≠ .noExclusion) (e : ℕ → Excl) (eb : ℕ → ℝ) (db : Bool) (z : ℕ → ℕ → ℝ)
    (ht : ∀ i < h.nr, ∀ j < h.nk, Tendsto (fun n => (fine h M0 M1 D B U T Λ n).power2hTab E (exclRes E junk cls (e n) h.nr) (eb n) db i j) atTop (𝓝 (z i j))) :
    ∃ ξ : ℕ → ℝ → ℝ, (∀ n, (fine h M0 M1 D B U T Λ n).corr2h E (exclRes E junk cls (e n) h.nr) (eb n) db = some (ξ n)) ∧
      ∀ i < h.nr, ∃ P, mkES E (twoHaloSpectrum h (z i)) = some P ∧
        (HankelContAt E.hankelFine P (h.rt i) → Tendsto (fun n => ξ n (h.rt i)) atTop (𝓝 (E.hankelFine P (h.rt i)))) := by
  have hok := fine_ok h ho M0 M1 h0 h1 D B U T Λ
  have hrows : ∀ n, (exclRes E junk cls (e n) h.nr).rows = h.nr := by
    intro n
    cases cls <;> first | exact absurd rfl hcls | rfl
  have hnone : ∀ n, (exclRes E junk cls (e n) h.nr).isNone = false := by
    intro n
    cases cls <;> first | exact absurd rfl hcls | rfl
  choose ξ hξ using fun n => corr2h_rows (E := E) hs (hok n) (exclRes E junk cls (e n) h.nr) (Or.inr (hrows n)) (eb n) db
  refine ⟨ξ, fun n => (hξ n).1, fun i hi => ?_⟩
  obtain ⟨P, hP, -⟩ := mkES_ok E hs.toSplOk (twoHaloSpectrum h (z i))
    rfl rfl ho.k (by simp [twoHaloSpectrum]) (by simp [twoHaloSpectrum])
  refine ⟨P, hP, fun hk => ?_⟩
  choose p hp using fun n => (hξ n).2.2 i hi
  have hidx : ∀ n, (if (exclRes E junk cls (e n) h.nr).rows = 1 then 0 else i) = i := by
    intro n
    rw [hrows]
    split_ifs <;> omega
  have hq : ∀ n, mkES E (twoHaloSpectrum h ((fine h M0 M1 D B U T Λ n).power2hTab E (exclRes E junk cls (e n) h.nr) (eb n) db i)) = some (p n) := by
    intro n
    have := (hp n).1
    rw [hidx] at this
    unfold HM.power2hPrim at this
    rw [hnone] at this
    exact this
  refine (hk p fun t => es_tendsto E hs h.nk h.k h.linPow _ (z i) p P (ht i hi) hq hP t).congr fun n => ?_
  exact ((hp n).2).symm

/-- C56: with every halo-exclusion class the two-halo correlation of the tracers converges, at every tabulated separation
and for every HOD without a sharp cut, to the transform of the spectrum made of the documented integral over
non-overlapping pairs of haloes, divided by the squared mean density, times the modified over the mean density, times the
power of halo centres, provided that the transform is continuous at that spectrum (C68: unless its stopping test is met exactly on its boundary). -/
theorem C56_two_halo_tracer_excl (E : Env) (hs : SplLin E.isp) (hc : SplConv E.isp) (h : HM) (ho : h.Ok) (M0 M1 : ℝ)
    (h0 : 0 < M0) (h1 : M0 < M1) (hcut : (h.hod.sharpCut && (h.hod.central || h.hod.inherent)) = false) (hρ : 0 < h.overdensity * h.meanDensity0)
    (D B : ℝ → ℝ) (U T Λ : ℕ → ℝ → ℝ) (hD : ContinuousOn D (Set.Icc M0 M1)) (hB : ContinuousOn B (Set.Icc M0 M1))
    (hT : ∀ j, ContinuousOn (T j) (Set.Icc M0 M1)) (hN : ContinuousOn (tracerNumber h.hod) (Set.Icc M0 M1))
    (hpos : ∀ m ∈ Set.Icc M0 M1, 0 < D m * tracerNumber h.hod m) (junk : Mat) (cls : ExclCls) (hcls : cls ≠ .noExclusion) (G : ℝ → ℝ) (nbar : ℝ)
    (hG : G = fun m => D m * tracerNumber h.hod m) (hnbar : nbar = ∫ m in M0..M1, G m) :
    ∃ ξ : ℕ → ℝ → ℝ, (∀ n, (fine h M0 M1 D B U T Λ n).corr2hTracerX E junk cls none = some (ξ n)) ∧
      ∀ i < h.nr, ∃ P, mkES E (twoHaloSpectrum h fun j =>
          pairIntegral cls (h.overdensity * h.meanDensity0) (h.rt i) M0 M1 G (fun m => G m * T j m * B m) / nbar ^ 2 *
            (pairDensity cls (h.overdensity * h.meanDensity0) (h.rt i) M0 M1 G / nbar) * h.phc (h.k j)) = some P ∧
        (HankelContAt E.hankelFine P (h.rt i) → Tendsto (fun n => ξ n (h.rt i)) atTop (𝓝 (E.hankelFine P (h.rt i)))) := by
  have hi := ius_ok (E := E) hs
  have hGc : ContinuousOn G (Set.Icc M0 M1) := by rw [hG]; exact hD.mul hN
  have hGp : ∀ m ∈ Set.Icc M0 M1, 0 < G m := by rw [hG]; exact hpos
  have hnpos : 0 < nbar := by
    rw [hnbar]
    refine intervalIntegral.intervalIntegral_pos_of_pos_on (ContinuousOn.intervalIntegrable ?_) (fun m hm => hGp m ⟨hm.1.le, hm.2.le⟩) h1
    rwa [Set.uIcc_of_le h1.le]
  have hmm : ∀ n, (fine h M0 M1 D B U T Λ n).tracerMmin = none := by
    intro n
    have : (fine h M0 M1 D B U T Λ n).tracerMmin = if h.hod.sharpCut && (h.hod.central || h.hod.inherent) then some (10 ^ h.hod.mmin) else none := rfl
    rw [this, hcut]; simp
  have hmean : Tendsto (fun n => (fine h M0 M1 D B U T Λ n).meanTracerDen E) atTop (𝓝 nbar) := by
    have key := si_tendsto hs hc h0 h1 none (by simp) hGc
    rw [Option.getD_none, max_self, ← hnbar] at key
    refine key.congr fun n => ?_
    unfold HM.meanTracerDen HM.S
    rw [hmm, hG]
    rfl
  refine corr2h_tendsto E hs h ho M0 M1 h0 h1 D B U T Λ junk cls hcls (fun n => (fine h M0 M1 D B U T Λ n).tracerExclX E none)
    (fun n => (fine h M0 M1 D B U T Λ n).biasEffTracer E) false _ fun i hir j hj => ?_
  have hr0 : 0 ≤ h.rt i := (ho.r.pos i hir).le
  have k1 := pairIntegral_tendsto hi junk cls M0 M1 _ (h.rt i) h0 h1 hρ hr0 G (fun m => G m * T j m) B hGc hGp (hGc.mul (hT j)) hB
  have k2 := pairDensity_tendsto hi junk cls hcls M0 M1 _ (h.rt i) h0 h1 hρ hr0 G (fun m => G m * T j m) B hGc hGp
  have key := ((k1.div (hmean.pow 2) (pow_ne_zero 2 hnpos.ne')).mul (k2.div hmean hnpos.ne')).mul_const (h.phc (h.k j))
  refine key.congr' ?_
  filter_upwards [hmean.eventually (lt_mem_nhds hnpos)] with n hn
  have hsc : Scaled (refined M0 M1 (h.overdensity * h.meanDensity0) (h.rt i) G (fun m => G m * T j m) B n) ((fine h M0 M1 D B U T Λ n).tracerExclX E none)
      ((fine h M0 M1 D B U T Λ n).meanTracerDen E)⁻¹ i j :=
    { n := rfl, m := rfl, hd := rfl, xarg := hmm n, r := rfl, dens := fun im => by
        subst hG
        change D _ * tracerNumber h.hod _ / _ = _ * (D _ * tracerNumber h.hod _)
        rw [div_eq_inv_mul]
        rfl
      raw := fun im => by
        subst hG
        change 1 * (D ((fine h M0 M1 D B U T Λ n).m im) * tracerNumber h.hod ((fine h M0 M1 D B U T Λ n).m im) / _ * T j ((fine h M0 M1 D B U T Λ n).m im) *
          B ((fine h M0 M1 D B U T Λ n).m im) * (fine h M0 M1 D B U T Λ n).m im) = _ * (1 * (D ((fine h M0 M1 D B U T Λ n).m im) *
          tracerNumber h.hod ((fine h M0 M1 D B U T Λ n).m im) * T j ((fine h M0 M1 D B U T Λ n).m im) * B ((fine h M0 M1 D B U T Λ n).m im) *
          (fine h M0 M1 D B U T Λ n).m im))
        ring }
  have hcp := inv_pos.mpr hn
  change _ = exclIntegrate _ junk cls ((fine h M0 M1 D B U T Λ n).tracerExclX E none) i j * exclDensityMod _ junk cls ((fine h M0 M1 D B U T Λ n).tracerExclX E none) i * h.phc (h.k j)
  rw [hsc.integral hcp hi junk cls hcls, hsc.density hcp hi junk cls hcls]
  simp only [Pi.div_apply]
  field_simp

/-- C56: the same for matter; when its bias is forced to unity, divided by the square of the documented effective bias. -/
theorem C56_two_halo_matter_excl (E : Env) (hs : SplLin E.isp) (hc : SplConv E.isp) (h : HM) (ho : h.Ok) (M0 M1 : ℝ)
    (h0 : 0 < M0) (h1 : M0 < M1) (hρ : 0 < h.overdensity * h.meanDensity0) (hr : 0 < h.rhoGtm)
    (D B : ℝ → ℝ) (U T Λ : ℕ → ℝ → ℝ) (hD : ContinuousOn D (Set.Icc M0 M1)) (hB : ContinuousOn B (Set.Icc M0 M1))
    (hU : ∀ j, ContinuousOn (U j) (Set.Icc M0 M1)) (hpos : ∀ m ∈ Set.Icc M0 M1, 0 < D m) (hmb : (∫ m in M0..M1, m * D m * B m) ≠ 0)
    (junk : Mat) (cls : ExclCls) (hcls : cls ≠ .noExclusion) (G : ℝ → ℝ) (hG : G = fun m => m * D m) :
    ∃ ξ : ℕ → ℝ → ℝ, (∀ n, (fine h M0 M1 D B U T Λ n).corr2hMatterX E junk cls none = some (ξ n)) ∧
      ∀ i < h.nr, ∃ P, mkES E (twoHaloSpectrum h fun j =>
          pairIntegral cls (h.overdensity * h.meanDensity0) (h.rt i) M0 M1 G (fun m => G m * U j m * B m) / h.rhoGtm ^ 2 *
            (pairDensity cls (h.overdensity * h.meanDensity0) (h.rt i) M0 M1 G / h.rhoGtm) *
            (if h.forceUnity then (((∫ m in M0..M1, m * D m * B m) / h.rhoGtm) ^ 2)⁻¹ else 1) * h.phc (h.k j)) = some P ∧
        (HankelContAt E.hankelFine P (h.rt i) → Tendsto (fun n => ξ n (h.rt i)) atTop (𝓝 (E.hankelFine P (h.rt i)))) := by
  have hi := ius_ok (E := E) hs
  have hGc : ContinuousOn G (Set.Icc M0 M1) := by rw [hG]; exact continuousOn_id.mul hD
  have hGp : ∀ m ∈ Set.Icc M0 M1, 0 < G m := by
    rw [hG]; exact fun m hm => mul_pos (h0.trans_le hm.1) (hpos m hm)
  refine corr2h_tendsto E hs h ho M0 M1 h0 h1 D B U T Λ junk cls hcls (fun n => (fine h M0 M1 D B U T Λ n).matterExclX none)
    (fun n => (fine h M0 M1 D B U T Λ n).biasEffMatter E) h.forceUnity _ fun i hir j hj => ?_
  have hr0 : 0 ≤ h.rt i := (ho.r.pos i hir).le
  have k1 := pairIntegral_tendsto hi junk cls M0 M1 _ (h.rt i) h0 h1 hρ hr0 G (fun m => G m * U j m) B hGc hGp (hGc.mul (hU j)) hB
  have k2 := pairDensity_tendsto hi junk cls hcls M0 M1 _ (h.rt i) h0 h1 hρ hr0 G (fun m => G m * U j m) B hGc hGp
  have hden := si_tendsto hs hc h0 h1 none (by simp) (f := fun m => D m * m / h.rhoGtm * B m) (((hD.mul continuousOn_id).div_const _).mul hB)
  rw [Option.getD_none, max_self, show (∫ m in M0..M1, D m * m / h.rhoGtm * B m) = (∫ m in M0..M1, m * D m * B m) / h.rhoGtm by
    rw [← intervalIntegral.integral_div]; congr 1; funext m; ring] at hden
  have hne2 : (∫ m in M0..M1, m * D m * B m) / h.rhoGtm ≠ 0 := div_ne_zero hmb hr.ne'
  have k3 : Tendsto (fun n => if h.forceUnity = true then ((fine h M0 M1 D B U T Λ n).biasEffMatter E / splineIntegral E.isp (n + 2) (fine h M0 M1 D B U T Λ n).m
      (fun i => ((fine h M0 M1 D B U T Λ n).matterExclX none).density i * (fine h M0 M1 D B U T Λ n).bias i) none none true) ^ 2 else 1) atTop
      (𝓝 (if h.forceUnity = true then (((∫ m in M0..M1, m * D m * B m) / h.rhoGtm) ^ 2)⁻¹ else 1)) := by
    split_ifs with hf
    · refine ((hden.pow 2).inv₀ (pow_ne_zero 2 hne2)).congr fun n => ?_
      have hb : (fine h M0 M1 D B U T Λ n).biasEffMatter E = 1 := by unfold HM.biasEffMatter; rw [if_pos (by exact hf)]
      rw [hb, one_div, inv_pow]
      rfl
    · exact tendsto_const_nhds
  have key := (((k1.div_const (h.rhoGtm ^ 2)).mul (k2.div_const h.rhoGtm)).mul k3).mul_const (h.phc (h.k j))
  refine key.congr fun n => ?_
  have hsc : Scaled (refined M0 M1 (h.overdensity * h.meanDensity0) (h.rt i) G (fun m => G m * U j m) B n) ((fine h M0 M1 D B U T Λ n).matterExclX none)
      (h.rhoGtm)⁻¹ i j :=
    { n := rfl, m := rfl, hd := rfl, xarg := rfl, r := rfl, dens := fun im => by
        subst hG
        change D ((fine h M0 M1 D B U T Λ n).m im) * (fine h M0 M1 D B U T Λ n).m im / h.rhoGtm = _ * ((fine h M0 M1 D B U T Λ n).m im * D ((fine h M0 M1 D B U T Λ n).m im))
        ring
      raw := fun im => by
        subst hG
        change 1 * (D ((fine h M0 M1 D B U T Λ n).m im) * (fine h M0 M1 D B U T Λ n).m im / h.rhoGtm * U j ((fine h M0 M1 D B U T Λ n).m im) *
          B ((fine h M0 M1 D B U T Λ n).m im) * (fine h M0 M1 D B U T Λ n).m im) = _ * (1 * ((fine h M0 M1 D B U T Λ n).m im * D ((fine h M0 M1 D B U T Λ n).m im) *
          U j ((fine h M0 M1 D B U T Λ n).m im) * B ((fine h M0 M1 D B U T Λ n).m im) * (fine h M0 M1 D B U T Λ n).m im))
        ring }
  have hcp := inv_pos.mpr hr
  unfold HM.power2hTab
  dsimp only [exclRes]
  rw [hsc.integral hcp hi junk cls hcls, hsc.density hcp hi junk cls hcls]
  by_cases hf : h.forceUnity = true
  · simp only [hf, if_true]
    change _ = _ * (_ / splineIntegral E.isp (n + 2) (fine h M0 M1 D B U T Λ n).m
      (fun i => ((fine h M0 M1 D B U T Λ n).matterExclX none).density i * (fine h M0 M1 D B U T Λ n).bias i) none none true) ^ 2 * h.phc (h.k j)
    ring
  · rw [Bool.not_eq_true] at hf
    simp only [hf, Bool.false_eq_true, if_false]
    change _ = _ * h.phc (h.k j)
    ring

/-- a case that meets the hypotheses of both theorems: the Zheng05 HOD, a power-law mass function, a bias linear in mass, point-like
haloes and the transform above. -/
example (h : HM) (ho : h.Ok) (hρ : 0 < h.overdensity * h.meanDensity0) (junk : Mat) :
    ∃ ξ : ℕ → ℝ → ℝ, (∀ n, (fine { h with hod := HOD.zheng05 {} false } 1e11 1e15 (fun m => m⁻¹) (fun m => m) (fun _ _ => 1) (fun _ _ => 1) (fun _ _ => 1) n).corr2hTracerX
      { isp := linSpl, us := fun _ _ _ _ => 0, hankel := fun f r => ∑ i ∈ range 5, Real.sin (i * r) * f i } junk .dblEllipsoid none = some (ξ n)) ∧
      ∀ i < h.nr, ∃ L, Tendsto (fun n => ξ n (h.rt i)) atTop (𝓝 L) := by
  have hD : ContinuousOn (fun m : ℝ => m⁻¹) (Set.Icc 1e11 1e15) := continuousOn_inv₀.mono fun m hm => by
    have := hm.1
    simp only [Set.mem_compl_iff, Set.mem_singleton_iff]
    intro h0
    rw [h0] at this
    norm_num at this
  have hpos : ∀ m ∈ Set.Icc (1e11:ℝ) 1e15, 0 < m⁻¹ * tracerNumber (HOD.zheng05 {} false) m := by
    intro m hm
    have hm0 : (0:ℝ) < m := lt_of_lt_of_le (by norm_num) hm.1
    refine mul_pos (inv_pos.mpr hm0) ?_
    change 0 < HOD.zhengCen {} m + HOD.zhengSat {} m
    have h1 : 0 < HOD.zhengCen {} m := by
      unfold HOD.zhengCen
      have := erf_lt_one (-((HOD.log10 m - ({} : HOD.ZhengP).M_min) / ({} : HOD.ZhengP).sig_logm))
      rw [erf_neg] at this
      linarith
    have h2 : 0 ≤ HOD.zhengSat {} m := by
      unfold HOD.zhengSat
      split_ifs with h
      · exact Real.rpow_nonneg (div_nonneg (by linarith) (by positivity)) _
      · exact le_rfl
    linarith
  have hok : HM.Ok { h with hod := HOD.zheng05 {} false } := { m := ho.m, k := ho.k, r := ho.r, nm0 := ho.nm0, nk0 := ho.nk0, nr0 := ho.nr0 }
  obtain ⟨ξ, h1, h2⟩ := C56_two_halo_tracer_excl { isp := linSpl, us := fun _ _ _ _ => 0, hankel := fun f r => ∑ i ∈ range 5, Real.sin (i * r) * f i }
    linSpl_lin linSpl_conv { h with hod := HOD.zheng05 {} false } hok 1e11 1e15
    (by norm_num) (by norm_num) rfl hρ (fun m => m⁻¹) (fun m => m) (fun _ _ => 1) (fun _ _ => 1) (fun _ _ => 1) hD continuousOn_id
    (fun _ => continuousOn_const) (zheng_continuous {} (by norm_num) false _ _ (by norm_num)).1 hpos junk .dblEllipsoid (by simp) _ _ rfl rfl
  exact ⟨ξ, h1, fun i hi => (h2 i hi).elim fun P hP => ⟨_, hP.2 (hankelCont_sum _ _)⟩⟩

end Halomod.HaloModel
