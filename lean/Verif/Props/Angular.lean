import Verif.Lemmas.SimpsonX3
import Verif.Spec.Angular
import Verif.Props.IntegrateCorr2
import Mathlib.Analysis.SpecialFunctions.Pow.Deriv

/-!
# C58: the angular correlation function converges to Limber's integral
-/
namespace Halomod.IntegrateCorr

open Finset MeasureTheory Filter Topology Halomod.HaloModel

theorem linspace_grid (a b : ℝ) (n i : ℕ) : linspace a b (n + 2) i = a + i * stp a b n := by
  unfold linspace
  split_ifs with h
  · have : i = n + 1 := by omega
    subst this
    rw [glast]
  · unfold stp; push_cast; ring

theorem xGrid_true (C : Cosmo) (a b : ℝ) (n : ℕ) : xGrid C true a b (n + 2) = fun i : ℕ => C.dist (a + i * stp a b n) * C.h := by
  funext i; simp [xGrid, zGrid, linspace_grid]

theorem xGrid_false (C : Cosmo) (a b x0 x1 : ℝ) (h0 : x0 = C.dist a * C.h) (h1 : x1 = C.dist b * C.h) (n : ℕ) :
    xGrid C false a b (n + 2) = fun i : ℕ => x0 + i * stp x0 x1 n := by
  funext i; simp [xGrid, linspace_grid, ← h0, ← h1]

theorem uGrid_eq (c d : ℝ) (n : ℕ) : uGrid c d (n + 2) = fun j : ℕ => (10:ℝ) ^ (c + j * stp c d n) := by
  funext i; simp [uGrid, linspace_grid]

theorem change_pow (c d : ℝ) : Change c d (fun t => (10:ℝ) ^ t) (fun t => Real.log 10 * (10:ℝ) ^ t) where
  der t _ := by
    have := (hasDerivAt_id t).const_rpow (a := (10:ℝ)) (by norm_num)
    convert! this using 1
    simp [mul_comm]
  cont := by
    refine continuousOn_const.mul (Continuous.continuousOn ?_)
    exact Continuous.rpow continuous_const continuous_id fun _ => .inl (by norm_num)
  pos t _ := mul_pos (Real.log_pos (by norm_num)) (by positivity)

theorem change_id (c d : ℝ) : Change c d (fun t => t) (fun _ => 1) where
  der t _ := hasDerivAt_id t
  cont := continuousOn_const
  pos _ _ := one_pos

theorem pow_subst (g : ℝ → ℝ) {c d : ℝ} (hcd : c < d) (hg : ContinuousOn g (Set.Ioi 0)) :
    ∫ t in c..d, g ((10:ℝ) ^ t) * (Real.log 10 * (10:ℝ) ^ t) = ∫ u in (10:ℝ) ^ c..(10:ℝ) ^ d, g u := by
  have hch := change_pow c d
  have := intervalIntegral.integral_comp_mul_deriv'' (f := fun t => (10:ℝ) ^ t) (f' := fun t => Real.log 10 * (10:ℝ) ^ t)
    (g := g) (a := c) (b := d) ?_ ?_ ?_ ?_
  · exact this
  · rw [Set.uIcc_of_le hcd.le]
    exact fun t ht => (hch.der t ht).continuousAt.continuousWithinAt
  · intro t ht
    rw [min_eq_left hcd.le, max_eq_right hcd.le] at ht
    exact (hch.der t ⟨ht.1.le, ht.2.le⟩).hasDerivWithinAt
  · rw [Set.uIcc_of_le hcd.le]; exact hch.cont
  · refine hg.mono ?_
    rintro _ ⟨t, -, rfl⟩
    exact Real.rpow_pos_of_pos (by norm_num) t

theorem tendsto_shift {f : ℕ × ℕ → ℝ} {l : Filter ℝ} (h : Tendsto (fun nm : ℕ × ℕ => f (nm.1 + 2, nm.2 + 2)) (atTop ×ˢ atTop) l) :
    Tendsto f (atTop ×ˢ atTop) l := by
  have e : (atTop ×ˢ atTop : Filter (ℕ × ℕ)) = map (fun nm : ℕ × ℕ => (nm.1 + 2, nm.2 + 2)) (atTop ×ˢ atTop) := by
    have h2 : map (fun n : ℕ => n + 2) atTop = atTop := Filter.map_add_atTop_eq_nat 2
    have := Filter.prod_map_map_eq (f₁ := (atTop : Filter ℕ)) (f₂ := (atTop : Filter ℕ)) (m₁ := fun n => n + 2) (m₂ := fun n => n + 2)
    rw [h2] at this
    exact this
  rw [e]
  exact tendsto_map'_iff.2 h

/-- the double integral with weights scaled by a converging factor. -/
theorem limber_core {a b c d θ κ : ℝ} {φ φ' W xi : ℝ → ℝ} {k : ℕ → ℝ} (hx : Change a b φ φ') (hab : a < b) (hcd : c < d)
    (hxi : ContinuousOn xi (Set.Ioi 0)) (hW : ContinuousOn W (Set.Icc a b)) (hk : Tendsto k atTop (𝓝 κ)) :
    Tendsto (fun nm : ℕ × ℕ => 2 * simpsonX (nm.1 + 2) (fun i => φ (a + i * stp a b nm.1)) fun i =>
        simpsonX (nm.2 + 2) (fun j => (10:ℝ) ^ (c + j * stp c d nm.2)) fun j =>
          xi (Real.sqrt (θ ^ 2 * φ (a + i * stp a b nm.1) ^ 2 + ((10:ℝ) ^ (c + j * stp c d nm.2)) ^ 2)) *
            (k nm.1 * W (a + i * stp a b nm.1)))
      (atTop ×ˢ atTop)
      (𝓝 (2 * ∫ z in a..b, Spec.lineOfSight xi θ ((10:ℝ) ^ c) ((10:ℝ) ^ d) (φ z) * (κ * W z) * φ' z)) := by
  have hφ : ContinuousOn φ (Set.Icc a b) := fun z hz => (hx.der z hz).continuousAt.continuousWithinAt
  have hF : ContinuousOn (Function.uncurry fun z t => xi (Real.sqrt (θ ^ 2 * φ z ^ 2 + ((10:ℝ) ^ t) ^ 2)) * W z)
      (Set.Icc a b ×ˢ Set.Icc c d) := by
    have hz : ContinuousOn (fun p : ℝ × ℝ => φ p.1) (Set.Icc a b ×ˢ Set.Icc c d) :=
      hφ.comp continuous_fst.continuousOn fun p hp => hp.1
    have hw : ContinuousOn (fun p : ℝ × ℝ => W p.1) (Set.Icc a b ×ˢ Set.Icc c d) :=
      hW.comp continuous_fst.continuousOn fun p hp => hp.1
    have ht : Continuous fun p : ℝ × ℝ => (10:ℝ) ^ p.2 := Continuous.rpow continuous_const continuous_snd fun _ => .inl (by norm_num)
    refine ContinuousOn.mul (hxi.comp ?_ ?_) hw
    · exact Real.continuous_sqrt.comp_continuousOn ((continuousOn_const.mul (hz.pow 2)).add (ht.continuousOn.pow 2))
    · intro p _
      have : (0:ℝ) < (10:ℝ) ^ p.2 := by positivity
      exact Real.sqrt_pos.2 (by positivity)
  have main := hx.double hab (change_pow c d) hcd hF
  have hlim : ∫ z in a..b, (∫ t in c..d, xi (Real.sqrt (θ ^ 2 * φ z ^ 2 + ((10:ℝ) ^ t) ^ 2)) * W z * (Real.log 10 * (10:ℝ) ^ t)) * φ' z =
      ∫ z in a..b, Spec.lineOfSight xi θ ((10:ℝ) ^ c) ((10:ℝ) ^ d) (φ z) * W z * φ' z := by
    congr 1
    funext z
    congr 1
    have h1 : ∀ t : ℝ, xi (Real.sqrt (θ ^ 2 * φ z ^ 2 + ((10:ℝ) ^ t) ^ 2)) * W z * (Real.log 10 * (10:ℝ) ^ t) =
        (fun u => xi (Real.sqrt (u ^ 2 + (θ * φ z) ^ 2))) ((10:ℝ) ^ t) * (Real.log 10 * (10:ℝ) ^ t) * W z := by
      intro t
      simp only
      rw [show θ ^ 2 * φ z ^ 2 + ((10:ℝ) ^ t) ^ 2 = ((10:ℝ) ^ t) ^ 2 + (θ * φ z) ^ 2 by ring]
      ring
    simp only [h1]
    rw [intervalIntegral.integral_mul_const]
    have hps := pow_subst (fun u => xi (Real.sqrt (u ^ 2 + (θ * φ z) ^ 2))) hcd ?_
    · rw [hps]; rfl
    · refine hxi.comp (Continuous.continuousOn (by fun_prop)) ?_
      intro u hu
      have : (0:ℝ) < u := hu
      exact Real.sqrt_pos.2 (by positivity)
  rw [hlim] at main
  have hk' : Tendsto (fun nm : ℕ × ℕ => k nm.1) (atTop ×ˢ atTop) (𝓝 κ) := hk.comp tendsto_fst
  have := (hk'.mul main).const_mul 2
  convert! this using 1
  · funext nm
    congr 1
    rw [← simpsonX_mul]
    congr 1
    funext i
    rw [← simpsonX_mul]
    congr 1
    funext j
    ring
  · congr 2
    rw [← intervalIntegral.integral_const_mul]
    congr 1
    funext z
    ring

/-- the factor by which the normalisation check multiplies a distribution, on a grid. -/
noncomputable def factor (check : Bool) (p : Dist) (n : ℕ) (g : ℕ → ℝ) : ℝ :=
  open Classical in if check = true ∧ ¬ close1 (integ p n g) then (integ p n g)⁻¹ else 1

theorem checkP_factor (check : Bool) (p : Dist) (n : ℕ) (g : ℕ → ℝ) (z : ℝ) :
    (if check then checkP p n g else p).f z = factor check p n g * p.f z := by
  classical
  unfold factor checkP
  cases check
  · simp
  · by_cases h : close1 (integ p n g)
    · simp [h]
    · simp [h, div_eq_inv_mul]

theorem factor_tendsto {check : Bool} {p : Dist} {a b : ℝ} (hab : a < b) (hp : ContinuousOn p.f (Set.Icc a b))
    (hc : Spec.Checkable check p a b) :
    ∃ κ, Tendsto (fun n : ℕ => factor check p (n + 2) fun i => a + i * stp a b n) atTop (𝓝 κ) ∧
      ∀ z, Spec.normed check p.f a b z = κ * p.f z := by
  classical
  cases check with
  | false => exact ⟨1, by simp [factor], fun z => by simp [Spec.normed]⟩
  | true =>
  obtain ⟨hne, htol⟩ := hc.ok rfl
  have hint : Tendsto (fun n : ℕ => integ p (n + 2) fun i => a + i * stp a b n) atTop (𝓝 (∫ t in a..b, p.f t)) := by
    unfold integ
    rcases hI : p.integral with _ | I
    · have := (change_id a b).tendsto hab hp
      simpa using this
    · simp only [show ∀ n, n + 2 - 1 = n + 1 from fun n => by omega, glast, Nat.cast_zero, zero_mul, add_zero]
      rw [hc.method I hI]
      exact tendsto_const_nhds
  have htol' : (1e-8 : ℝ) + 0.01 * |(1:ℝ)| = 0.01 + 1e-8 := by norm_num
  have habs : Tendsto (fun n : ℕ => |(integ p (n + 2) fun i => a + i * stp a b n) - 1|) atTop (𝓝 |(∫ t in a..b, p.f t) - 1|) :=
    (hint.sub_const 1).abs
  rcases lt_or_gt_of_ne htol with h | h
  · refine ⟨1, tendsto_const_nhds.congr' ?_, fun z => ?_⟩
    · filter_upwards [habs.eventually (gt_mem_nhds h)] with n hn
      unfold factor close1
      rw [if_neg]
      rw [htol']
      exact fun hh => hh.2 hn.le
    · unfold Spec.normed
      rw [if_neg (fun hh => absurd hh.2 (not_lt.2 h.le)), one_mul]
  · refine ⟨(∫ t in a..b, p.f t)⁻¹, (hint.inv₀ hne).congr' ?_, fun z => ?_⟩
    · filter_upwards [habs.eventually (lt_mem_nhds h)] with n hn
      unfold factor close1
      rw [if_pos]
      rw [htol']
      exact ⟨rfl, not_le.2 hn⟩
    · unfold Spec.normed
      rw [if_pos ⟨rfl, h⟩, div_eq_inv_mul]

/-- C58: with distributions in redshift, the angular correlation function tends, as the numbers of redshifts and of
line-of-sight separations grow (at any relative rate), to Limber's integral: twice the integral over redshift of the
two densities, divided by `dx/dz`, times the correlation integrated along the line of sight; the densities are normalised
first when the check asks for it. -/
theorem C58_angular_redshift (C : Cosmo) (A : AngArgs) (xi : ℝ → ℝ) (p q : Dist) (theta : ℝ) (hA : A.pOfZ = true)
    (hz : A.zmin < A.zmax) (hu : A.logu_min < A.logu_max)
    (hd : ∀ z ∈ Set.Icc A.zmin A.zmax, HasDerivAt (fun z => C.dist z * C.h) (C.dxdz z) z)
    (hdc : ContinuousOn C.dxdz (Set.Icc A.zmin A.zmax)) (hpos : ∀ z ∈ Set.Icc A.zmin A.zmax, 0 < C.dxdz z)
    (hxi : ContinuousOn xi (Set.Ioi 0)) (hp : ContinuousOn p.f (Set.Icc A.zmin A.zmax))
    (hq : ContinuousOn q.f (Set.Icc A.zmin A.zmax))
    (hcp : Spec.Checkable A.check p A.zmin A.zmax) (hcq : Spec.Checkable A.check q A.zmin A.zmax) :
    Tendsto (fun nm : ℕ × ℕ => angular C { A with znum := nm.1, unum := nm.2 } xi p (some q) theta) (atTop ×ˢ atTop)
      (𝓝 (2 * ∫ z in A.zmin..A.zmax, Spec.normed A.check p.f A.zmin A.zmax z * Spec.normed A.check q.f A.zmin A.zmax z / C.dxdz z *
        Spec.lineOfSight xi theta ((10:ℝ) ^ A.logu_min) ((10:ℝ) ^ A.logu_max) (C.dist z * C.h))) := by
  obtain ⟨κ, hκ, hκ'⟩ := factor_tendsto hz hp hcp
  obtain ⟨μ, hμ, hμ'⟩ := factor_tendsto hz hq hcq
  have hch : Change A.zmin A.zmax (fun z => C.dist z * C.h) C.dxdz := ⟨hd, hdc, hpos⟩
  have core := limber_core (θ := theta) (W := fun z => p.f z * q.f z / C.dxdz z ^ 2) hch hz hu hxi
    ((hp.mul hq).div (hdc.pow 2) fun z hz => (pow_pos (hpos z hz) 2).ne') (hκ.mul hμ)
  refine tendsto_shift ?_
  convert! core using 1
  · funext nm
    have hg : ({ A with znum := nm.1 + 2, unum := nm.2 + 2 } : AngArgs).grid C = fun i : ℕ => A.zmin + i * stp A.zmin A.zmax nm.1 := by
      funext i; simp [AngArgs.grid, hA, zGrid, linspace_grid]
    simp only [angular, hg]
    simp only [hA, if_true, xGrid_true, uGrid_eq, checkP_factor]
    congr 2
    funext i
    congr 1
    funext j
    ring
  · congr 2
    refine intervalIntegral.integral_congr fun z hz' => ?_
    rw [Set.uIcc_of_le hz.le] at hz'
    have := (hpos z hz').ne'
    simp only [hκ', hμ']
    field_simp

/-- C58: with distributions in comoving distance, the limit is twice the integral over distance of the two densities
times the correlation integrated along the line of sight. -/
theorem C58_angular_distance (C : Cosmo) (A : AngArgs) (xi : ℝ → ℝ) (p q : Dist) (theta : ℝ) (hA : A.pOfZ = false)
    (hu : A.logu_min < A.logu_max) (x0 x1 : ℝ) (h0 : x0 = C.dist A.zmin * C.h) (h1 : x1 = C.dist A.zmax * C.h) (hx : x0 < x1)
    (hxi : ContinuousOn xi (Set.Ioi 0)) (hp : ContinuousOn p.f (Set.Icc x0 x1)) (hq : ContinuousOn q.f (Set.Icc x0 x1))
    (hcp : Spec.Checkable A.check p x0 x1) (hcq : Spec.Checkable A.check q x0 x1) :
    Tendsto (fun nm : ℕ × ℕ => angular C { A with znum := nm.1, unum := nm.2 } xi p (some q) theta) (atTop ×ˢ atTop)
      (𝓝 (2 * ∫ x in x0..x1, Spec.normed A.check p.f x0 x1 x * Spec.normed A.check q.f x0 x1 x *
        Spec.lineOfSight xi theta ((10:ℝ) ^ A.logu_min) ((10:ℝ) ^ A.logu_max) x)) := by
  obtain ⟨κ, hκ, hκ'⟩ := factor_tendsto hx hp hcp
  obtain ⟨μ, hμ, hμ'⟩ := factor_tendsto hx hq hcq
  have core := limber_core (θ := theta) (W := fun z => p.f z * q.f z) (change_id x0 x1) hx hu hxi (hp.mul hq) (hκ.mul hμ)
  refine tendsto_shift ?_
  convert! core using 1
  · funext nm
    have hg : ({ A with znum := nm.1 + 2, unum := nm.2 + 2 } : AngArgs).grid C = fun i : ℕ => x0 + i * stp x0 x1 nm.1 := by
      funext i; simp [AngArgs.grid, hA, xGrid_false C _ _ x0 x1 h0 h1]
    simp only [angular, hg]
    simp only [hA, Bool.false_eq_true, if_false, xGrid_false C _ _ x0 x1 h0 h1, uGrid_eq, checkP_factor]
    congr 2
    funext i
    congr 1
    funext j
    ring
  · congr 2
    refine intervalIntegral.integral_congr fun z _ => ?_
    simp only [hκ', hμ']
    ring

/-- C58: leaving out the second distribution means using the first one twice. -/
theorem C58_second_defaults_to_first (C : Cosmo) (A : AngArgs) (xi : ℝ → ℝ) (p : Dist) (theta : ℝ) :
    angular C A xi p none theta = angular C A xi p (some p) theta := rfl

/-- a case that meets all hypotheses: a linear distance-redshift relation, a power-law correlation, and a density in
redshift that is constant but not normalised, so that the check renormalises it. -/
example : ∃ L : ℝ, Tendsto (fun nm : ℕ × ℕ => angular (linearCosmo 0.7 100 3000)
      { zmin := 0.2, zmax := 0.4, logu_min := -1, logu_max := 2, znum := nm.1, unum := nm.2 } (fun r => r⁻¹)
      ⟨fun _ => 1, none⟩ (some ⟨fun _ => 1, none⟩) 0.01) (atTop ×ˢ atTop) (𝓝 L) := by
  have hc : Spec.Checkable true ⟨fun _ => 1, none⟩ 0.2 0.4 := by
    refine ⟨by simp, fun _ => ?_⟩
    simp only [intervalIntegral.integral_const]
    norm_num
  refine ⟨_, C58_angular_redshift (linearCosmo 0.7 100 3000) { zmin := 0.2, zmax := 0.4, logu_min := -1, logu_max := 2 }
    (fun r => r⁻¹) ⟨fun _ => 1, none⟩ ⟨fun _ => 1, none⟩ 0.01 rfl (by norm_num) (by norm_num) (fun z _ => ?_)
    continuousOn_const (fun z _ => by norm_num [linearCosmo]) (continuousOn_inv₀.mono fun r hr => ne_of_gt hr)
    continuousOn_const continuousOn_const hc hc⟩
  have : HasDerivAt (fun z : ℝ => (100 + 3000 * z) * 0.7) (3000 * 1 * 0.7) z :=
    (((hasDerivAt_id z).const_mul 3000).const_add 100).mul_const 0.7
  simpa [linearCosmo] using this

end Halomod.IntegrateCorr
