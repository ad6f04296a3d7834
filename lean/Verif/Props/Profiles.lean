import Verif.Lemmas.Profiles

/-!
# C23–C27: mass/radius conversions, normalisation, density, Fourier transform, CDF
-/
namespace Halomod.Profiles

open MeasureTheory Set Filter Topology

noncomputable section

/-- A fiducial environment used to show that hypotheses are satisfiable. -/
def fidEnv : Env :=
  { deltaHalo := 200, meanDens := 2, meanDens0 := 1, cmRel := fun _ => 5, nuFn := fun _ => 1, etaBloat := 0 }

lemma fidEnv_good : fidEnv.Good :=
  ⟨by norm_num [fidEnv], by norm_num [fidEnv], by norm_num [fidEnv], fun _ _ => by norm_num [fidEnv]⟩

/-! ### C23 -/

lemma dens_pos {e : Env} (he : e.Good) (b : Bool) : 0 < (if b then e.meanDens else e.meanDens0) := by
  cases b
  · simpa using he.dens0_pos
  · simpa using he.dens_pos

/-- C23: mass → radius → mass is the identity, at either epoch. -/
theorem C23_mass_radius_mass {e : Env} (he : e.Good) (b : Bool) {m : ℝ} (hm : 0 ≤ m) :
    e.radiusToMass (e.massToRadius m b) b = m := by
  have hd := dens_pos he b
  have hD := he.delta_pos
  have hpi := Real.pi_pos
  unfold Env.radiusToMass Env.massToRadius
  generalize (if b then e.meanDens else e.meanDens0) = d at hd ⊢
  have h0 : 0 ≤ 3 * m / (4 * Real.pi * e.deltaHalo * d) := by positivity
  have : ((3 * m / (4 * Real.pi * e.deltaHalo * d)) ^ ((1.0 : ℝ) / 3.0)) ^ 3
      = 3 * m / (4 * Real.pi * e.deltaHalo * d) := by
    rw [← Real.rpow_natCast, ← Real.rpow_mul h0]
    norm_num
  rw [this]
  field_simp

/-- C23: radius → mass → radius is the identity, at either epoch. -/
theorem C23_radius_mass_radius {e : Env} (he : e.Good) (b : Bool) {r : ℝ} (hr : 0 ≤ r) :
    e.massToRadius (e.radiusToMass r b) b = r := by
  have hd := dens_pos he b
  have hD := he.delta_pos
  have hpi := Real.pi_pos
  unfold Env.radiusToMass Env.massToRadius
  generalize (if b then e.meanDens else e.meanDens0) = d at hd ⊢
  have : 3 * (4 * Real.pi * r ^ 3 * e.deltaHalo * d / 3) / (4 * Real.pi * e.deltaHalo * d) = r ^ 3 := by
    field_simp
  rw [this, ← Real.rpow_natCast, ← Real.rpow_mul hr]
  norm_num

/-- C23: the radius is positive and strictly increasing in mass; mean density inside it is
`delta_halo` times the background density at the chosen epoch. -/
theorem C23_overdensity {e : Env} (he : e.Good) (b : Bool) {m : ℝ} (hm : 0 < m) :
    0 < e.massToRadius m b ∧
    m / (4 / 3 * Real.pi * e.massToRadius m b ^ 3)
      = e.deltaHalo * (if b then e.meanDens else e.meanDens0) := by
  have hd := dens_pos he b
  have hD := he.delta_pos
  have hpi := Real.pi_pos
  have hR : 0 < e.massToRadius m b := by
    unfold Env.massToRadius
    generalize (if b then e.meanDens else e.meanDens0) = d at hd ⊢
    positivity
  refine ⟨hR, ?_⟩
  have := C23_mass_radius_mass he b hm.le
  unfold Env.radiusToMass at this
  conv_lhs => rw [← this]
  have hR' : e.massToRadius (4 * Real.pi * e.massToRadius m b ^ 3 * e.deltaHalo *
    (if b then e.meanDens else e.meanDens0) / 3) b = e.massToRadius m b := by rw [this]
  rw [hR']
  generalize (if b then e.meanDens else e.meanDens0) = d at hd ⊢
  field_simp

theorem C23_radius_strictMono {e : Env} (he : e.Good) (b : Bool) {m m' : ℝ} (hm : 0 ≤ m) (h : m < m') :
    e.massToRadius m b < e.massToRadius m' b := by
  have hd := dens_pos he b
  have hD := he.delta_pos
  have hpi := Real.pi_pos
  unfold Env.massToRadius
  generalize (if b then e.meanDens else e.meanDens0) = d at hd ⊢
  apply Real.rpow_lt_rpow (by positivity) _ (by norm_num)
  gcongr

/-- Profiles whose closed forms are what they claim to be and which do not override the
mass–concentration chain.  Proved of NFW, Hernquist, Constant and CoredNFW below. -/
structure Shape.Exact (s : Shape) : Prop where
  cm_plain : s.cmOf = id
  rs_plain : s.rsFac = fun _ => 1
  atZ : s.rsAtZ = true
  noC : s.rsNoC = true
  mass : ∀ c, 0 < c → s.h c = massInt s.f c
  four : ∀ K c, 0 < K → 0 < c → s.p K c = fourierInt s.f K c
  f_pos : ∀ x, 0 < x → 0 < s.f x
  f_anti : ∀ x y, 0 < x → x ≤ y → s.f y ≤ s.f x
  integ : ∀ c, 0 < c → IntervalIntegrable (fun x => x ^ 2 * s.f x) volume 0 c

/-- C23: scale radius × concentration = halo radius (without bloating), at either epoch; with
bloating the product is the halo radius times `nu^(eta/2)`. -/
theorem C23_scale_radius_partial {s : Shape} (hs : s.Exact) {e : Env} (he : e.Good) (b : Bool) {m : ℝ}
    (hm : 0 < m) :
    ∃ rs, s.scaleRadius e m b = .ok rs ∧
      rs * s.cm e m = e.massToRadius m b * Real.sqrt (e.nuFn m) ^ e.etaBloat ∧
      (e.etaBloat = 0 → rs * s.cm e m = e.massToRadius m b) := by
  have hc : 0 < s.cm e m := by
    unfold Shape.cm
    rw [hs.cm_plain]
    exact he.cm_pos m hm
  have hrs : s.scaleRadius e m b = .ok (e.rsBase m (s.cm e m) b * s.rsFac (s.cm e m)) := by
    simp [Shape.scaleRadius, hs.atZ, hs.noC]
  have h1 : (e.rsBase m (s.cm e m) b * s.rsFac (s.cm e m)) * s.cm e m
      = e.massToRadius m b * Real.sqrt (e.nuFn m) ^ e.etaBloat := by
    rw [hs.rs_plain, Env.rsBase]
    field_simp
  refine ⟨_, hrs, h1, fun h0 => ?_⟩
  rw [h1, h0, Real.rpow_zero, mul_one]

/-- C23, finding: `scale_radius` raises `TypeError` for every Moore profile (its `_rs_from_m` does not
accept `at_z`). -/
theorem C23_moore_scale_radius (p : ℝ → ℝ → ℝ) (e : Env) (m : ℝ) (b : Bool) :
    (moore p).scaleRadius e m b = .error .typeError := rfl

/-- C23, finding: for Moore with the default concentration the dimensionless radius of the virial radius
is `(c/1.7)^0.9` instead of the concentration `c` that the profile uses: the conversion is applied twice. -/
theorem C23_moore_virial (p : ℝ → ℝ → ℝ) {e : Env} (he : e.Good) (hb : e.etaBloat = 0) {m : ℝ} (hm : 0 < m) :
    ∃ c rs x, (moore p).rVars e (e.massToRadius m) (some m) Option.none .r = .ok (c, rs, x) ∧
      c = (e.cmRel m / 1.7) ^ (0.9 : ℝ) ∧ x = (c / 1.7) ^ (0.9 : ℝ) ∧ (1 ≤ c → x < c) := by
  have hcm := he.cm_pos m hm
  have hR := (C23_overdensity he false hm).1
  have hc : 0 < (e.cmRel m / 1.7) ^ (0.9 : ℝ) := by positivity
  refine ⟨_, _, _, rfl, rfl, ?_, ?_⟩
  · simp only [Shape.rs, moore, Env.rsBase, Shape.cm, hb, Option.getD_none, Real.rpow_zero, mooreC, mul_one]
    have hc2 : 0 < ((e.cmRel m / 1.7) ^ (0.9 : ℝ) / 1.7) ^ (0.9 : ℝ) := by positivity
    field_simp
  · simp only [Shape.rs, moore, Env.rsBase, Shape.cm, hb, Option.getD_none, Real.rpow_zero, mooreC, mul_one]
    generalize (e.cmRel m / 1.7) ^ (0.9 : ℝ) = c at hc
    have hc2 : 0 < (c / 1.7) ^ (0.9 : ℝ) := by positivity
    have h1 : e.massToRadius m / (e.massToRadius m / c * (c / (c / 1.7) ^ (0.9 : ℝ))) = (c / 1.7) ^ (0.9 : ℝ) := by
      field_simp
    rw [h1]
    intro hc1
    calc (c / 1.7) ^ (0.9 : ℝ) < c ^ (0.9 : ℝ) :=
          Real.rpow_lt_rpow (by positivity) (div_lt_self hc (by norm_num)) (by norm_num)
      _ ≤ c ^ (1 : ℝ) := Real.rpow_le_rpow_of_exponent_le hc1 (by norm_num)
      _ = c := Real.rpow_one c

example : fidEnv.Good ∧ fidEnv.etaBloat = 0 ∧ (0 : ℝ) < 1e13 := ⟨fidEnv_good, rfl, by norm_num⟩

/-- C23: `virial_velocity` raises exactly when neither argument is given, prefers the mass, and gives the
same value from a mass and from the corresponding radius. -/
theorem C23_virial_velocity {e : Env} (he : e.Good) {m : ℝ} (hm : 0 ≤ m) (r : Option ℝ) :
    e.virialVelocity Option.none Option.none = .error .valueError ∧
    e.virialVelocity (some m) r = e.virialVelocity (some m) Option.none ∧
    e.virialVelocity Option.none (some (e.massToRadius m)) = e.virialVelocity (some m) r := by
  refine ⟨rfl, rfl, ?_⟩
  simp only [Env.virialVelocity]
  rw [C23_mass_radius_mass he false hm]

/-! ### C24 -/

/-- C24: NFW. -/
theorem C24_nfw {c : ℝ} (hc : 0 < c) : nfw.h c = massInt nfw.f c := nfw_massInt hc
/-- C24: Hernquist. -/
theorem C24_hernquist {c : ℝ} (hc : 0 < c) : hernquist.h c = massInt hernquist.f c := her_massInt hc
/-- C24: Moore. -/
theorem C24_moore (p : ℝ → ℝ → ℝ) {c : ℝ} (hc : 0 < c) : (moore p).h c = massInt (moore p).f c :=
  moore_massInt hc
/-- C24: Constant. -/
theorem C24_constant (c : ℝ) : constant.h c = massInt constant.f c := const_massInt
/-- C24: CoredNFW. -/
theorem C24_cored {c : ℝ} (hc : 0 < c) : coredNfw.h c = massInt coredNfw.f c := cored_massInt hc

lemma cont_integ {f g : ℝ → ℝ} (hg : ContinuousOn g (Ici 0)) (h : ∀ x, 0 ≤ x → x ^ 2 * f x = g x) {c : ℝ}
    (hc : 0 < c) : IntervalIntegrable (fun x => x ^ 2 * f x) volume 0 c := by
  refine ContinuousOn.intervalIntegrable_of_Icc hc.le ?_
  refine (hg.mono Icc_subset_Ici_self).congr fun x hx => h x hx.1

/-- The four analytic profiles meet the hypotheses used below. -/
theorem C24_nfw_exact : nfw.Exact where
  cm_plain := rfl
  rs_plain := rfl
  atZ := rfl
  noC := rfl
  mass _ hc := nfw_massInt hc
  four _ _ hK hc := nfw_fourierInt hK hc
  f_pos x hx := by simp only [nfw, nfwF]; positivity
  f_anti x y hx hxy := by
    simp only [nfw, nfwF]
    have : 0 < y := by linarith
    gcongr
  integ c hc := cont_integ (g := fun x => x / (1 + x) ^ 2)
    (ContinuousOn.div (by fun_prop) (by fun_prop) fun x (hx : 0 ≤ x) => by positivity)
    (fun x hx => nfw_sq hx) hc

theorem C24_hernquist_exact : hernquist.Exact where
  cm_plain := rfl
  rs_plain := rfl
  atZ := rfl
  noC := rfl
  mass _ hc := her_massInt hc
  four _ _ hK hc := her_fourierInt hK hc
  f_pos x hx := by simp only [hernquist, herF]; positivity
  f_anti x y hx hxy := by
    simp only [hernquist, herF]
    have : 0 < y := by linarith
    gcongr
  integ c hc := cont_integ (g := fun x => x / (1 + x) ^ 3)
    (ContinuousOn.div (by fun_prop) (by fun_prop) fun x (hx : 0 ≤ x) => by positivity)
    (fun x hx => her_sq hx) hc

theorem C24_constant_exact : constant.Exact where
  cm_plain := rfl
  rs_plain := rfl
  atZ := rfl
  noC := rfl
  mass _ _ := const_massInt
  four _ _ hK hc := const_fourierInt hK hc
  f_pos x hx := by norm_num [constant, constF]
  f_anti x y hx hxy := by simp [constant, constF]
  integ c hc := cont_integ (g := fun x => x ^ 2 * 1.0) (by fun_prop) (fun x hx => rfl) hc

theorem C24_cored_exact : coredNfw.Exact where
  cm_plain := rfl
  rs_plain := rfl
  atZ := rfl
  noC := rfl
  mass _ hc := cored_massInt hc
  four _ _ hK hc := cored_fourierInt hK hc
  f_pos x hx := by simp only [coredNfw, coredF]; positivity
  f_anti x y hx hxy := by
    simp only [coredNfw, coredF]
    have : 0 < y := by linarith
    gcongr
  integ c hc := cont_integ (g := fun x => x ^ 2 * coredF x)
    (ContinuousOn.mul (by fun_prop) (by
      unfold coredF
      refine (continuousOn_const.div (by fun_prop) ?_).div (by fun_prop) ?_
      · intro x hx
        have : (0 : ℝ) ≤ x := hx
        norm_num
        linarith
      · intro x hx
        have : (0 : ℝ) ≤ x := hx
        positivity)) (fun x hx => rfl) hc

/-- `∫₀^{c·rs} 4π r² f(r/rs) dr = 4π rs³ ∫₀^c x² f(x) dx`. -/
lemma enclosed_scaled (f : ℝ → ℝ) {c rs R : ℝ} (hrs : 0 < rs) (hR : R = c * rs) (a : ℝ) :
    ∫ r in (0 : ℝ)..R, 4 * Real.pi * r ^ 2 * (f (r / rs) * a)
      = 4 * Real.pi * rs ^ 3 * a * massInt f c := by
  subst hR
  have h := intervalIntegral.integral_comp_div (a := 0) (b := c * rs)
    (fun x => 4 * Real.pi * (rs * x) ^ 2 * (f x * a)) hrs.ne'
  have h2 : ∀ r : ℝ, rs * (r / rs) = r := fun r => by field_simp
  simp only [h2] at h
  rw [h, zero_div, mul_div_assoc, div_self hrs.ne', mul_one, massInt, smul_eq_mul,
    ← intervalIntegral.integral_const_mul, ← intervalIntegral.integral_const_mul]
  congr 1
  ext x
  ring

/-- Facts shared by the theorems below: with no bloating, `r_s = R/c > 0`. -/
lemma rs_eq {s : Shape} (hs : s.Exact) {e : Env} (hb : e.etaBloat = 0) (m c : ℝ) :
    s.rs e m c = e.massToRadius m / c := by
  simp [Shape.rs, hs.rs_plain, Env.rsBase, hb]

lemma cm_pos' {s : Shape} (hs : s.Exact) {e : Env} (he : e.Good) {m : ℝ} (hm : 0 < m) : 0 < s.cm e m := by
  unfold Shape.cm
  rw [hs.cm_plain]
  exact he.cm_pos m hm

/-- Concentration in effect: the given one or that of the relation. -/
def Shape.conc (s : Shape) (e : Env) (m : ℝ) (c : Option ℝ) : ℝ := c.getD (s.cm e m)

lemma conc_pos {s : Shape} (hs : s.Exact) {e : Env} (he : e.Good) {m : ℝ} (hm : 0 < m) {c : Option ℝ}
    (hc : ∀ v, c = some v → 0 < v) : 0 < s.conc e m c := by
  unfold Shape.conc
  cases c with
  | none => exact cm_pos' hs he hm
  | some v => exact hc v rfl

lemma massInt_pos {s : Shape} (hs : s.Exact) {c : ℝ} (hc : 0 < c) : 0 < massInt s.f c := by
  unfold massInt
  apply intervalIntegral.intervalIntegral_pos_of_pos_on (hs.integ c hc) _ hc
  intro x hx
  have := hs.f_pos x hx.1
  have := hx.1
  positivity

/-- C24: with `norm="m"` the density integrated over the halo volume is exactly one, for every mass and
every concentration. -/
theorem C24_norm_m {s : Shape} (hs : s.Exact) {e : Env} (he : e.Good) (hb : e.etaBloat = 0) {m : ℝ}
    (hm : 0 < m) {c : Option ℝ} (hc : ∀ v, c = some v → 0 < v) :
    enclosed (fun r => val (s.rho e r m .m c)) (e.massToRadius m) = 1 := by
  have hR := (C23_overdensity he false hm).1
  have hcp := conc_pos hs he hm hc
  have hM := massInt_pos hs hcp
  have hpi := Real.pi_pos
  have hrs : 0 < e.massToRadius m / s.conc e m c := by positivity
  have hRc : e.massToRadius m = s.conc e m c * (e.massToRadius m / s.conc e m c) := by field_simp
  unfold enclosed
  rw [integral_congr_Ioc hR.le (g := fun r => 4 * Real.pi * r ^ 2 *
    (s.f (r / (e.massToRadius m / s.conc e m c)) * (1.0 / (4 * Real.pi *
      (e.massToRadius m / s.conc e m c) ^ 3 * s.h (s.conc e m c)))))]
  · rw [enclosed_scaled s.f hrs hRc, hs.mass _ hcp]
    generalize e.massToRadius m / s.conc e m c = rs at *
    have : (1.0 : ℝ) = 1 := by norm_num
    rw [this]
    field_simp
  · intro r hr
    have hx : r / (e.massToRadius m / s.conc e m c) ≤ s.conc e m c := by
      rw [div_le_iff₀ hrs, ← hRc]
      exact hr.2
    have hr1 : s.rho e r m .m c = .ok (if s.conc e m c < r / s.rs e m (s.conc e m c) then 0.0 else
        s.f (r / s.rs e m (s.conc e m c)) * (1.0 / (4 * Real.pi *
          (s.rs e m (s.conc e m c)) ^ 3 * s.h (s.conc e m c)))) := rfl
    beta_reduce
    rw [hr1, rs_eq hs hb, if_neg (not_lt.mpr hx)]
    rfl

/-- C24/C25, finding: with `norm=None` the enclosed mass is `m` times the ratio of the mean density at `z`
to that today — the amplitude uses the density at `z`, the radius the one today. -/
theorem C25_norm_none_partial {s : Shape} (hs : s.Exact) {e : Env} (he : e.Good) (hb : e.etaBloat = 0) {m : ℝ}
    (hm : 0 < m) {c : Option ℝ} (hc : ∀ v, c = some v → 0 < v) :
    enclosed (fun r => val (s.rho e r m .none c)) (e.massToRadius m) = m * (e.meanDens / e.meanDens0) := by
  have hR := (C23_overdensity he false hm).1
  have hcp := conc_pos hs he hm hc
  have hM := massInt_pos hs hcp
  have hpi := Real.pi_pos
  have hd0 := he.dens0_pos
  have hdl := he.delta_pos
  have hrs : 0 < e.massToRadius m / s.conc e m c := by positivity
  have hRc : e.massToRadius m = s.conc e m c * (e.massToRadius m / s.conc e m c) := by field_simp
  unfold enclosed
  rw [integral_congr_Ioc hR.le (g := fun r => 4 * Real.pi * r ^ 2 *
    (s.f (r / (e.massToRadius m / s.conc e m c)) *
      (s.conc e m c ^ 3 * e.deltaHalo * e.meanDens / (3 * s.h (s.conc e m c)))))]
  · rw [enclosed_scaled s.f hrs hRc, hs.mass _ hcp]
    have h3 := C23_mass_radius_mass he false hm.le
    simp only [Env.radiusToMass, Bool.false_eq_true, if_false] at h3
    generalize s.conc e m c = c at *
    generalize e.massToRadius m = R at *
    have hm' : m = 4 * Real.pi * R ^ 3 * e.deltaHalo * e.meanDens0 / 3 := h3.symm
    rw [hm']
    field_simp
  · intro r hr
    have hx : r / (e.massToRadius m / s.conc e m c) ≤ s.conc e m c := by
      rw [div_le_iff₀ hrs, ← hRc]
      exact hr.2
    have hr1 : s.rho e r m .none c = .ok (if s.conc e m c < r / s.rs e m (s.conc e m c) then 0.0 else
        s.f (r / s.rs e m (s.conc e m c)) *
          (s.conc e m c ^ 3 * e.deltaHalo * e.meanDens / (3 * s.h (s.conc e m c)))) := rfl
    beta_reduce
    rw [hr1, rs_eq hs hb, if_neg (not_lt.mpr hx)]
    rfl

/-- C25: at redshift zero (or whenever the two densities agree) `norm=None` integrates to the halo mass;
the full property fails exactly when they differ. -/
theorem C25_norm_none_iff {s : Shape} (hs : s.Exact) {e : Env} (he : e.Good) (hb : e.etaBloat = 0) {m : ℝ}
    (hm : 0 < m) {c : Option ℝ} (hc : ∀ v, c = some v → 0 < v) :
    enclosed (fun r => val (s.rho e r m .none c)) (e.massToRadius m) = m ↔ e.meanDens = e.meanDens0 := by
  rw [C25_norm_none_partial hs he hb hm hc]
  have hd0 := he.dens0_pos
  constructor
  · intro h
    have := mul_left_cancel₀ hm.ne' (h.trans (mul_one m).symm)
    rwa [div_eq_one_iff_eq hd0.ne'] at this
  · intro h
    rw [h, div_self hd0.ne', mul_one]

/-- C25: the density vanishes outside the halo radius, whatever the normalisation. -/
theorem C25_truncated {s : Shape} (hs : s.Exact) {e : Env} (he : e.Good) (hb : e.etaBloat = 0) {m : ℝ}
    (hm : 0 < m) {c : Option ℝ} (hc : ∀ v, c = some v → 0 < v) {norm : Norm} (hn : norm ≠ .other) {r : ℝ}
    (hr : e.massToRadius m < r) : s.rho e r m norm c = .ok 0 := by
  have hR := (C23_overdensity he false hm).1
  have hcp := conc_pos hs he hm hc
  have hx : s.conc e m c < r / s.rs e m (s.conc e m c) := by
    rw [rs_eq hs hb, lt_div_iff₀ (by positivity)]
    field_simp
    exact hr
  have key : ∀ a, s.rhoS e (s.conc e m c) (s.rs e m (s.conc e m c)) norm = .ok a →
      s.rho e r m norm c = .ok (if s.conc e m c < r / s.rs e m (s.conc e m c) then 0.0 else
        s.f (r / s.rs e m (s.conc e m c)) * a) := by
    intro a ha
    show (do let a ← s.rhoS e (s.conc e m c) (s.rs e m (s.conc e m c)) norm
             return (if s.conc e m c < r / s.rs e m (s.conc e m c) then (0.0 : ℝ) else
               s.f (r / s.rs e m (s.conc e m c)) * a)) = _
    rw [ha]
    rfl
  cases norm with
  | other => exact absurd rfl hn
  | none => rw [key _ rfl, if_pos hx]; norm_num
  | m => rw [key _ rfl, if_pos hx]; norm_num
  | rho => rw [key _ rfl, if_pos hx]; norm_num

/-- C25: positive inside the halo, and non-increasing in radius everywhere on `r > 0`. -/
theorem C25_nonneg_antitone {s : Shape} (hs : s.Exact) {e : Env} (he : e.Good) (hb : e.etaBloat = 0) {m : ℝ}
    (hm : 0 < m) {c : Option ℝ} (hc : ∀ v, c = some v → 0 < v) {norm : Norm} (hn : norm ≠ .other) {r r' : ℝ}
    (hr : 0 < r) (hrr : r ≤ r') :
    0 ≤ val (s.rho e r' m norm c) ∧ val (s.rho e r' m norm c) ≤ val (s.rho e r m norm c) ∧
    (r ≤ e.massToRadius m → 0 < val (s.rho e r m norm c)) := by
  have hR := (C23_overdensity he false hm).1
  have hcp := conc_pos hs he hm hc
  have hM := massInt_pos hs hcp
  have hpi := Real.pi_pos
  have hd := he.dens_pos
  have hdl := he.delta_pos
  have hrs : 0 < s.rs e m (s.conc e m c) := by
    rw [rs_eq hs hb]
    positivity
  have hh : 0 < s.h (s.conc e m c) := by
    rw [hs.mass _ hcp]
    exact hM
  obtain ⟨a, ha, hapos⟩ : ∃ a, s.rhoS e (s.conc e m c) (s.rs e m (s.conc e m c)) norm = .ok a ∧ 0 < a := by
    cases norm with
    | other => exact absurd rfl hn
    | none => exact ⟨_, rfl, by positivity⟩
    | m => exact ⟨_, rfl, by positivity⟩
    | rho => exact ⟨_, rfl, by positivity⟩
  have key : ∀ r, val (s.rho e r m norm c) = (if s.conc e m c < r / s.rs e m (s.conc e m c) then 0.0 else
        s.f (r / s.rs e m (s.conc e m c)) * a) := by
    intro r
    show val (do let a ← s.rhoS e (s.conc e m c) (s.rs e m (s.conc e m c)) norm
                 return (if s.conc e m c < r / s.rs e m (s.conc e m c) then (0.0 : ℝ) else
                   s.f (r / s.rs e m (s.conc e m c)) * a)) = _
    rw [ha]
    rfl
  have hr' : 0 < r' := by linarith
  have hf := hs.f_pos (r / s.rs e m (s.conc e m c)) (by positivity)
  have hf' := hs.f_pos (r' / s.rs e m (s.conc e m c)) (by positivity)
  have hle : r / s.rs e m (s.conc e m c) ≤ r' / s.rs e m (s.conc e m c) := by gcongr
  have hanti := hs.f_anti _ _ (by positivity) hle
  rw [key, key]
  have z : (0.0 : ℝ) = 0 := by norm_num
  rw [z]
  refine ⟨?_, ?_, ?_⟩
  · by_cases h : s.conc e m c < r' / s.rs e m (s.conc e m c)
    · rw [if_pos h]
    · rw [if_neg h]
      positivity
  · by_cases h : s.conc e m c < r' / s.rs e m (s.conc e m c)
    · rw [if_pos h]
      by_cases h2 : s.conc e m c < r / s.rs e m (s.conc e m c)
      · rw [if_pos h2]
      · rw [if_neg h2]
        positivity
    · have h2 : ¬ s.conc e m c < r / s.rs e m (s.conc e m c) := fun h3 => h (lt_of_lt_of_le h3 hle)
      rw [if_neg h, if_neg h2]
      gcongr
  · intro hrR
    have h2 : ¬ s.conc e m c < r / s.rs e m (s.conc e m c) := by
      rw [not_lt, rs_eq hs hb, div_le_iff₀ (by positivity)]
      field_simp
      exact hrR
    rw [if_neg h2]
    positivity

example : nfw.Exact ∧ fidEnv.Good ∧ fidEnv.meanDens ≠ fidEnv.meanDens0 ∧ (0 : ℝ) < 1e12 :=
  ⟨C24_nfw_exact, fidEnv_good, by norm_num [fidEnv], by norm_num⟩

/-- C25: an unknown `norm` or `coord` never yields a value: `norm` surfaces as `UnboundLocalError`. -/
theorem C25_bad_arguments (s : Shape) (e : Env) (r m : ℝ) (c : Option ℝ) (norm : Norm) (coord : RCoord) :
    (coord ≠ .other → s.rho e r m .other c coord = .error .unboundLocal) ∧
    s.rho e r m norm c .other = .error .valueError := by
  refine ⟨fun h => ?_, rfl⟩
  cases coord <;> first | rfl | exact absurd rfl h

/-- C25: the three radial coordinates describe the same point. -/
theorem C25_coords {s : Shape} (e : Env) (r m : ℝ) (norm : Norm) (c : Option ℝ)
    (hc : s.conc e m c ≠ 0) :
    s.rho e (r / s.rs e m (s.conc e m c)) m norm c .x = s.rho e r m norm c .r ∧
    s.rho e (r / (s.rs e m (s.conc e m c) * s.conc e m c)) m norm c .s = s.rho e r m norm c .r := by
  refine ⟨rfl, ?_⟩
  have : s.rVars e (r / (s.rs e m (s.conc e m c) * s.conc e m c)) (some m) c .s
      = s.rVars e r (some m) c .r := by
    simp only [Shape.rVars]
    change Except.ok (s.conc e m c, s.rs e m (s.conc e m c), _) = Except.ok (s.conc e m c, s.rs e m (s.conc e m c), _)
    congr 3
    change r / (s.rs e m (s.conc e m c) * s.conc e m c) * s.conc e m c = _
    rw [div_mul_eq_div_div, div_mul_cancel₀ _ hc]
    rfl
  unfold Shape.rho
  rw [this]

/-! #### array shapes -/

lemma broadcastRev_nil_right (l : List ℕ) : broadcastRev l [] = some l := by cases l <;> rfl

lemma broadcastRev_self_append (m r : List ℕ) : broadcastRev (m ++ r) m = some (m ++ r) := by
  induction m with
  | nil => exact broadcastRev_nil_right _
  | cons a t ih => simp [broadcastRev, ih]

/-- C25: for an ordinary profile, `rho` with an array of radii works for scalar or array masses. -/
theorem C25_shape_ok (r m : List ℕ) (hr : r ≠ []) :
    rhoShape (xShape r m .r) (xShape r m .r) m = .ok (m ++ r) := by
  have hne : m ++ r ≠ [] := by simp [hr]
  simp [rhoShape, xShape, broadcastRev_self_append, hne]

/-- C25: with radii in units of the virial radius the density is a matrix of radii by masses, whatever the shape of the radii; a single mass needs an
array of length one (axes innermost first). -/
theorem C25_shape_s (r : List ℕ) (k : ℕ) :
    rhoShape (xShape r [k] .s) (xShape r [k] .s) [k] = .ok [k, r.prod] ∧
    rhoShape (xShape r [] .s) (xShape r [] .s) [] = .ok [1, r.prod] := by
  constructor <;> simp [rhoShape, xShape, broadcastRev]

/-- C25, finding: `rho` at a scalar radius and scalar mass raises `TypeError` (item assignment on a
numpy scalar). -/
theorem C25_shape_scalar : rhoShape (xShape [] [] .r) (xShape [] [] .r) [] = .error .typeError := rfl

/-- C25, finding: `Constant.rho` never works for arrays of radii: its `_f` is the scalar `1.0`, so the
masked assignment fails for scalar masses (`TypeError`) and for any mass array (`IndexError`). -/
theorem C25_shape_constant (n : ℕ) (m : List ℕ) :
    rhoShape [] (xShape [n] m .r) m = .error (if m = [] then .typeError else .indexError) := by
  have h1 : broadcastRev [] m = some m := by cases m <;> rfl
  have h2 : broadcastRev (m ++ [n]) m = some (m ++ [n]) := broadcastRev_self_append m [n]
  by_cases hm : m = []
  · subst hm; rfl
  · have : m ++ [n] ≠ m := by simp
    simp [rhoShape, xShape, h1, h2, hm]

/-! ### C26 -/

lemma fourier_scaled (f : ℝ → ℝ) {c rs R k : ℝ} (hrs : 0 < rs) (hR : R = c * rs) (hk : 0 < k) (hc : 0 < c)
    (a : ℝ) :
    ∫ r in (0 : ℝ)..R, 4 * Real.pi * r ^ 2 * (f (r / rs) * a) * (Real.sin (k * r) / (k * r))
      = 4 * Real.pi * rs ^ 3 * a * fourierInt f (k * rs) c := by
  subst hR
  have h := intervalIntegral.integral_comp_div (a := 0) (b := c * rs)
    (fun x => 4 * Real.pi * (rs * x) ^ 2 * (f x * a) * (Real.sin (k * (rs * x)) / (k * (rs * x)))) hrs.ne'
  have h2 : ∀ r : ℝ, rs * (r / rs) = r := fun r => by field_simp
  simp only [h2] at h
  rw [h, zero_div, mul_div_assoc, div_self hrs.ne', mul_one, fourierInt, smul_eq_mul,
    ← intervalIntegral.integral_const_mul, ← mul_assoc, ← intervalIntegral.integral_const_mul]
  refine integral_congr_Ioc hc.le fun x hx => ?_
  have hx0 : 0 < x := hx.1
  have e : k * (rs * x) = k * rs * x := by ring
  rw [e]
  field_simp

/-- C26: `u(k, m)` is the Fourier transform of the unit-normalised density of the same halo. -/
theorem C26_fourier {s : Shape} (hs : s.Exact) {e : Env} (he : e.Good) (hb : e.etaBloat = 0) {k m : ℝ}
    (hk : 0 < k) (hm : 0 < m) {c : Option ℝ} (hc : ∀ v, c = some v → 0 < v) :
    s.u e k m .m c = .ok (fourier (fun r => val (s.rho e r m .m c)) (e.massToRadius m) k) := by
  have hR := (C23_overdensity he false hm).1
  have hcp := conc_pos hs he hm hc
  have hM := massInt_pos hs hcp
  have hpi := Real.pi_pos
  have hrs : 0 < e.massToRadius m / s.conc e m c := by positivity
  have hRc : e.massToRadius m = s.conc e m c * (e.massToRadius m / s.conc e m c) := by field_simp
  have hu : s.u e k m .m c = .ok (s.p (k * s.rs e m (s.conc e m c)) (s.conc e m c) / s.h (s.conc e m c)) := rfl
  rw [hu]
  congr 1
  unfold fourier
  rw [integral_congr_Ioc hR.le (g := fun r => 4 * Real.pi * r ^ 2 *
    (s.f (r / (e.massToRadius m / s.conc e m c)) * (1.0 / (4 * Real.pi *
      (e.massToRadius m / s.conc e m c) ^ 3 * s.h (s.conc e m c)))) * (Real.sin (k * r) / (k * r)))]
  · rw [fourier_scaled s.f hrs hRc hk hcp, rs_eq hs hb, hs.four _ _ (by positivity) hcp, hs.mass _ hcp]
    generalize e.massToRadius m / s.conc e m c = rs at *
    have : (1.0 : ℝ) = 1 := by norm_num
    rw [this]
    field_simp
  · intro r hr
    have hx : r / (e.massToRadius m / s.conc e m c) ≤ s.conc e m c := by
      rw [div_le_iff₀ hrs, ← hRc]
      exact hr.2
    have hr1 : s.rho e r m .m c = .ok (if s.conc e m c < r / s.rs e m (s.conc e m c) then 0.0 else
        s.f (r / s.rs e m (s.conc e m c)) * (1.0 / (4 * Real.pi *
          (s.rs e m (s.conc e m c)) ^ 3 * s.h (s.conc e m c)))) := rfl
    beta_reduce
    rw [hr1, rs_eq hs hb, if_neg (not_lt.mpr hx)]
    rfl

lemma integ_sin {s : Shape} (hs : s.Exact) {c K : ℝ} (hc : 0 < c) (hK : 0 < K) :
    IntervalIntegrable (fun x => x * s.f x * Real.sin (K * x) / K) volume 0 c := by
  have h1 := hs.integ c hc
  have h2 : IntervalIntegrable (fun x => x ^ 2 * s.f x * Real.sinc (K * x)) volume 0 c :=
    h1.mul_continuousOn (by fun_prop)
  refine h2.congr ?_
  intro x hx
  rw [uIoc_of_le hc.le] at hx
  have hx0 : 0 < x := hx.1
  simp only
  rw [Real.sinc_of_ne_zero (by positivity)]
  field_simp

lemma fourierInt_eq {s : Shape} {c K : ℝ} :
    fourierInt s.f K c = ∫ x in (0 : ℝ)..c, x * s.f x * Real.sin (K * x) / K := by
  unfold fourierInt
  rw [← intervalIntegral.integral_const_mul]
  congr 1
  ext x
  ring

lemma fourierInt_abs_le {s : Shape} (hs : s.Exact) {c K : ℝ} (hc : 0 < c) (hK : 0 < K) :
    |fourierInt s.f K c| ≤ massInt s.f c := by
  rw [fourierInt_eq]
  refine (intervalIntegral.abs_integral_le_integral_abs hc.le).trans ?_
  refine intervalIntegral.integral_mono_on_of_le_Ioo hc.le (integ_sin hs hc hK).abs (hs.integ c hc) ?_
  intro x hx
  have hx0 : 0 < x := hx.1
  have hf := hs.f_pos x hx0
  have hs1 : |Real.sin (K * x)| ≤ K * x := by
    have := Real.abs_sin_le_abs (x := K * x)
    rwa [abs_of_pos (by positivity : 0 < K * x)] at this
  rw [abs_div, abs_mul, abs_mul, abs_of_pos hx0, abs_of_pos hf, abs_of_pos hK, div_le_iff₀ hK]
  calc x * s.f x * |Real.sin (K * x)| ≤ x * s.f x * (K * x) := by gcongr
    _ = x ^ 2 * s.f x * K := by ring

/-- C26: `|u(k,m)| ≤ 1` for all wavenumbers and masses. -/
theorem C26_bounded {s : Shape} (hs : s.Exact) {e : Env} (he : e.Good) (hb : e.etaBloat = 0) {k m : ℝ}
    (hk : 0 < k) (hm : 0 < m) {c : Option ℝ} (hc : ∀ v, c = some v → 0 < v) :
    ∃ u, s.u e k m .m c = .ok u ∧ |u| ≤ 1 := by
  have hR := (C23_overdensity he false hm).1
  have hcp := conc_pos hs he hm hc
  have hM := massInt_pos hs hcp
  refine ⟨_, rfl, ?_⟩
  change |s.p (k * s.rs e m (s.conc e m c)) (s.conc e m c) / s.h (s.conc e m c)| ≤ 1
  have hK : 0 < k * s.rs e m (s.conc e m c) := by
    rw [rs_eq hs hb]
    positivity
  rw [hs.four _ _ hK hcp, hs.mass _ hcp, abs_div, abs_of_pos hM, div_le_one hM]
  exact fourierInt_abs_le hs hcp hK

lemma fourierInt_tendsto {s : Shape} (hs : s.Exact) {c : ℝ} (hc : 0 < c) :
    Tendsto (fun K => fourierInt s.f K c) (𝓝[>] 0) (𝓝 (massInt s.f c)) := by
  have h : Tendsto (fun K => ∫ x in (0 : ℝ)..c, x * s.f x * Real.sin (K * x) / K) (𝓝[>] 0)
      (𝓝 (∫ x in (0 : ℝ)..c, x ^ 2 * s.f x)) := by
    refine intervalIntegral.tendsto_integral_filter_of_dominated_convergence
      (fun x => x ^ 2 * s.f x) ?_ ?_ (hs.integ c hc) ?_
    · filter_upwards [self_mem_nhdsWithin] with K hK
      rw [uIoc_of_le hc.le]
      exact (integ_sin hs hc hK).1.aestronglyMeasurable
    · filter_upwards [self_mem_nhdsWithin] with K hK
      have hK : 0 < K := hK
      refine ae_of_all _ fun x hx => ?_
      rw [uIoc_of_le hc.le] at hx
      have hx0 : 0 < x := hx.1
      have hf := hs.f_pos x hx0
      have hs1 : |Real.sin (K * x)| ≤ K * x := by
        have := Real.abs_sin_le_abs (x := K * x)
        rwa [abs_of_pos (by positivity : 0 < K * x)] at this
      rw [Real.norm_eq_abs, abs_div, abs_mul, abs_mul, abs_of_pos hx0, abs_of_pos hf, abs_of_pos hK,
        div_le_iff₀ hK]
      calc x * s.f x * |Real.sin (K * x)| ≤ x * s.f x * (K * x) := by gcongr
        _ = x ^ 2 * s.f x * K := by ring
    · refine ae_of_all _ fun x hx => ?_
      rw [uIoc_of_le hc.le] at hx
      have hx0 : 0 < x := hx.1
      have h1 : Tendsto (fun K : ℝ => x ^ 2 * s.f x * Real.sinc (K * x)) (𝓝[>] 0)
          (𝓝 (x ^ 2 * s.f x * Real.sinc (0 * x))) := by
        refine Tendsto.mono_left ?_ nhdsWithin_le_nhds
        exact Continuous.tendsto (by fun_prop) 0
      rw [zero_mul, Real.sinc_zero, mul_one] at h1
      refine h1.congr' ?_
      filter_upwards [self_mem_nhdsWithin] with K hK
      have hK : 0 < K := hK
      rw [Real.sinc_of_ne_zero (by positivity)]
      field_simp
  refine h.congr fun K => ?_
  rw [fourierInt_eq]

/-- C26: `u(k,m) → 1` as `k → 0⁺`. -/
theorem C26_limit {s : Shape} (hs : s.Exact) {e : Env} (he : e.Good) (hb : e.etaBloat = 0) {m : ℝ}
    (hm : 0 < m) {c : Option ℝ} (hc : ∀ v, c = some v → 0 < v) :
    Tendsto (fun k => val (s.u e k m .m c)) (𝓝[>] 0) (𝓝 1) := by
  have hR := (C23_overdensity he false hm).1
  have hcp := conc_pos hs he hm hc
  have hM := massInt_pos hs hcp
  have hrs : 0 < s.rs e m (s.conc e m c) := by
    rw [rs_eq hs hb]
    positivity
  have h1 : Tendsto (fun k => k * s.rs e m (s.conc e m c)) (𝓝[>] 0) (𝓝[>] 0) := by
    refine tendsto_nhdsWithin_iff.2 ⟨?_, ?_⟩
    · have : Tendsto (fun k => k * s.rs e m (s.conc e m c)) (𝓝 0) (𝓝 (0 * s.rs e m (s.conc e m c))) :=
        Continuous.tendsto (by fun_prop) 0
      rw [zero_mul] at this
      exact this.mono_left nhdsWithin_le_nhds
    · filter_upwards [self_mem_nhdsWithin] with k hk
      exact mul_pos hk hrs
  have h2 := ((fourierInt_tendsto hs hcp).comp h1).div_const (massInt s.f (s.conc e m c))
  rw [div_self hM.ne'] at h2
  refine h2.congr' ?_
  filter_upwards [self_mem_nhdsWithin] with k hk
  have hK : 0 < k * s.rs e m (s.conc e m c) := mul_pos hk hrs
  change fourierInt s.f (k * s.rs e m (s.conc e m c)) (s.conc e m c) / _ =
    s.p (k * s.rs e m (s.conc e m c)) (s.conc e m c) / s.h (s.conc e m c)
  rw [hs.four _ _ hK hcp, hs.mass _ hcp]

/-- C26: the other arguments of `u`: `norm=None` multiplies by the mass, `kappa` is `k·r_s`, any other
`norm` is a `ValueError`, an unknown coordinate surfaces as `UnboundLocalError`. -/
theorem C26_arguments (s : Shape) (e : Env) (k m : ℝ) (c : Option ℝ) (norm : Norm) (coord : KCoord) :
    (∀ u, s.u e k m .m c coord = .ok u → s.u e k m .none c coord = .ok (u * m)) ∧
    s.u e (k * s.rs e m (s.conc e m c)) m norm c .kappa = s.u e k m norm c .k ∧
    (coord ≠ .other → s.u e k m .other c coord = .error .valueError) ∧
    s.u e k m norm c .other = .error .unboundLocal := by
  refine ⟨fun u h => ?_, rfl, fun h => ?_, rfl⟩
  · cases coord
    · cases h; rfl
    · cases h; rfl
    · cases h
  · cases coord <;> first | rfl | exact absurd rfl h

/-! #### the generic numerical transform: shapes, accumulation, pairing -/

/-- C26, finding: the generic numerical `_p` (Moore, GeneralizedNFW, Einasto with other `alpha`) rejects
every one-dimensional array of wavenumbers of length other than one — the transposition is the wrong way
round — while two-dimensional input needs one column per concentration. -/
theorem C26_generic_shape (n nc : ℕ) :
    (genericPShape [n] nc = if n = 1 ∧ nc = 1 then .ok (1, 1) else .error .assertionError) ∧
    ∀ a b, genericPShape [a, b] nc = if b = nc then .ok (a, b) else .error .assertionError := by
  constructor
  · by_cases h : n = nc
    · subst h
      by_cases h1 : n = 1
      · subst h1; rfl
      · have : ¬ (1 = n) := fun h => h1 h.symm
        simp [genericPShape, this, h1]
    · have h2 : ¬ (n = 1 ∧ nc = 1) := fun ⟨a, b⟩ => h (a.trans b.symm)
      simp [genericPShape, h, h2]
  · intro a b
    rfl

/-- C26: with an exact integrator the accumulation over sorted concentrations gives, for every halo, the
integral from 0 to its own concentration. -/
theorem C26_accumulate (g : ℝ → ℝ) (cs : List ℝ) (hi : ∀ a b, IntervalIntegrable g volume a b) :
    accumulate (fun a b => ∫ x in a..b, g x) cs = cs.map fun c => ∫ x in (0 : ℝ)..c, g x := by
  have hgo : ∀ (l : List ℝ) (p : ℝ), accumulate.go (fun a b => ∫ x in a..b, g x) p (∫ x in (0 : ℝ)..p, g x) l
      = l.map fun c => ∫ x in (0 : ℝ)..c, g x := by
    intro l
    induction l with
    | nil => intro p; rfl
    | cons c t ih =>
      intro p
      simp only [accumulate.go, List.map_cons]
      rw [intervalIntegral.integral_add_adjacent_intervals (hi 0 p) (hi p c), ih c]
  cases cs with
  | nil => rfl
  | cons c t =>
    simp only [accumulate, List.map_cons]
    rw [hgo t c]

example : ∀ a b : ℝ, IntervalIntegrable (fun x => x * Real.sin (2 * x) / 2) volume a b :=
  fun a b => Continuous.intervalIntegrable (by fun_prop) a b

/-- C26, finding: `Einasto._p` (interpolated, the default) pairs wavenumber row `i`, halo `j` with the
concentration of halo number `(i·nc + j) / nk`, not of halo `j`. -/
theorem C26_einasto_pairing {α β : Type} (nk : ℕ) (K : ℕ → ℕ → α) (c : List β) (i j : ℕ) (hi : i < nk)
    (hj : j < c.length) :
    (einastoPairs nk K c)[i * c.length + j]? =
      (c[(i * c.length + j) / nk]?).map fun v => (K i j, v) := by
  have hrep : ∀ (l : List β) (n : ℕ), n < nk * l.length →
      (l.flatMap fun cj => List.replicate nk cj)[n]? = l[n / nk]? := by
    intro l
    induction l with
    | nil => intro n h; simp at h
    | cons a t ih =>
      intro n h
      simp only [List.flatMap_cons]
      by_cases hn : n < nk
      · rw [List.getElem?_append_left (by simpa using hn), Nat.div_eq_of_lt hn]
        simp [hn]
      · have hn : nk ≤ n := not_lt.mp hn
        rw [List.getElem?_append_right (by simpa using hn), List.length_replicate, ih]
        · have hpos : 0 < nk := by omega
          have : n / nk = (n - nk) / nk + 1 := by
            have := Nat.add_div_right (n - nk) hpos
            rwa [Nat.sub_add_cancel hn] at this
          rw [this]
          simp
        · simp only [List.length_cons, Nat.mul_add, Nat.mul_one] at h
          omega
  have hrow : ∀ (nk : ℕ) (i : ℕ), i < nk →
      ((List.range nk).flatMap fun i => (List.range c.length).map fun j => K i j)[i * c.length + j]?
        = some (K i j) := by
    intro nk
    induction nk with
    | zero => intro i h; omega
    | succ n ih =>
      intro i h
      have hlen : ∀ n, ((List.range n).flatMap fun i => (List.range c.length).map fun j => K i j).length
          = n * c.length := by
        intro n
        simp [List.length_flatMap]
      rw [List.range_succ, List.flatMap_append]
      by_cases hin : i < n
      · rw [List.getElem?_append_left, ih i hin]
        rw [hlen]
        calc i * c.length + j < i * c.length + c.length := by omega
          _ = (i + 1) * c.length := by ring
          _ ≤ n * c.length := Nat.mul_le_mul_right _ hin
      · have : i = n := by omega
        subst this
        rw [List.getElem?_append_right (by rw [hlen]; omega), hlen]
        simp [hj]
  have hlt : i * c.length + j < nk * c.length := by
    calc i * c.length + j < i * c.length + c.length := by omega
      _ = (i + 1) * c.length := by ring
      _ ≤ nk * c.length := Nat.mul_le_mul_right _ hi
  unfold einastoPairs
  rw [List.zip, List.getElem?_zipWith, hrow nk i hi, hrep c _ hlt]
  cases c[(i * c.length + j) / nk]? <;> rfl

/-- C26, finding: with at least two wavenumbers and two haloes, the value returned for the first wavenumber
and the second halo is evaluated at the *first* halo's concentration. -/
theorem C26_einasto_wrong_halo {α β : Type} (nk : ℕ) (K : ℕ → ℕ → α) (c0 c1 : β) (rest : List β) (hk : 2 ≤ nk) :
    (einastoPairs nk K (c0 :: c1 :: rest))[1]? = some (K 0 1, c0) := by
  have := C26_einasto_pairing nk K (c0 :: c1 :: rest) 0 1 (by omega) (by simp)
  rw [Nat.zero_mul, Nat.zero_add, Nat.div_eq_of_lt (by omega : 1 < nk)] at this
  exact this

/-- C26: the pairing is right for a single wavenumber, or a single halo. -/
theorem C26_einasto_ok_partial {α β : Type} (nk : ℕ) (K : ℕ → ℕ → α) (c : List β) (i j : ℕ) (hi : i < nk)
    (hj : j < c.length) (h : nk = 1 ∨ c.length = 1) :
    (einastoPairs nk K c)[i * c.length + j]? = some (K i j, c[j]) := by
  rw [C26_einasto_pairing nk K c i j hi hj]
  rcases h with h | h
  · subst h
    have : i = 0 := by omega
    subst this
    simp [hj]
  · have hj0 : j = 0 := by omega
    subst hj0
    rw [h, Nat.mul_one, Nat.add_zero, Nat.div_eq_of_lt hi]
    simp [hj]

/-- C26, finding: the Meijer-G transforms of MooreInf/GeneralizedNFWInf return, at every place of the output,
the transform at the wavenumber of that rank instead of the wavenumber at that place; for an injective
transform the result is right only if the wavenumbers were already sorted in memory order. -/
theorem C26_meijer_order (fit : ℝ → ℝ) (hf : Function.Injective fit) (K : List ℝ) :
    meijerP fit K = K.map fit ↔ K.Pairwise (· ≤ ·) := by
  classical
  unfold meijerP
  constructor
  · intro h
    have := List.map_injective_iff.2 hf h
    rw [← this]
    convert List.pairwise_insertionSort (· ≤ ·) K
  · intro h
    congr 1
    convert List.Pairwise.insertionSort_eq h

/-! ### C27 -/

/-- C27: `cdf` is 0 at the centre, non-decreasing, in `[0,1]` inside the halo and 1 at the halo radius. -/
theorem C27_cdf_partial {s : Shape} (hs : s.Exact) (h0 : s.h 0 = 0) {e : Env} (he : e.Good) (hb : e.etaBloat = 0)
    {m : ℝ} (hm : 0 < m) {c : Option ℝ} (hc : ∀ v, c = some v → 0 < v) {r r' : ℝ} (hr : 0 < r) (hrr : r ≤ r') :
    s.cdf e 0 c (some m) = .ok 0 ∧
    s.cdf e (e.massToRadius m) c (some m) = .ok 1 ∧
    val (s.cdf e r c (some m)) ≤ val (s.cdf e r' c (some m)) ∧
    0 < val (s.cdf e r c (some m)) ∧
    (r ≤ e.massToRadius m → val (s.cdf e r c (some m)) ≤ 1) ∧
    (e.massToRadius m < r → 1 < val (s.cdf e r c (some m))) := by
  have hR := (C23_overdensity he false hm).1
  have hcp := conc_pos hs he hm hc
  have hM := massInt_pos hs hcp
  have hrs : 0 < s.rs e m (s.conc e m c) := by
    rw [rs_eq hs hb]
    positivity
  have key : ∀ r, s.cdf e r c (some m)
      = .ok (s.h (r / s.rs e m (s.conc e m c)) / s.h (s.conc e m c)) := fun r => rfl
  have hRx : e.massToRadius m / s.rs e m (s.conc e m c) = s.conc e m c := by
    rw [rs_eq hs hb]
    field_simp
  have hhpos : 0 < s.h (s.conc e m c) := by rw [hs.mass _ hcp]; exact hM
  have hmono : ∀ x y, 0 < x → x ≤ y → s.h x ≤ s.h y := by
    intro x y hx hxy
    rw [hs.mass x hx, hs.mass y (hx.trans_le hxy)]
    unfold massInt
    have hsplit := intervalIntegral.integral_add_adjacent_intervals (hs.integ x hx)
      ((hs.integ x hx).symm.trans (hs.integ y (hx.trans_le hxy)))
    rw [← hsplit]
    have : 0 ≤ ∫ t in x..y, t ^ 2 * s.f t := by
      apply intervalIntegral.integral_nonneg hxy
      intro t ht
      have htx : 0 < t := lt_of_lt_of_le hx ht.1
      have := hs.f_pos t htx
      positivity
    linarith
  have hstrict : ∀ x y, 0 < x → x < y → s.h x < s.h y := by
    intro x y hx hxy
    rw [hs.mass x hx, hs.mass y (hx.trans hxy)]
    unfold massInt
    have hi := ((hs.integ x hx).symm.trans (hs.integ y (hx.trans hxy)))
    have hsplit := intervalIntegral.integral_add_adjacent_intervals (hs.integ x hx) hi
    rw [← hsplit]
    have : 0 < ∫ t in x..y, t ^ 2 * s.f t := by
      apply intervalIntegral.intervalIntegral_pos_of_pos_on hi _ hxy
      intro t ht
      have htx : 0 < t := lt_trans hx ht.1
      have := hs.f_pos t htx
      positivity
    linarith
  refine ⟨?_, ?_, ?_, ?_, ?_, ?_⟩
  · rw [key, zero_div, h0, zero_div]
  · rw [key, hRx, div_self hhpos.ne']
  · rw [key, key]
    change s.h _ / _ ≤ s.h _ / _
    have := hmono _ _ (div_pos hr hrs) (div_le_div_of_nonneg_right hrr hrs.le)
    gcongr
  · rw [key]
    change 0 < s.h _ / _
    have : 0 < s.h (r / s.rs e m (s.conc e m c)) := by
      rw [hs.mass _ (div_pos hr hrs)]
      exact massInt_pos hs (div_pos hr hrs)
    positivity
  · intro h
    rw [key]
    change s.h _ / _ ≤ 1
    rw [div_le_one hhpos]
    conv_rhs => rw [← hRx]
    exact hmono _ _ (div_pos hr hrs) (div_le_div_of_nonneg_right h hrs.le)
  · intro h
    rw [key]
    change 1 < s.h _ / _
    rw [one_lt_div hhpos]
    conv_lhs => rw [← hRx]
    exact hstrict _ _ (div_pos hR hrs) (div_lt_div_of_pos_right h hrs)

/-- The side condition `_h(0) = 0` of `C27_cdf_partial` holds for the analytic profiles. -/
theorem C27_h_zero : nfw.h 0 = 0 ∧ hernquist.h 0 = 0 ∧ constant.h 0 = 0 ∧ coredNfw.h 0 = 0 := by
  refine ⟨?_, ?_, ?_, ?_⟩
  · norm_num [nfw, nfwH]
  · norm_num [hernquist, herH]
  · norm_num [constant, constH]
  · norm_num [coredNfw, coredH]

/-- C27: `cdf` is the enclosed fraction of the density returned by `rho`. -/
theorem C27_cdf_enclosed {s : Shape} (hs : s.Exact) {e : Env} (he : e.Good) (hb : e.etaBloat = 0) {m : ℝ}
    (hm : 0 < m) {c : Option ℝ} (hc : ∀ v, c = some v → 0 < v) {r : ℝ} (hr : 0 < r) (hrR : r ≤ e.massToRadius m) :
    s.cdf e r c (some m) = .ok (enclosed (fun r => val (s.rho e r m .m c)) r) := by
  have hR := (C23_overdensity he false hm).1
  have hcp := conc_pos hs he hm hc
  have hM := massInt_pos hs hcp
  have hpi := Real.pi_pos
  have hrs : 0 < e.massToRadius m / s.conc e m c := by positivity
  have hr0 : r = (r / (e.massToRadius m / s.conc e m c)) * (e.massToRadius m / s.conc e m c) := by
    rw [div_mul_cancel₀ _ hrs.ne']
  change Except.ok (s.h (r / s.rs e m (s.conc e m c)) / s.h (s.conc e m c)) = _
  congr 1
  unfold enclosed
  rw [integral_congr_Ioc hr.le (g := fun r => 4 * Real.pi * r ^ 2 *
    (s.f (r / (e.massToRadius m / s.conc e m c)) * (1.0 / (4 * Real.pi *
      (e.massToRadius m / s.conc e m c) ^ 3 * s.h (s.conc e m c)))))]
  · rw [enclosed_scaled s.f hrs hr0, rs_eq hs hb, hs.mass _ hcp, hs.mass _ (div_pos hr hrs)]
    generalize e.massToRadius m / s.conc e m c = rs at *
    have : (1.0 : ℝ) = 1 := by norm_num
    rw [this]
    field_simp
  · intro t ht
    have hx : t / (e.massToRadius m / s.conc e m c) ≤ s.conc e m c := by
      rw [div_le_iff₀ hrs]
      field_simp
      exact ht.2.trans hrR
    have hr1 : s.rho e t m .m c = .ok (if s.conc e m c < t / s.rs e m (s.conc e m c) then 0.0 else
        s.f (t / s.rs e m (s.conc e m c)) * (1.0 / (4 * Real.pi *
          (s.rs e m (s.conc e m c)) ^ 3 * s.h (s.conc e m c)))) := rfl
    beta_reduce
    rw [hr1, rs_eq hs hb, if_neg (not_lt.mpr hx)]
    rfl

/-- C27, finding: the documented call `cdf(r, c=...)` without a mass raises `TypeError` for every
coordinate, although the docstring says the concentration alone suffices. -/
theorem C27_needs_mass (s : Shape) (e : Env) (r : ℝ) (c : Option ℝ) (coord : RCoord) :
    s.cdf e r c Option.none coord = .error .typeError := rfl

/-- C27: the three coordinates describe the same point. -/
theorem C27_coords {s : Shape} (e : Env) (r m : ℝ) (c : Option ℝ) (hc : s.conc e m c ≠ 0) :
    s.cdf e (r / s.rs e m (s.conc e m c)) c (some m) .x = s.cdf e r c (some m) .r ∧
    s.cdf e (r / (s.rs e m (s.conc e m c) * s.conc e m c)) c (some m) .s = s.cdf e r c (some m) .r := by
  refine ⟨rfl, ?_⟩
  change Except.ok (s.h (r / (s.rs e m (s.conc e m c) * s.conc e m c) * s.conc e m c) / s.h (s.conc e m c)) =
    Except.ok (s.h (r / s.rs e m (s.conc e m c)) / s.h (s.conc e m c))
  rw [div_mul_eq_div_div, div_mul_cancel₀ _ hc]

example : hernquist.Exact ∧ hernquist.h 0 = 0 ∧ fidEnv.Good ∧ fidEnv.etaBloat = 0 :=
  ⟨C24_hernquist_exact, C27_h_zero.2.1, fidEnv_good, rfl⟩

end

end Halomod.Profiles
