import Verif.Props.Hod

/-!
# Further properties of `hod.py`: what pins the occupation curves down (C02, C03, C06)
-/
namespace Halomod.HOD

open Halomod.Spec Filter Topology MeasureTheory Set

theorem erf_tendsto_one : Tendsto erf atTop (𝓝 1) := by
  have hI : IntegrableOn (fun t : ℝ => Real.exp (-t ^ 2)) (Ioi 0) := by
    have := (integrable_exp_neg_mul_sq (b := 1) one_pos).integrableOn (s := Ioi (0:ℝ))
    simpa using this
  have h2 : ∫ t in Ioi (0:ℝ), Real.exp (-t ^ 2) = √Real.pi / 2 := by
    have := integral_gaussian_Ioi 1
    simpa using this
  have h := intervalIntegral_tendsto_integral_Ioi (0:ℝ) hI tendsto_id
  rw [h2] at h
  have h3 := h.const_mul (2 / √Real.pi)
  have hs : √Real.pi ≠ 0 := (Real.sqrt_pos.mpr Real.pi_pos).ne'
  have : 2 / √Real.pi * (√Real.pi / 2) = 1 := by field_simp
  rw [this] at h3
  exact h3

theorem erf_tendsto_neg_one : Tendsto erf atBot (𝓝 (-1)) := by
  have := (erf_tendsto_one.comp tendsto_neg_atBot_atTop).neg
  refine this.congr fun x => ?_
  simp [erf_neg]

theorem log10_pow (x : ℝ) : log10 (10 ^ x) = x := Real.logb_rpow (by norm_num) (by norm_num)

theorem log10_shift (a b : ℝ) : log10 (10 ^ (a + b) / 10 ^ a) = b := by
  rw [Real.rpow_add (by norm_num), mul_div_assoc, mul_comm, div_mul_cancel₀ _ (by positivity), log10_pow]

theorem log10_tendsto : Tendsto log10 atTop atTop := Real.tendsto_logb_atTop (by norm_num)

/-! ## C02 for the bulk classes -/

/-- C02: a class without centrals counts the square of its occupation as pairs, and its satellite scatter is
the parameter `sigma_A` at every mass. -/
theorem C02_bulk_pairs (p : CplP) (q : ConstP) (c : Bool) (m : ℝ) :
    (continuousPowerLaw p c).totalPairs m = (continuousPowerLaw p c).totalOcc m ^ 2 ∧
    (continuousPowerLaw p c).ssPairs m = (continuousPowerLaw p c).satOcc m ^ 2 ∧
    (continuousPowerLaw p c).sigmaSat m = p.sigma_A ∧
    (constant q c).totalPairs m = (constant q c).totalOcc m ^ 2 ∧
    (constant q c).ssPairs m = (constant q c).satOcc m ^ 2 ∧
    (constant q c).sigmaSat m = q.sigma_A := by
  simp [Hod.totalPairs, Hod.totalOcc, continuousPowerLaw, constant, bulk]

/-! ## C03 mass cuts -/

/-- The classes that declare a sharp cut. -/
def HodInst.isSharp : HodInst → Bool
  | .zehavi05 _ | .tinker05 _ | .zehavi05WithMax _ | .zehavi05Marked _ | .continuousPowerLaw _ => true
  | _ => false

/-- C03: exactly five classes declare a sharp cut; for these the public `mmin` is the edge of the support:
below `10**mmin` there are no centrals, and no satellites when the central condition is enforced (for
`Tinker05` and `ContinuousPowerLaw` in any case), whereas at `10**mmin` itself the halo is occupied
(if the maximum mass, where the class has one, is not below the minimum). -/
theorem C03_sharp_cut (i : HodInst) (c : Bool) :
    (i.mk c).sharpCut = i.isSharp ∧
    (i.isSharp = true → ∀ m, 0 < m → m < 10 ^ (i.mk c).mmin →
      (i.mk c).cenOcc m = 0 ∧ (c = true ∨ (i.mk c).inherent = true → (i.mk c).satOcc m = 0) ∧
      (∀ p, i = .continuousPowerLaw p → (i.mk c).satOcc m = 0)) ∧
    (i.isSharp = true → (match i with
        | .zehavi05WithMax p => p.M_min ≤ p.M_max
        | .zehavi05Marked p => p.M_min ≤ p.M_max
        | .continuousPowerLaw p => p.M_min ≤ p.M_max
        | _ => True) → 0 < (i.mk c).totalOcc (10 ^ (i.mk c).mmin)) := by
  have hp : ∀ x : ℝ, (0:ℝ) < 10 ^ x := fun x => by positivity
  have hmx : ∀ a b : ℝ, a ≤ b → (10:ℝ) ^ a ≤ 10 ^ b := fun a b h =>
    Real.rpow_le_rpow_of_exponent_le (by norm_num) h
  cases i with
  | zehavi05 p =>
    refine ⟨rfl, fun _ m h0 hm => ?_, fun _ _ => ?_⟩
    · have hz : zehaviCen p.M_min m = 0 := if_pos hm
      refine ⟨hz, ?_, by simp⟩
      rintro (rfl | h)
      · simp [HodInst.mk, zehavi05, poisson, satelliteOccupation, hz]
      · simp [HodInst.mk, zehavi05, poisson] at h
    · have hz : zehaviCen p.M_min (10 ^ p.M_min) = 1 := if_neg (lt_irrefl _)
      have hs : 0 ≤ zehaviSat p.M_1 p.alpha (10 ^ p.M_min) := by unfold zehaviSat; positivity
      cases c <;>
        simp only [Hod.totalOcc, HodInst.mk, zehavi05, poisson, satelliteOccupation, hz] <;> simp <;> linarith
  | tinker05 p =>
    refine ⟨rfl, fun _ m h0 hm => ?_, fun _ _ => ?_⟩
    · have hz : zehaviCen p.M_min m = 0 := if_pos hm
      refine ⟨hz, fun _ => ?_, by simp⟩
      have : tinkerSat p m = 0 := by unfold tinkerSat; rw [hz]; simp
      simp [HodInst.mk, tinker05, poisson, satelliteOccupation, this]
    · have hz : zehaviCen p.M_min (10 ^ p.M_min) = 1 := if_neg (lt_irrefl _)
      have : tinkerSat p (10 ^ p.M_min) = 0 := by simp [tinkerSat]
      simp [Hod.totalOcc, HodInst.mk, tinker05, poisson, satelliteOccupation, this, hz]
  | zehavi05WithMax p =>
    refine ⟨rfl, fun _ m h0 hm => ?_, fun _ hle => ?_⟩
    · have hz : zehaviMaxCen p.M_min p.M_max m = 0 := if_neg fun h => absurd h.1 (not_le.mpr hm)
      refine ⟨hz, ?_, by simp⟩
      rintro (rfl | h)
      · simp [HodInst.mk, zehavi05WithMax, poisson, satelliteOccupation, hz]
      · simp [HodInst.mk, zehavi05WithMax, poisson] at h
    · have hz : zehaviMaxCen p.M_min p.M_max (10 ^ p.M_min) = 1 := if_pos ⟨le_refl _, hmx _ _ hle⟩
      have hs : 0 ≤ zehaviSat p.M_1 p.alpha (10 ^ p.M_min) := by unfold zehaviSat; positivity
      cases c <;>
        simp only [Hod.totalOcc, HodInst.mk, zehavi05WithMax, poisson, satelliteOccupation, hz] <;> simp <;>
          linarith
  | zehavi05Marked p =>
    refine ⟨rfl, fun _ m h0 hm => ?_, fun _ hle => ?_⟩
    · have hz : zehaviMaxCen p.M_min p.M_max m = 0 := if_neg fun h => absurd h.1 (not_le.mpr hm)
      refine ⟨by simp [HodInst.mk, zehavi05Marked, poisson, hz], ?_, by simp⟩
      rintro (rfl | h)
      · simp [HodInst.mk, zehavi05Marked, poisson, satelliteOccupation, hz]
      · simp [HodInst.mk, zehavi05Marked, poisson] at h
    · have hz : zehaviMaxCen p.M_min p.M_max (10 ^ p.M_min) = 1 := if_pos ⟨le_refl _, hmx _ _ hle⟩
      have hs : 0 ≤ zehaviSat p.M_1 p.alpha (10 ^ p.M_min) := by unfold zehaviSat; positivity
      have hA := hp p.logA
      cases c <;>
        simp only [Hod.totalOcc, HodInst.mk, zehavi05Marked, poisson, satelliteOccupation, hz] <;> simp <;>
          positivity
  | continuousPowerLaw p =>
    refine ⟨rfl, fun _ m h0 hm => ?_, fun _ hle => ?_⟩
    · have hz : cplSat p m = 0 := if_neg fun h => absurd h.1 (not_le.mpr hm)
      refine ⟨rfl, fun _ => ?_, fun _ _ => ?_⟩ <;>
        simp [HodInst.mk, continuousPowerLaw, bulk, satelliteOccupation, hz]
    · have hz : cplSat p (10 ^ p.M_min) = _ := if_pos ⟨le_refl _, hmx _ _ hle⟩
      simp [Hod.totalOcc, HodInst.mk, continuousPowerLaw, bulk, satelliteOccupation, hz]
      positivity
  | _ => exact ⟨rfl, fun h => by simp [HodInst.isSharp] at h, fun h => by simp [HodInst.isSharp] at h⟩

example : (0:ℝ) < 10 ^ (10:ℝ) ∧ (10:ℝ) ^ (10:ℝ) < 10 ^ ((HodInst.zehavi05 {}).mk true).mmin ∧
    (HodInst.zehavi05 {}).isSharp = true := by
  refine ⟨by positivity, ?_, rfl⟩
  apply Real.rpow_lt_rpow_of_exponent_lt (by norm_num)
  simp [HodInst.mk, zehavi05, poisson]; norm_num

/-! ## C03 the curves in log mass -/

/-- C03 `Zheng05` centrals as a function of the number `t` of widths `sig_logm` above `M_min` in log10 mass:
the error function of unit width, going from 0 to 1; two haloes placed symmetrically about `M_min`
together hold exactly one central. -/
theorem C03_zheng_central_profile (p : ZhengP) (hs : 0 < p.sig_logm) (c : Bool) :
    (∀ t, (zheng05 p c).cenOcc (10 ^ (p.M_min + p.sig_logm * t)) = (1 + erf t) / 2) ∧
    (∀ d, (zheng05 p c).cenOcc (10 ^ (p.M_min + d)) + (zheng05 p c).cenOcc (10 ^ (p.M_min - d)) = 1) ∧
    Tendsto (zheng05 p c).cenOcc atTop (𝓝 1) := by
  have key : ∀ t, (zheng05 p c).cenOcc (10 ^ (p.M_min + p.sig_logm * t)) = (1 + erf t) / 2 := by
    intro t
    simp only [zheng05, poisson, zhengCen, log10_pow]
    rw [show (p.M_min + p.sig_logm * t - p.M_min) / p.sig_logm = t by field_simp; ring]
    ring
  refine ⟨key, fun d => ?_, ?_⟩
  · have h1 := key (d / p.sig_logm)
    have h2 := key (-(d / p.sig_logm))
    rw [erf_neg] at h2
    rw [mul_div_cancel₀ _ hs.ne'] at h1
    rw [mul_neg, mul_div_cancel₀ _ hs.ne', ← sub_eq_add_neg] at h2
    rw [h1, h2]; ring
  · have h : Tendsto (fun m => (log10 m - p.M_min) / p.sig_logm) atTop atTop :=
      (tendsto_atTop_add_const_right _ (-p.M_min) log10_tendsto).atTop_div_const hs
    have := ((erf_tendsto_one.comp h).const_add 1).const_mul (0.5:ℝ)
    have e : (0.5:ℝ) * (1 + 1) = 1 := by norm_num
    rw [e] at this
    exact this

example : (0:ℝ) < ({} : ZhengP).sig_logm := by norm_num

/-- C03 `Contreras13` as a function of the log10 distance from the two mass scales: at `10**M_min` the
centrals are `fca + fcb (1-fca)`, at `10**M_1` the satellites are `fs`; the satellites at equal distances
above and below `M_1`, each divided by its power law, add up to `2 fs`; the Gaussian bump is symmetric, so
centrals at equal distances `d` above and below `M_min` differ by `2 fca erf(d/(x sig_logm))`. -/
theorem C03_contreras_profile (p : ContrerasP) (c : Bool) :
    (contreras13 p c).cenOcc (10 ^ p.M_min) = p.fca + p.fcb * (1 - p.fca) ∧
    (contreras13 p false).satOcc (10 ^ p.M_1) = p.fs ∧
    (∀ d, (contreras13 p false).satOcc (10 ^ (p.M_1 + d)) / 10 ^ (d * p.alpha)
        + (contreras13 p false).satOcc (10 ^ (p.M_1 - d)) / 10 ^ (-d * p.alpha) = 2 * p.fs) ∧
    (∀ d, (contreras13 p false).satOcc (10 ^ (p.M_1 + d))
        = p.fs * (1 + erf (d / p.delta)) * 10 ^ (d * p.alpha)) ∧
    (∀ d, (contreras13 p c).cenOcc (10 ^ (p.M_min + d)) - (contreras13 p c).cenOcc (10 ^ (p.M_min - d))
        = 2 * p.fca * erf (d / (p.x * p.sig_logm))) ∧
    (∀ d, (contreras13 p c).cenOcc (10 ^ (p.M_min + d)) + (contreras13 p c).cenOcc (10 ^ (p.M_min - d))
        = 2 * (p.fca + p.fcb * (1 - p.fca) * Real.exp (-d ^ 2 / (2 * (p.x * p.sig_logm) ^ 2)))) := by
  have hcen : ∀ d, (contreras13 p c).cenOcc (10 ^ (p.M_min + d))
      = p.fcb * (1 - p.fca) * Real.exp (-d ^ 2 / (2 * (p.x * p.sig_logm) ^ 2))
        + p.fca * (1 + erf (d / (p.x * p.sig_logm))) := by
    intro d
    simp only [contreras13, poisson, contrerasCen, log10_shift, div_div]
  have hsat : ∀ d, (contreras13 p false).satOcc (10 ^ (p.M_1 + d))
      = p.fs * (1 + erf (d / p.delta)) * 10 ^ (d * p.alpha) := by
    intro d
    simp only [contreras13, poisson, satelliteOccupation, contrerasSat, log10_shift]
    have e : (10:ℝ) ^ (p.M_1 + d) / 10 ^ p.M_1 = 10 ^ d := by
      rw [← Real.rpow_sub (by norm_num), add_sub_cancel_left]
    rw [e, ← Real.rpow_mul (by norm_num)]
    simp
  refine ⟨?_, ?_, fun d => ?_, hsat, fun d => ?_, fun d => ?_⟩
  · have := hcen 0
    simp [erf_zero] at this
    rw [this]; ring
  · have := hsat 0
    simpa [erf_zero] using this
  · rw [hsat d, sub_eq_add_neg, hsat (-d), neg_div, erf_neg,
      mul_div_assoc, mul_div_assoc, div_self (by positivity), div_self (by positivity)]
    ring
  · rw [hcen d, sub_eq_add_neg p.M_min d, hcen (-d), neg_div (p.x * p.sig_logm) d, erf_neg, neg_sq]; ring
  · rw [hcen d, sub_eq_add_neg p.M_min d, hcen (-d), neg_div (p.x * p.sig_logm) d, erf_neg, neg_sq]; ring

/-- C03 `Tinker05` satellites: none up to `10**M_min`; above, a power law damped by `exp(-10**M_cut/Δ)` with
`Δ` the mass above `10**M_min`: `1/e` at `Δ = 10**M_cut`, undamped for very massive haloes, and strictly
increasing.  Whatever `central` is, the numbers are the same. -/
theorem C03_tinker_satellite (p : TinkerP) (c : Bool) :
    (∀ m, m ≤ 10 ^ p.M_min → (tinker05 p c).satOcc m = 0) ∧
    (tinker05 p c).satOcc (10 ^ p.M_min + 10 ^ p.M_cut)
      = Real.exp (-1) * ((10 ^ p.M_min + 10 ^ p.M_cut) / 10 ^ p.M_1) ∧
    (∀ a b, 10 ^ p.M_min < a → a < b → (tinker05 p c).satOcc a < (tinker05 p c).satOcc b) ∧
    Tendsto (fun m => (tinker05 p c).satOcc m / (m / 10 ^ p.M_1)) atTop (𝓝 1) := by
  have e : ∀ m, (tinker05 p c).satOcc m = tinkerSat p m := by
    intro m; simp [tinker05, poisson, satelliteOccupation]
  have hmin : (0:ℝ) < 10 ^ p.M_min := by positivity
  have hcut : (0:ℝ) < 10 ^ p.M_cut := by positivity
  have hM1 : (0:ℝ) < 10 ^ p.M_1 := by positivity
  have above : ∀ m, 10 ^ p.M_min < m → tinkerSat p m
      = Real.exp (-(10 ^ p.M_cut) / (m - 10 ^ p.M_min)) * (m / 10 ^ p.M_1) := by
    intro m hm
    have hz : zehaviCen p.M_min m = 1 := if_neg (not_lt.mpr hm.le)
    rw [tinkerSat, if_neg hm.ne', hz, one_mul]
  refine ⟨fun m hm => ?_, ?_, fun a b ha hab => ?_, ?_⟩
  · rw [e]
    rcases hm.lt_or_eq with h | h
    · have hz : zehaviCen p.M_min m = 0 := if_pos h
      rw [tinkerSat, if_neg h.ne, hz]; simp
    · rw [tinkerSat, if_pos h]
  · rw [e, above _ (by linarith), add_sub_cancel_left, neg_div, div_self hcut.ne']
  · rw [e, e, above a ha, above b (ha.trans hab)]
    have h1 : Real.exp (-(10 ^ p.M_cut) / (a - 10 ^ p.M_min))
        < Real.exp (-(10 ^ p.M_cut) / (b - 10 ^ p.M_min)) := by
      apply Real.exp_lt_exp.mpr
      rw [neg_div, neg_div, neg_lt_neg_iff]
      exact div_lt_div_of_pos_left hcut (by linarith) (by linarith)
    have h2 : a / 10 ^ p.M_1 < b / 10 ^ p.M_1 := by gcongr
    have h3 : 0 < a / 10 ^ p.M_1 := div_pos (by linarith) hM1
    exact mul_lt_mul h1 h2.le h3 (Real.exp_pos _).le
  · have h : Tendsto (fun m : ℝ => Real.exp (-(10 ^ p.M_cut) / (m - 10 ^ p.M_min))) atTop (𝓝 1) := by
      have : Tendsto (fun m : ℝ => -(10 ^ p.M_cut) / (m - 10 ^ p.M_min)) atTop (𝓝 0) :=
        Tendsto.const_div_atTop (tendsto_atTop_add_const_right _ _ tendsto_id) _
      simpa using this.rexp
    refine h.congr' ?_
    filter_upwards [eventually_gt_atTop ((10:ℝ) ^ p.M_min)] with m hm
    have : m / 10 ^ p.M_1 ≠ 0 := (div_pos (by linarith) hM1).ne'
    rw [e, above m hm, mul_div_assoc, div_self this, mul_one]

/-- C03 `Spinelli19`: satellites are absent below `10**11` (whatever the parameters) and present from there on;
at the break mass they are `10**M_0 / e`.  Centrals are positive, never more than
`m (a1 (m/10**10)**beta + a2)`, and for very massive haloes the HI per halo mass tends to `a2`. -/
theorem C03_spinelli (p : SpinelliP) (h1 : 0 < p.a1) (h2 : 0 ≤ p.a2) (ha : 0 < p.alpha) :
    (∀ m c, 0 < m → m < 10 ^ 11 → (spinelli19 p c).satOcc m = 0) ∧
    (∀ m, 10 ^ 11 ≤ m → 0 < (spinelli19 p false).satOcc m) ∧
    (11 ≤ p.M_break_sat → (spinelli19 p false).satOcc (10 ^ p.M_break_sat) = 10 ^ p.M_0 * Real.exp (-1)) ∧
    (∀ m c, 0 < m → 0 < (spinelli19 p c).cenOcc m ∧
      (spinelli19 p c).cenOcc m ≤ m * (p.a1 * (m / 1e10) ^ p.beta + p.a2)) ∧
    (∀ c, Tendsto (fun m => (spinelli19 p c).cenOcc m / m) atTop (𝓝 p.a2)) ∧
    (∀ c, (spinelli19 p c).cenOcc (10 ^ p.M_break)
      = 10 ^ p.M_break * (p.a1 * (10 ^ p.M_break / 1e10) ^ p.beta * Real.exp (-1) + p.a2)
        * Real.exp (-(10 ^ ((p.M_1 - p.M_break) / 2)))) := by
  have hb : (0:ℝ) < 10 ^ p.M_break := by positivity
  have hM1 : (0:ℝ) < 10 ^ p.M_1 := by positivity
  refine ⟨fun m c h0 hm => ?_, fun m hm => ?_, fun h => ?_, fun m c hm => ⟨?_, ?_⟩, fun c => ?_, fun c => ?_⟩
  · have : spinelliSat p m = 0 := by unfold spinelliSat; rw [if_neg (not_le.mpr hm)]; simp
    simp [spinelli19, poisson, satelliteOccupation, spinelliDef, this]
  · have hm0 : 0 < m := lt_of_lt_of_le (by positivity) hm
    simp only [spinelli19, poisson, satelliteOccupation, spinelliDef, spinelliSat, if_pos hm]
    simp only [Bool.false_and, Bool.false_eq_true, if_false]
    positivity
  · have hge : (10:ℝ) ^ p.M_break_sat ≥ 10 ^ 11 := by
      have := Real.rpow_le_rpow_of_exponent_le (x := 10) (by norm_num) h
      have e : (10:ℝ) ^ (11:ℝ) = 10 ^ 11 := by norm_num
      rwa [e] at this
    simp only [spinelli19, poisson, satelliteOccupation, spinelliDef, spinelliSat, if_pos hge]
    rw [div_self (by positivity)]
    simp
  · simp only [spinelli19, poisson, spinelliDef, spinelliCen]
    positivity
  · simp only [spinelli19, poisson, spinelliDef, spinelliCen]
    have e1 : Real.exp (-((10 ^ p.M_1 / m) ^ (0.5:ℝ))) ≤ 1 :=
      Real.exp_le_one_iff.mpr (neg_nonpos.mpr (by positivity))
    have e2 : Real.exp (-((m / 10 ^ p.M_break) ^ p.alpha)) ≤ 1 :=
      Real.exp_le_one_iff.mpr (neg_nonpos.mpr (by positivity))
    have q : 0 ≤ p.a1 * (m / 1e10) ^ p.beta := by positivity
    calc m * (p.a1 * (m / 1e10) ^ p.beta * Real.exp (-((m / 10 ^ p.M_break) ^ p.alpha)) + p.a2)
          * Real.exp (-((10 ^ p.M_1 / m) ^ (0.5:ℝ)))
        ≤ m * (p.a1 * (m / 1e10) ^ p.beta * Real.exp (-((m / 10 ^ p.M_break) ^ p.alpha)) + p.a2) * 1 := by
          gcongr
      _ ≤ m * (p.a1 * (m / 1e10) ^ p.beta * 1 + p.a2) * 1 := by gcongr
      _ = _ := by ring
  · have ec : ∀ m, (spinelli19 p c).cenOcc m = spinelliCen p m := fun _ => rfl
    -- the bracket tends to `a2`
    have t1 : Tendsto (fun m : ℝ => Real.exp (-((10 ^ p.M_1 / m) ^ (0.5:ℝ)))) atTop (𝓝 1) := by
      have : Tendsto (fun m : ℝ => (10 ^ p.M_1 / m) ^ (0.5:ℝ)) atTop (𝓝 0) := by
        have h := (tendsto_const_nhds (x := (10:ℝ) ^ p.M_1)).div_atTop tendsto_id
        have := h.rpow_const (p := (0.5:ℝ)) (Or.inr (by norm_num))
        rwa [Real.zero_rpow (by norm_num)] at this
      simpa using this.neg.rexp
    have t2 : Tendsto (fun m : ℝ => (m / 1e10) ^ p.beta * Real.exp (-((m / 10 ^ p.M_break) ^ p.alpha)))
        atTop (𝓝 0) := by
      -- substitute y = (m / Mb)^alpha
      have hy : Tendsto (fun m : ℝ => (m / 10 ^ p.M_break) ^ p.alpha) atTop atTop :=
        (tendsto_rpow_atTop ha).comp (tendsto_id.atTop_div_const hb)
      have h := (tendsto_rpow_mul_exp_neg_mul_atTop_nhds_zero (p.beta / p.alpha) 1 one_pos).comp hy
      have h' := h.const_mul (((10:ℝ) ^ p.M_break / 1e10) ^ p.beta)
      rw [mul_zero] at h'
      refine h'.congr' ?_
      filter_upwards [eventually_gt_atTop (0:ℝ)] with m hm
      have q : 0 < m / 10 ^ p.M_break := div_pos hm hb
      simp only [Function.comp]
      rw [← Real.rpow_mul q.le, mul_div_cancel₀ _ ha.ne', ← mul_assoc, ← Real.mul_rpow (by positivity) q.le]
      congr 2
      · field_simp
      · ring
    have t3 : Tendsto (fun m : ℝ => (p.a1 * ((m / 1e10) ^ p.beta *
        Real.exp (-((m / 10 ^ p.M_break) ^ p.alpha))) + p.a2) * Real.exp (-((10 ^ p.M_1 / m) ^ (0.5:ℝ))))
        atTop (𝓝 p.a2) := by
      have := ((t2.const_mul p.a1).add_const p.a2).mul t1
      simpa using this
    refine t3.congr' ?_
    filter_upwards [eventually_gt_atTop (0:ℝ)] with m hm
    rw [ec, spinelliCen]
    field_simp
  · simp only [spinelli19, poisson, spinelliDef, spinelliCen]
    rw [div_self hb.ne', Real.one_rpow, ← Real.rpow_sub (by norm_num), ← Real.rpow_mul (by norm_num)]
    rw [show (p.M_1 - p.M_break) * (0.5:ℝ) = (p.M_1 - p.M_break) / 2 by ring]

example : let p : SpinelliP := {}
    0 < p.a1 ∧ 0 ≤ p.a2 ∧ 0 < p.alpha ∧ 11 ≤ p.M_break_sat := by norm_num

/-- C03 `Spinelli19` counts: inside the counts range there is one central per halo with a central's HI, and
the number of satellites is the HI of the satellites divided by the power law of the counts; with
`central=False` the count of satellites at `10**M_1_counts` is their HI. -/
theorem C03_spinelli_counts (p : SpinelliP) (c : Bool) (m : ℝ)
    (hm : 10 ^ p.M_min_counts ≤ m ∧ m ≤ 10 ^ p.M_max_counts) :
    (spinelli19 p c).nc m = (spinelli19 p c).cenOcc m ∧
    (spinelli19 p c).ns m = (spinelli19 p c).satOcc m / (m / 10 ^ p.M_1_counts) ^ p.alpha_counts ∧
    (spinelli19 p c).csPairs m = (if c then (spinelli19 p c).satOcc m
      else (spinelli19 p c).cenOcc m * (spinelli19 p c).satOcc m) := by
  have h : (10:ℝ) ^ p.M_min_counts ≤ m ∧ (10:ℝ) ^ p.M_max_counts ≥ m := hm
  have e1 : spinelliTpc p m = 1 := if_pos h
  have e2 : spinelliTps p m = _ := if_pos h
  refine ⟨?_, ?_, ?_⟩
  · simp [spinelli19, poisson, spinelliDef, e1]
  · simp only [spinelli19, poisson, spinelliDef, e2]
  · cases c <;> simp [spinelli19, poisson, spinelliDef, e1]

example : let p : SpinelliP := {}
    (10:ℝ) ^ p.M_min_counts ≤ 10 ^ (12:ℝ) ∧ (10:ℝ) ^ (12:ℝ) ≤ 10 ^ p.M_max_counts := by
  constructor <;> exact Real.rpow_le_rpow_of_exponent_le (by norm_num) (by norm_num)

/-! ## Leauthaud11 -/

/-- C06: at redshift 0 the evolution parameters play no role; in general a parameter moves linearly in the
scale factor, from `x_0` today to `x_0 - x_a` in the limit of high redshift. -/
theorem C06_evolution (p : LeauthaudP) (x0 xa : ℝ) :
    (p.redshift = 0 → p.evolve x0 xa = x0) ∧
    (p.redshift = 1 → p.evolve x0 xa = x0 - xa / 2) ∧
    Tendsto (fun z => ({ p with redshift := z } : LeauthaudP).evolve x0 xa) atTop (𝓝 (x0 - xa)) := by
  refine ⟨fun h => by simp [LeauthaudP.evolve, h], fun h => by simp only [LeauthaudP.evolve, h]; ring, ?_⟩
  have h : Tendsto (fun z : ℝ => 1 / (1 + z)) atTop (𝓝 0) :=
    Tendsto.const_div_atTop (tendsto_atTop_add_const_left _ _ tendsto_id) _
  have := ((h.sub_const 1).const_mul xa).const_add x0
  have e : x0 + xa * (0 - 1) = x0 - xa := by ring
  rw [e] at this
  exact this

/-- C06: far below the characteristic stellar mass the relation is the power law of slope `1/beta` (halo mass
as stellar mass to the `beta`), up to the constant 0.5: what is added to it is positive, less than
`q**delta`, where `q` is the stellar mass in units of the characteristic one. -/
theorem C06_shmr_low_mass (p : LeauthaudP) (s : ℝ) :
    let q : ℝ := 10 ^ (s - p.evolve p.smhm_m0_0 p.smhm_m0_a)
    let line := p.evolve p.smhm_m1_0 p.smhm_m1_a - 0.5
      + p.evolve p.smhm_beta_0 p.smhm_beta_a * (s - p.evolve p.smhm_m0_0 p.smhm_m0_a)
    line < p.meanLogHaloMass s ∧
    p.meanLogHaloMass s < line + q ^ (p.evolve p.smhm_delta_0 p.smhm_delta_a) ∧
    p.meanLogHaloMass s < line + q ^ (p.evolve p.smhm_delta_0 p.smhm_delta_a
      + p.evolve p.smhm_gamma_0 p.smhm_gamma_a) := by
  intro q line
  have hq : (10:ℝ) ^ s / 10 ^ (p.evolve p.smhm_m0_0 p.smhm_m0_a) = q :=
    (Real.rpow_sub (by norm_num) _ _).symm
  have q0 : 0 < q := by positivity
  simp only [LeauthaudP.meanLogHaloMass, hq]
  have hl : log10 q = s - p.evolve p.smhm_m0_0 p.smhm_m0_a := log10_pow _
  rw [hl]
  set d := p.evolve p.smhm_delta_0 p.smhm_delta_a
  set g := p.evolve p.smhm_gamma_0 p.smhm_gamma_a
  have hg : 0 < q ^ (-g) := by positivity
  have hd : 0 < q ^ d := by positivity
  have f1 : 0 < q ^ d / (1 + q ^ (-g)) := by positivity
  have f2 : q ^ d / (1 + q ^ (-g)) < q ^ d := by
    rw [div_lt_iff₀ (by positivity)]
    nlinarith
  have f3 : q ^ d / (1 + q ^ (-g)) < q ^ (d + g) := by
    rw [div_lt_iff₀ (by positivity), mul_add, mul_one, ← Real.rpow_add q0, add_neg_cancel_right]
    have : 0 < q ^ (d + g) := by positivity
    linarith
  refine ⟨?_, ?_, ?_⟩ <;> simp only [line] <;> linarith

/-- C03 `Leauthaud11` centrals: strictly between 0 and 1; one half exactly where the mean stellar mass equals
the threshold, more than half exactly where it is above; lowering the threshold increases them strictly;
and when the mean log stellar mass is `t sqrt2 sig_logmstar` above the threshold they are `(1+erf t)/2`. -/
theorem C03_leauthaud_central (interp : List (ℝ × ℝ) → ℝ → ℝ) (p : LeauthaudP) (hs : 0 < p.sig_logmstar)
    (c : Bool) (m : ℝ) :
    (0 < (leauthaud11 interp p c).cenOcc m ∧ (leauthaud11 interp p c).cenOcc m < 1) ∧
    ((leauthaud11 interp p c).cenOcc m = 1 / 2 ↔ p.meanLogStellarMass interp m = p.sm_thresh) ∧
    (1 / 2 < (leauthaud11 interp p c).cenOcc m ↔ p.sm_thresh < p.meanLogStellarMass interp m) ∧
    (∀ t, t < p.sm_thresh → (leauthaud11 interp p c).cenOcc m
      < (leauthaud11 interp { p with sm_thresh := t } c).cenOcc m) ∧
    (∀ t, p.meanLogStellarMass interp m = p.sm_thresh + t * Real.sqrt 2 * p.sig_logmstar →
      (leauthaud11 interp p c).cenOcc m = (1 + erf t) / 2) := by
  have h2 : 0 < Real.sqrt 2 := by positivity
  set w := Real.sqrt 2 * p.sig_logmstar with hw
  have w0 : 0 < w := by positivity
  have e : (leauthaud11 interp p c).cenOcc m
      = 0.5 * (1 - erf ((p.sm_thresh - p.meanLogStellarMass interp m) / w)) := rfl
  have inj : ∀ x, erf x = 0 ↔ x = 0 := fun x => by
    conv_lhs => rw [← erf_zero]
    exact erf_strictMono.injective.eq_iff
  have neg : ∀ x, erf x < 0 ↔ x < 0 := fun x => by
    conv_lhs => rw [← erf_zero]
    exact erf_strictMono.lt_iff_lt
  have b1 := erf_lt_one ((p.sm_thresh - p.meanLogStellarMass interp m) / w)
  have b2 := neg_one_lt_erf ((p.sm_thresh - p.meanLogStellarMass interp m) / w)
  refine ⟨⟨by rw [e]; linarith, by rw [e]; linarith⟩, ?_, ?_, fun t ht => ?_, fun t ht => ?_⟩
  · rw [e]
    have : (0.5 * (1 - erf ((p.sm_thresh - p.meanLogStellarMass interp m) / w)) = 1 / 2) ↔
        erf ((p.sm_thresh - p.meanLogStellarMass interp m) / w) = 0 := by
      constructor <;> intro h <;> linarith
    rw [this, inj, div_eq_zero_iff, or_iff_left w0.ne', sub_eq_zero, eq_comm]
  · rw [e]
    have : (1 / 2 < 0.5 * (1 - erf ((p.sm_thresh - p.meanLogStellarMass interp m) / w))) ↔
        erf ((p.sm_thresh - p.meanLogStellarMass interp m) / w) < 0 := by
      constructor <;> intro h <;> linarith
    rw [this, neg, div_lt_iff₀ w0, zero_mul, sub_neg]
  · have e' : (leauthaud11 interp { p with sm_thresh := t } c).cenOcc m
        = 0.5 * (1 - erf ((t - p.meanLogStellarMass interp m) / w)) := rfl
    have : erf ((t - p.meanLogStellarMass interp m) / w)
        < erf ((p.sm_thresh - p.meanLogStellarMass interp m) / w) := by
      apply erf_strictMono
      gcongr
    rw [e, e']; linarith
  · rw [e, ht, show (p.sm_thresh - (p.sm_thresh + t * Real.sqrt 2 * p.sig_logmstar)) / w = -t by
      rw [hw]; field_simp; ring, erf_neg]
    ring

example : (0:ℝ) < ({} : LeauthaudP).sig_logmstar := by norm_num

/-- C03 `Leauthaud11` satellites with `central=False`: positive, less than centrals times the power law
`(m/M_sat)**alphasat`, for massive haloes equal to it in the limit of `m ≫ M_cut`; the scale masses `M_sat`,
`M_cut` are `bsat`, `bcut` times the knee mass `7.2e11` when the halo mass at the threshold is the knee. -/
theorem C03_leauthaud_satellite (interp : List (ℝ × ℝ) → ℝ → ℝ) (p : LeauthaudP) (hs : 0 < p.sig_logmstar)
    (h1 : 0 < p.bsat) (h2 : 0 < p.bcut) :
    ∃ Msat Mcut : ℝ, 0 < Msat ∧ 0 < Mcut ∧
      ((10:ℝ) ^ p.meanLogHaloMass p.sm_thresh = 7.2e11 → Msat = p.bsat * 7.2e11 ∧ Mcut = p.bcut * 7.2e11) ∧
      ((10:ℝ) ^ p.meanLogHaloMass p.sm_thresh = 10 * 7.2e11 →
        Msat = p.bsat * 7.2e11 * 10 ^ p.betasat ∧ Mcut = p.bcut * 7.2e11 * 10 ^ p.betacut) ∧
      (∀ m, 0 < m → 0 < (leauthaud11 interp p false).satOcc m ∧
        (leauthaud11 interp p false).satOcc m
          < (leauthaud11 interp p false).cenOcc m * (m / Msat) ^ p.alphasat) ∧
      (leauthaud11 interp p false).satOcc Mcut
        = (leauthaud11 interp p false).cenOcc Mcut * (Mcut / Msat) ^ p.alphasat * Real.exp (-1) ∧
      Tendsto (fun m => (leauthaud11 interp p false).satOcc m
        / ((leauthaud11 interp p false).cenOcc m * (m / Msat) ^ p.alphasat)) atTop (𝓝 1) := by
  have hk : (1.0e12 * 0.72 : ℝ) = 7.2e11 := by norm_num
  have pos : ∀ b be : ℝ, 0 < b → 0 < p.scaled b be := by
    intro b be hb
    simp only [LeauthaudP.scaled]; positivity
  set Ms := p.scaled p.bsat p.betasat with hMs
  set Mc := p.scaled p.bcut p.betacut with hMc
  have Ms0 : 0 < Ms := pos _ _ h1
  have Mc0 : 0 < Mc := pos _ _ h2
  have sv : ∀ m, (leauthaud11 interp p false).satOcc m
      = Real.exp (-Mc / m) * (m / Ms) ^ p.alphasat * (leauthaud11 interp p false).cenOcc m := by
    intro m
    simp [leauthaud11, poisson, satelliteOccupation, leauthaudSat, hMs, hMc]
  have cp : ∀ m, 0 < (leauthaud11 interp p false).cenOcc m := fun m =>
    (C03_leauthaud_central interp p hs false m).1.1
  refine ⟨Ms, Mc, Ms0, Mc0, fun h => ?_, fun h => ?_, fun m hm => ⟨?_, ?_⟩, ?_, ?_⟩
  · simp only [hMs, hMc, LeauthaudP.scaled, hk, h]
    rw [div_self (by norm_num)]
    simp only [Real.one_rpow]
    constructor <;> ring
  · simp only [hMs, hMc, LeauthaudP.scaled, hk, h]
    rw [mul_div_cancel_right₀ _ (by norm_num)]
    constructor <;> ring
  · rw [sv]
    have := cp m
    positivity
  · rw [sv]
    have c0 := cp m
    have e : Real.exp (-Mc / m) < 1 := by
      rw [Real.exp_lt_one_iff]; exact div_neg_of_neg_of_pos (by linarith) hm
    have q : 0 < (m / Ms) ^ p.alphasat := by positivity
    calc Real.exp (-Mc / m) * (m / Ms) ^ p.alphasat * (leauthaud11 interp p false).cenOcc m
        < 1 * (m / Ms) ^ p.alphasat * (leauthaud11 interp p false).cenOcc m := by gcongr
      _ = _ := by ring
  · rw [sv, neg_div, div_self Mc0.ne']; ring
  · have h : Tendsto (fun m : ℝ => Real.exp (-Mc / m)) atTop (𝓝 1) := by
      have : Tendsto (fun m : ℝ => -Mc / m) atTop (𝓝 0) := Tendsto.const_div_atTop tendsto_id _
      simpa using this.rexp
    refine h.congr' ?_
    filter_upwards [eventually_gt_atTop (0:ℝ)] with m hm
    have c0 := (cp m).ne'
    have q : (m / Ms) ^ p.alphasat ≠ 0 := (Real.rpow_pos_of_pos (div_pos hm Ms0) _).ne'
    rw [sv]
    rw [mul_assoc, mul_comm ((m / Ms) ^ p.alphasat), mul_div_assoc, div_self (mul_ne_zero c0 q), mul_one]

example : (0:ℝ) < ({} : LeauthaudP).bsat ∧ (0:ℝ) < ({} : LeauthaudP).bcut := by constructor <;> norm_num

/-- C06: the table behind the inverse relation has 1000 entries, the stellar masses run evenly from 0 to 14 dex;
so any interpolation that reproduces its nodes inverts the stellar-to-halo relation at the nodes. -/
theorem C06_table (interp : List (ℝ × ℝ) → ℝ → ℝ) (p : LeauthaudP)
    (hn : ∀ s ∈ logStellarTable, interp (logStellarTable.map fun s => (p.meanLogHaloMass s, s))
      (p.meanLogHaloMass s) = s) :
    logStellarTable.length = 1000 ∧ (∀ i : ℕ, i < 1000 → logStellarTable[i]? = some (14 * (i:ℝ) / 999)) ∧
    logStellarTable[0]? = some 0 ∧ logStellarTable[999]? = some 14 ∧
    ∀ s ∈ logStellarTable, p.meanLogStellarMass interp (10 ^ p.meanLogHaloMass s) = s := by
  have key : ∀ i : ℕ, i < 1000 → logStellarTable[i]? = some (14 * (i:ℝ) / 999) := by
    intro i hi
    rw [logStellarTable, List.getElem?_map, List.getElem?_range hi]
    simp only [Option.map_some, Option.some.injEq]
    ring
  refine ⟨?_, key, ?_, ?_, fun s hs => ?_⟩
  · rw [logStellarTable, List.length_map, List.length_range]
  · rw [key 0 (by norm_num)]; norm_num
  · rw [key 999 (by norm_num)]; norm_num
  · rw [LeauthaudP.meanLogStellarMass, log10_pow]; exact hn s hs

-- the hypothesis holds, e.g., for the exact inverse with the default parameters
example : ∃ interp : List (ℝ × ℝ) → ℝ → ℝ, ∀ s ∈ logStellarTable,
    interp (logStellarTable.map fun s => (({} : LeauthaudP).meanLogHaloMass s, s))
      (({} : LeauthaudP).meanLogHaloMass s) = s := by
  refine ⟨fun _ v => Function.invFun ({} : LeauthaudP).meanLogHaloMass v, fun s _ => ?_⟩
  refine Function.leftInverse_invFun (StrictMono.injective (C06_shmr_strictMono _ ?_ ?_ ?_)) s <;>
    simp only [LeauthaudP.evolve] <;> norm_num

end Halomod.HOD
