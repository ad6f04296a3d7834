import Verif.Props.Documented
import Verif.Model.Hod
import Verif.Prelude.Erf

/-!
# C63 continued: concentration relations and HODs
-/
namespace Halomod.Params

open Halomod.Documented (given Known)

/-- C63: `Bullock01Power` is the documented power law with the documented defaults; its pivot is the non-linear mass at
the redshift asked for unless the user passes one. -/
theorem C63_bullock_power (kw : Dict) (hk : Known kw ["a", "b", "c", "norm"]) (i : ConcIn) (m z : ℝ) :
    concCall .bullock01Power kw none i m z = .ok (some (given kw "norm" 1 *
      Documented.power (given kw "a" 9) (given kw "b" (-0.13)) (given kw "c" 1) (i.mnl z) m z)) := by
  unfold concCall
  rw [init_ok (by simpa [concDefaults] using hk)]
  simp [concDefaults, get, msDefault, Documented.power, bind, Except.bind, List.lookup_cons,
    Concentration.bullockPower, Concentration.powerCm, Concentration.orElse]

/-- C63: a pivot passed by the user is used. -/
theorem C63_bullock_pivot (kw : Dict) (hk : Known kw ["a", "b", "c", "norm"]) (i : ConcIn) (ms m z : ℝ) (hms : ms ≠ 0) :
    concCall .bullock01Power kw (some (some ms)) i m z = .ok (some (given kw "norm" 1 *
      Documented.power (given kw "a" 9) (given kw "b" (-0.13)) (given kw "c" 1) ms m z)) := by
  unfold concCall
  rw [init_ok (by simpa [concDefaults] using hk)]
  simp [concDefaults, get, msDefault, Documented.power, bind, Except.bind, List.lookup_cons,
    Concentration.bullockPower, Concentration.powerCm, Concentration.orElse, hms]

/-- C63: `Zehavi11` is the documented power law with `(11, -0.13, 1, 2.26e12)`, whatever the non-linear mass. -/
theorem C63_zehavi11 (kw : Dict) (hk : Known kw ["a", "b", "c", "norm"]) (i : ConcIn) (m z : ℝ) :
    concCall .zehavi11 kw none i m z = .ok (some (given kw "norm" 1 *
      Documented.power (given kw "a" 11) (given kw "b" (-0.13)) (given kw "c" 1) 2.26e12 m z)) := by
  unfold concCall
  rw [init_ok (by simpa [concDefaults] using hk)]
  simp [concDefaults, get, msDefault, Documented.power, bind, Except.bind, List.lookup_cons,
    Concentration.bullockPower, Concentration.powerCm, Concentration.orElse]
  norm_num

/-- C63: `Maccio07` is the relation of the cited Padmanabhan et al. (2017), `c_0 (M/10^11)^(-0.109) 4/(1+z)^γ`, with
`c_0 = 28.65` and `γ = 1.45` unless the user passes others. -/
theorem C63_maccio07 (kw : Dict) (hk : Known kw ["c_0", "gamma", "norm"]) (i : ConcIn) (m z : ℝ) :
    concCall .maccio07 kw none i m z = .ok (some (given kw "norm" 1 * (given kw "c_0" 28.65 *
      (m / 10 ^ 11) ^ (-0.109:ℝ) * 4 / (1 + z) ^ given kw "gamma" 1.45))) := by
  have e : ∀ c g n : ℝ, Concentration.maccio07 c g n m z = n * (c * (m / 10 ^ 11) ^ (-0.109:ℝ) * 4 / (1 + z) ^ g) := by
    intro c g n
    unfold Concentration.maccio07
    rw [show m * (10:ℝ) ^ (-11:ℤ) = m / 10 ^ 11 by
      rw [zpow_neg, div_eq_mul_inv]; norm_cast]
    ring
  unfold concCall
  simp only [e]
  rw [init_ok (by simpa [concDefaults] using hk)]
  generalize (m / 10 ^ 11) ^ (-0.109:ℝ) = X
  simp [concDefaults, get, bind, Except.bind, List.lookup_cons]

/-- C30: the concentration of `Zehavi11` falls exactly as `1/(1+z)`. -/
theorem C30_zehavi11_redshift (mnl : ℝ → ℝ) (m z : ℝ) (hz : -1 < z) :
    Concentration.bullockPower Concentration.zehavi11 mnl m z * (1 + z)
      = Concentration.bullockPower Concentration.zehavi11 mnl m 0 := by
  have h : (1:ℝ) + z ≠ 0 := by linarith
  simp [Concentration.bullockPower, Concentration.zehavi11, Concentration.powerCm, Concentration.orElse]
  norm_num
  field_simp

/-- the concentration of the eight-parameter fit of Ludlow et al. (2016), equations C1-C6 of the cited paper. -/
noncomputable def ludlowC (c0 β γ1 γ2 δc D m z : ℝ) : ℝ :=
  let ξ := 1 / (m / 10 ^ 10)
  let σ := D * (22.26 * ξ ^ (0.292:ℝ) / (1 + 1.53 * ξ ^ (0.275:ℝ) + 3.36 * ξ ^ (0.198:ℝ)))
  let ν := δc / σ
  let ν0 := (4.135 - 0.564 * (1 + z) - 0.21 * (1 + z) ^ 2 + 0.0557 * (1 + z) ^ 3 - 0.00348 * (1 + z) ^ 4) / D
  c0 * (ν / ν0) ^ (-γ1) * (1 + (ν / ν0) ^ (1 / β)) ^ (-β * (γ2 - γ1))

theorem empSig_eq (D m : ℝ) : Concentration.empSig D m =
      D * (22.26 * (1 / (m / 10 ^ 10)) ^ (0.292:ℝ) / (1 + 1.53 * (1 / (m / 10 ^ 10)) ^ (0.275:ℝ)
        + 3.36 * (1 / (m / 10 ^ 10)) ^ (0.198:ℝ))) := by
  have h : (1e10 : ℝ) / m = 1 / (m / 10 ^ 10) := by
    rw [one_div_div]; norm_num
  unfold Concentration.empSig
  simp only [h]
  rw [mul_assoc, mul_div_assoc]

theorem nu0_eq (D z : ℝ) : Concentration.nu0 D z =
      (4.135 - 0.564 * (1 + z) - 0.21 * (1 + z) ^ 2 + 0.0557 * (1 + z) ^ 3 - 0.00348 * (1 + z) ^ 4) / D := by
  unfold Concentration.nu0
  simp only [one_div, div_inv_eq_mul, inv_pow]

theorem empirical_eq (p : Concentration.EmpParams) (dc D m z : ℝ) (hm : 0 < m) (hd : 0 < dc) (hD : 0 < D)
    (h0 : 0 < 4.135 - 0.564 * (1 + z) - 0.21 * (1 + z) ^ 2 + 0.0557 * (1 + z) ^ 3 - 0.00348 * (1 + z) ^ 4) :
    Concentration.empirical p dc D m z = some (p.norm * ludlowC (p.c0_0 * (1 + z) ^ p.c0_z)
      (p.beta_0 * (1 + z) ^ p.beta_z) (p.gamma1_0 * (1 + z) ^ p.gamma1_z) (p.gamma2_0 * (1 + z) ^ p.gamma2_z) dc D m z) := by
  have hpos : ¬ dc / Concentration.empSig D m / Concentration.nu0 D z < 0 := by
    rw [empSig_eq, nu0_eq, not_lt]; positivity
  unfold ludlowC Concentration.empirical Concentration.evolve
  rw [if_neg hpos]
  simp only
  rw [← empSig_eq, ← nu0_eq]
  simp only [mul_assoc]

/-- C63: `Ludlow16Empirical` (and its deprecated alias) is equations C1-C6 of the cited paper with the documented
defaults, at redshifts where the published `ν0` is positive. -/
theorem C63_ludlow16Empirical (kw : Dict) (hk : Known kw ["c0_0", "c0_z", "beta_0", "beta_z", "gamma1_0", "gamma1_z",
      "gamma2_0", "gamma2_z", "norm"]) (i : ConcIn) (m z : ℝ) (hm : 0 < m) (hd : 0 < i.delta_c) (hD : 0 < i.D z)
    (h0 : 0 < 4.135 - 0.564 * (1 + z) - 0.21 * (1 + z) ^ 2 + 0.0557 * (1 + z) ^ 3 - 0.00348 * (1 + z) ^ 4)
    (cls : ConcCls) (hc : cls = .ludlow16Empirical ∨ cls = .ludlow2016Empirical) :
    concCall cls kw none i m z = .ok (some (given kw "norm" 1 * ludlowC
      (given kw "c0_0" 3.395 * (1 + z) ^ given kw "c0_z" (-0.215))
      (given kw "beta_0" 0.307 * (1 + z) ^ given kw "beta_z" 0.54)
      (given kw "gamma1_0" 0.628 * (1 + z) ^ given kw "gamma1_z" (-0.047))
      (given kw "gamma2_0" 0.317 * (1 + z) ^ given kw "gamma2_z" (-0.893)) i.delta_c (i.D z) m z)) := by
  unfold concCall
  rcases hc with rfl | rfl <;>
  · rw [init_ok (by simpa [concDefaults] using hk)]
    simp only [empirical_eq _ _ _ _ _ hm hd hD h0]
    generalize ludlowC = L
    simp [concDefaults, get, bind, Except.bind, List.lookup_cons]

/-- C63: `Bullock01` is `K (1 + z_c)/(1 + z)` with the collapse redshifts it computes, and the documented `F`. -/
theorem C63_bullock01_partial (kw : Dict) (hk : Known kw ["F", "K", "norm"]) (nu D : ℝ → ℝ) (m : List ℝ) (z : ℝ) :
    bullockCall kw nu D m z = .ok ((Concentration.bullockZc (given kw "F" 0.01) nu D m z).map fun zc =>
      given kw "norm" 1 * (given kw "K" 3.4 * (1 + zc) / (1 + z))) := by
  unfold bullockCall Concentration.bullockCm
  obtain ⟨Z, hZ⟩ : ∃ Z : ℝ → List ℝ, ∀ F, Concentration.bullockZc F nu D m z = Z F := ⟨_, fun _ => rfl⟩
  rw [hZ]
  simp only [hZ]
  rw [init_ok (by simpa using hk)]
  simp only [get, bind, Except.bind, List.lookup_cons, List.map_cons, List.map_nil]
  simp
  intro a _
  ring

/-- C63 finding: the documentation gives the default `K = 0.34`; the concentrations are ten times those. -/
theorem C63_bullock01_K (nu D : ℝ → ℝ) (m : List ℝ) (z : ℝ) :
    bullockCall [] nu D m z = (bullockCall [("K", 0.34)] nu D m z).map fun l => l.map fun c => 10 * c := by
  rw [C63_bullock01_partial [] (by simp [Known]), C63_bullock01_partial [("K", 0.34)] (by simp [Known])]
  simp [Except.map, given, List.lookup_cons]
  intro a _
  ring

end Halomod.Params

namespace Halomod.HOD

/-- C63: for `Zehavi05` a halo of mass `10**M_1` has one satellite on average, as documented, with the central
condition whenever such a halo has a central galaxy. -/
theorem C63_zehavi_M1 (p : ZehaviP) (c : Bool) (h : c = true → p.M_min ≤ p.M_1) :
    (zehavi05 p c).satOcc (10 ^ p.M_1) = 1 := by
  have h0 : (0:ℝ) < 10 ^ p.M_1 := by positivity
  have hs : zehaviSat p.M_1 p.alpha (10 ^ p.M_1) = 1 := by
    unfold zehaviSat; rw [div_self h0.ne', Real.one_rpow]
  cases c with
  | false => simpa [zehavi05, poisson, satelliteOccupation] using hs
  | true =>
    have : ¬ (10:ℝ) ^ p.M_1 < 10 ^ p.M_min :=
      not_lt.2 (Real.rpow_le_rpow_of_exponent_le (by norm_num) (h rfl))
    simp [zehavi05, poisson, satelliteOccupation, hs, zehaviCen, this]

/-- C63: for `Contreras13` the satellites of a halo of mass `10**M_1` number `fs`: one, by default, as documented. -/
theorem C63_contreras_M1 (p : ContrerasP) : (contreras13 p false).satOcc (10 ^ p.M_1) = p.fs := by
  have h0 : (0:ℝ) < 10 ^ p.M_1 := by positivity
  simp [contreras13, poisson, satelliteOccupation, contrerasSat, div_self h0.ne', log10, erf_zero]

/-- C63 finding: for `Zheng05` the documented meaning of `M_1` (mass of a halo with one satellite on average) is wrong:
such a halo has fewer; one satellite is reached at `10**M_1 + 10**M_0`. -/
theorem C63_zheng_M1 (p : ZhengP) (ha : 0 < p.alpha) (c : Bool) :
    (zheng05 p c).satOcc (10 ^ p.M_1) < 1 ∧ (zheng05 p false).satOcc (10 ^ p.M_1 + 10 ^ p.M_0) = 1 := by
  have h1 : (0:ℝ) < 10 ^ p.M_1 := by positivity
  have h0 : (0:ℝ) < 10 ^ p.M_0 := by positivity
  have hs : zhengSat p (10 ^ p.M_1) < 1 := by
    unfold zhengSat
    split_ifs with h
    · apply Real.rpow_lt_one
      · exact div_nonneg (by linarith) h1.le
      · rw [div_lt_one h1]; linarith
      · exact ha
    · norm_num
  have hn : 0 ≤ zhengSat p (10 ^ p.M_1) := by
    unfold zhengSat
    split_ifs with h
    · exact Real.rpow_nonneg (div_nonneg (by linarith) h1.le) _
    · exact le_rfl
  constructor
  · cases c with
    | false => simpa [zheng05, poisson, satelliteOccupation] using hs
    | true =>
      have hc : zhengCen p (10 ^ p.M_1) ≤ 1 := by
        unfold zhengCen
        have := (erf_lt_one ((log10 (10 ^ p.M_1) - p.M_min) / p.sig_logm))
        norm_num at *; linarith
      simp only [zheng05, poisson, satelliteOccupation, Bool.not_false, Bool.and_self, if_true, div_one]
      calc _ ≤ 1 * zhengSat p (10 ^ p.M_1) := mul_le_mul_of_nonneg_right hc hn
        _ < 1 := by linarith
  · simp [zheng05, poisson, satelliteOccupation, zhengSat, h1, div_self h1.ne']

/-- C63: for `Zheng05` the documented meaning of `M_0` holds: haloes have satellites exactly above it. -/
theorem C63_zheng_M0 (p : ZhengP) (m : ℝ) : 0 < (zheng05 p false).satOcc m ↔ 10 ^ p.M_0 < m := by
  have h1 : (0:ℝ) < 10 ^ p.M_1 := by positivity
  simp only [zheng05, poisson, satelliteOccupation, Bool.false_and, Bool.false_eq_true, if_false, zhengSat, gt_iff_lt]
  by_cases h : (10:ℝ) ^ p.M_0 < m
  · rw [if_pos h]
    exact ⟨fun _ => h, fun _ => Real.rpow_pos_of_pos (div_pos (by linarith) h1) _⟩
  · rw [if_neg h]
    simp [h]

/-- C63 finding: for `Zheng05` and `Contreras13` `M_min` is not the "minimum mass of halo that supports a central
galaxy": half of the haloes of that mass have one, and haloes of every lower mass still have some. -/
theorem C63_zheng_Mmin (p : ZhengP) (c : Bool) (m : ℝ) :
    (zheng05 p c).cenOcc (10 ^ p.M_min) = 1 / 2 ∧ 0 < (zheng05 p c).cenOcc m := by
  constructor
  · simp [zheng05, poisson, zhengCen, log10, Real.logb_rpow, erf_zero]; norm_num
  · simp only [zheng05, poisson, zhengCen]
    have := neg_one_lt_erf ((log10 m - p.M_min) / p.sig_logm)
    norm_num; linarith

/-- C63 finding: the parameter `M_0` of `Contreras13`, documented as the minimum mass of haloes containing satellites,
is never used, and haloes of every mass contain satellites. -/
theorem C63_contreras_M0 (p : ContrerasP) (c : Bool) (x m : ℝ) (hm : 0 < m) (hf : 0 < p.fs) :
    contreras13 { p with M_0 := x } c = contreras13 p c ∧ 0 < (contreras13 p false).satOcc m := by
  refine ⟨rfl, ?_⟩
  simp only [contreras13, poisson, satelliteOccupation, Bool.false_and, Bool.false_eq_true, if_false, contrerasSat]
  have := neg_one_lt_erf (log10 (m / 10 ^ p.M_1) / p.delta)
  have : 0 < 1 + erf (log10 (m / 10 ^ p.M_1) / p.delta) := by linarith
  positivity

/-- C63: with the default `fca`, `fcb`, `x` the central occupation of `Contreras13` is that of `Zheng05`. -/
theorem C63_contreras_default_centrals (p : ContrerasP) (q : ZhengP) (hx : p.x = 1) (ha : p.fca = 0.5)
    (hb : p.fcb = 0) (hm : p.M_min = q.M_min) (hs : p.sig_logm = q.sig_logm) (c : Bool) {m : ℝ} (h0 : 0 < m) :
    (contreras13 p c).cenOcc m = (zheng05 q c).cenOcc m := by
  have : log10 (m / 10 ^ q.M_min) = log10 m - q.M_min := by
    unfold log10
    rw [Real.logb_div h0.ne' (by positivity), Real.logb_rpow (by norm_num) (by norm_num)]
  simp [contreras13, zheng05, poisson, contrerasCen, zhengCen, hx, ha, hb, hm, hs, this]

/-- C63: `ContinuousPowerLaw` is the documented rescaling of the total occupation of the `Zehavi05` model (with the
same truncation and with the central condition), at every mass. -/
theorem C63_power_law_matches_zehavi (p : CplP) (c : Bool) (m : ℝ) :
    (continuousPowerLaw p c).totalOcc m =
      10 ^ p.logA * (zehavi05WithMax ⟨p.M_min, p.M_1, p.alpha, p.M_max⟩ true).totalOcc m := by
  simp only [continuousPowerLaw, bulk, Hod.totalOcc, satelliteOccupation, zehavi05WithMax, poisson, zehaviMaxCen,
    zehaviSat, cplSat, Bool.false_and, Bool.false_eq_true, if_false, Bool.not_false, Bool.and_self, if_true, div_one]
  split_ifs <;> ring

/-- C63: `Leauthaud11` with all evolution parameters zero (the default) does not depend on `redshift`, as documented. -/
theorem C63_leauthaud_redshift (interp : List (ℝ × ℝ) → ℝ → ℝ) (p : LeauthaudP) (z : ℝ) (c : Bool)
    (h0 : p.smhm_m0_a = 0) (h1 : p.smhm_m1_a = 0) (h2 : p.smhm_beta_a = 0) (h3 : p.smhm_delta_a = 0)
    (h4 : p.smhm_gamma_a = 0) :
    leauthaud11 interp { p with redshift := z } c = leauthaud11 interp p c := by
  have hm : LeauthaudP.meanLogHaloMass { p with redshift := z } = LeauthaudP.meanLogHaloMass p := by
    funext s
    simp [LeauthaudP.meanLogHaloMass, LeauthaudP.evolve, h0, h1, h2, h3, h4]
  have hc : leauthaudCen interp { p with redshift := z } = leauthaudCen interp p := by
    funext m
    simp only [leauthaudCen, LeauthaudP.meanLogStellarMass, hm]
  have hs : leauthaudSat interp { p with redshift := z } = leauthaudSat interp p := by
    funext m
    simp only [leauthaudSat, LeauthaudP.scaled, hm, hc]
  unfold leauthaud11
  rw [hc, hs]

example : ({} : ZehaviP).M_min ≤ ({} : ZehaviP).M_1 := by norm_num
example : let p : LeauthaudP := {}; p.smhm_m0_a = 0 ∧ p.smhm_gamma_a = 0 := by simp

end Halomod.HOD
