import Verif.Prelude.Erf
import Mathlib.Analysis.SpecialFunctions.Pow.Real
import Mathlib.Analysis.SpecialFunctions.Log.Base

/-!
# Model of `/repo/src/halomod/hod.py`

Floats are reals and numpy arrays are treated pointwise (justified in `Model/Batch.lean`, C73: every method of the module is
elementwise in the mass array).  `10 ** p` is the real power `10 ^ p`.
Masses are floating-point arrays here; integer-typed arrays (for which `np.zeros_like` truncates) are in
`Model/IntInput.lean`.
Division by zero and overflow, which the real model cannot see, are modelled in `Model/HodFloat.lean`.
-/
namespace Halomod.HOD

noncomputable section

/-- `np.log10` on positive reals. -/
def log10 (x : ℝ) : ℝ := Real.logb 10 x

/-- What an HOD object offers to callers: hod.py:117-184.
`cenOcc`/`satOcc` are the public `central_occupation`/`satellite_occupation`. -/
structure Hod where
  /-- `self._central`, hod.py:111 -/
  central : Bool
  /-- class variable `central_condition_inherent`, hod.py:102 -/
  inherent : Bool
  /-- class variable `sharp_cut`, hod.py:101 -/
  sharpCut : Bool
  nc : ℝ → ℝ
  ns : ℝ → ℝ
  cenOcc : ℝ → ℝ
  satOcc : ℝ → ℝ
  ssPairs : ℝ → ℝ
  csPairs : ℝ → ℝ
  sigmaSat : ℝ → ℝ
  sigmaCen : ℝ → ℝ
  /-- property `mmin` (log10 mass), hod.py:181-184 -/
  mmin : ℝ

/-- `HOD.total_occupation`, hod.py:169-171. -/
def Hod.totalOcc (h : Hod) (m : ℝ) : ℝ := h.cenOcc m + h.satOcc m

/-- `HOD.total_pair_function`, hod.py:173-175. -/
def Hod.totalPairs (h : Hod) (m : ℝ) : ℝ := h.ssPairs m + h.csPairs m

/-- `HOD.satellite_occupation`, hod.py:162-167; `sat` is the class's `_satellite_occupation`. -/
def satelliteOccupation (central inherent : Bool) (nc sat : ℝ → ℝ) (m : ℝ) : ℝ :=
  if central && !inherent then nc m * sat m else sat m

/-- What a concrete subclass of `HODPoisson` supplies (its overridden private methods). -/
structure PoissonDef where
  inherent : Bool
  sharpCut : Bool
  /-- `_central_occupation` -/
  cen : ℝ → ℝ
  /-- `_satellite_occupation` -/
  sat : ℝ → ℝ
  /-- `_tracer_per_central` (default 1, hod.py:241-243) -/
  tpc : ℝ → ℝ := fun _ => 1
  /-- `_tracer_per_satellite` (default `_tracer_per_central`, hod.py:245-247) -/
  tps : ℝ → ℝ := tpc
  /-- `sigma_central` (default hod.py:260-263) -/
  sigC : ℝ → ℝ := fun m => Real.sqrt (cen m * (1 - cen m))
  mmin : ℝ

/-- `HODPoisson`, hod.py:223-267, with the base class methods it inherits. -/
def poisson (d : PoissonDef) (central : Bool) : Hod :=
  let nc := fun m => d.cen m / d.tpc m                                   -- 233-235
  let sat := satelliteOccupation central d.inherent nc d.sat             -- 162-167
  { central := central
    inherent := d.inherent
    sharpCut := d.sharpCut
    nc := nc
    ns := fun m => sat m / d.tps m                                       -- 237-239
    cenOcc := d.cen                                                      -- 158-160
    satOcc := sat
    ssPairs := fun m => sat m ^ 2                                        -- 249-251
    csPairs := fun m => if central then sat m * d.tpc m else d.cen m * sat m  -- 253-258
    sigmaSat := fun m => Real.sqrt (sat m)                               -- 265-267
    sigmaCen := d.sigC
    mmin := d.mmin }

/-- `HODBulk` (hod.py:211-220) on top of `HODNoCentral` (hod.py:187-208): whatever `central` the user
passes, `_central` is reset to `False`, centrals are 0 and pairs are satellite squares. -/
def bulk (sharp : Bool) (sat sigS : ℝ → ℝ) (mmin : ℝ) (_central : Bool) : Hod :=
  let s := satelliteOccupation false false (fun _ => 0) sat
  { central := false                                                     -- 192
    inherent := false
    sharpCut := sharp
    nc := fun _ => 0                                                     -- 194-196
    ns := fun _ => 0                                                     -- 214-216
    cenOcc := fun _ => 0                                                 -- 202-204
    satOcc := s
    ssPairs := fun m => s m ^ 2                                          -- 218-220
    csPairs := fun _ => 0                                                -- 198-200
    sigmaSat := sigS
    sigmaCen := fun _ => 0                                               -- 206-208
    mmin := mmin }

/-! ## Concrete classes -/

/-- `Zehavi05._defaults`, hod.py:290. -/
structure ZehaviP where
  M_min : ℝ := 11.6222
  M_1 : ℝ := 12.851
  alpha : ℝ := 1.049

/-- `Zehavi05._central_occupation`, hod.py:293-298: ones, then `n_c[m < 10**M_min] = 0`. -/
def zehaviCen (M_min m : ℝ) : ℝ := if m < 10 ^ M_min then 0 else 1

/-- `Zehavi05._satellite_occupation`, hod.py:300-302. -/
def zehaviSat (M_1 alpha m : ℝ) : ℝ := (m / 10 ^ M_1) ^ alpha

/-- `Zehavi05`, hod.py:270-302. -/
def zehavi05 (p : ZehaviP) : Bool → Hod :=
  poisson { inherent := false, sharpCut := true, cen := zehaviCen p.M_min,
            sat := zehaviSat p.M_1 p.alpha, mmin := p.M_min }

/-- `Zheng05._defaults`, hod.py:330-336. -/
structure ZhengP where
  M_min : ℝ := 11.6222
  M_1 : ℝ := 12.851
  alpha : ℝ := 1.049
  M_0 : ℝ := 11.5047
  sig_logm : ℝ := 0.26

/-- `Zheng05._central_occupation`, hod.py:338-340. -/
def zhengCen (p : ZhengP) (m : ℝ) : ℝ :=
  0.5 * (1 + erf ((log10 m - p.M_min) / p.sig_logm))

/-- `Zheng05._satellite_occupation`, hod.py:342-348. -/
def zhengSat (p : ZhengP) (m : ℝ) : ℝ :=
  if m > 10 ^ p.M_0 then ((m - 10 ^ p.M_0) / 10 ^ p.M_1) ^ p.alpha else 0

/-- `Zheng05`, hod.py:305-353; `mmin` hod.py:350-353. -/
def zheng05 (p : ZhengP) : Bool → Hod :=
  poisson { inherent := false, sharpCut := false, cen := zhengCen p, sat := zhengSat p,
            mmin := p.M_min - 5 * p.sig_logm }

/-- `Contreras13._defaults`, hod.py:390-401. -/
structure ContrerasP where
  M_min : ℝ := 11.6222
  M_1 : ℝ := 12.851
  alpha : ℝ := 1.049
  M_0 : ℝ := 11.5047
  sig_logm : ℝ := 0.26
  fca : ℝ := 0.5
  fcb : ℝ := 0
  fs : ℝ := 1
  delta : ℝ := 1
  x : ℝ := 1

/-- `Contreras13._central_occupation`, hod.py:403-415. -/
def contrerasCen (p : ContrerasP) (m : ℝ) : ℝ :=
  p.fcb * (1 - p.fca) *
      Real.exp (-(log10 (m / 10 ^ p.M_min) ^ 2) / (2 * (p.x * p.sig_logm) ^ 2))
    + p.fca * (1 + erf (log10 (m / 10 ^ p.M_min) / p.x / p.sig_logm))

/-- `Contreras13._satellite_occupation`, hod.py:417-423. -/
def contrerasSat (p : ContrerasP) (m : ℝ) : ℝ :=
  p.fs * (1 + erf (log10 (m / 10 ^ p.M_1) / p.delta)) * (m / 10 ^ p.M_1) ^ p.alpha

/-- `Contreras13` (and its alias `Geach12`), hod.py:356-437. -/
def contreras13 (p : ContrerasP) : Bool → Hod :=
  poisson { inherent := false, sharpCut := false, cen := contrerasCen p, sat := contrerasSat p,
            mmin := p.M_min }

/-- `Tinker05._defaults`, hod.py:451. -/
structure TinkerP where
  M_min : ℝ := 11.6222
  M_1 : ℝ := 12.851
  M_cut : ℝ := 12.0

/-- `Tinker05._satellite_occupation`, hod.py:454-465, as a real function.  At `m = 10**M_min` numpy
computes `exp(-inf) = 0` (the real quotient would be Lean's junk value), hence the explicit branch.
For `m < 10**M_min` the factor `out` is 0; overflow of the exponential there is the subject of
`Model/HodFloat.lean`. -/
def tinkerSat (p : TinkerP) (m : ℝ) : ℝ :=
  if m = 10 ^ p.M_min then 0
  else zehaviCen p.M_min m * Real.exp (-(10 ^ p.M_cut) / (m - 10 ^ p.M_min)) * (m / 10 ^ p.M_1)

/-- `Tinker05(Zehavi05)`, hod.py:440-465. -/
def tinker05 (p : TinkerP) : Bool → Hod :=
  poisson { inherent := true, sharpCut := true, cen := zehaviCen p.M_min, sat := tinkerSat p,
            mmin := p.M_min }

/-- `Zehavi05WithMax._defaults`, hod.py:471-476. -/
structure ZehaviMaxP where
  M_min : ℝ := 11.6222
  M_1 : ℝ := 12.851
  alpha : ℝ := 1.049
  M_max : ℝ := 18

/-- `Zehavi05WithMax._central_occupation`, hod.py:478-483. -/
def zehaviMaxCen (M_min M_max m : ℝ) : ℝ :=
  if m ≥ 10 ^ M_min ∧ m ≤ 10 ^ M_max then 1 else 0

/-- `Zehavi05WithMax(Zehavi05)`, hod.py:468-487. -/
def zehavi05WithMax (p : ZehaviMaxP) : Bool → Hod :=
  poisson { inherent := false, sharpCut := true, cen := zehaviMaxCen p.M_min p.M_max,
            sat := zehaviSat p.M_1 p.alpha, mmin := p.M_min }

/-- `Zehavi05Marked._defaults`, hod.py:497-503. -/
structure MarkedP extends ZehaviMaxP where
  logA : ℝ := 0

/-- `Zehavi05Marked(Zehavi05WithMax)`, hod.py:490-520; `sigma_central` 505-508,
`_tracer_per_central` 510-512, occupations 514-520. -/
def zehavi05Marked (p : MarkedP) : Bool → Hod :=
  let A : ℝ := 10 ^ p.logA
  poisson { inherent := false, sharpCut := true
            cen := fun m => zehaviMaxCen p.M_min p.M_max m * A
            sat := fun m => zehaviSat p.M_1 p.alpha m * A
            tpc := fun _ => A
            sigC := fun m => Real.sqrt (A * zehaviMaxCen p.M_min p.M_max m
                                          * (1 - zehaviMaxCen p.M_min p.M_max m))
            mmin := p.M_min }

/-- `ContinuousPowerLaw._defaults`, hod.py:529-536. -/
structure CplP where
  M_min : ℝ := 11.6222
  M_1 : ℝ := 12.851
  logA : ℝ := 0
  alpha : ℝ := 1.049
  M_max : ℝ := 18
  sigma_A : ℝ := 0

/-- `ContinuousPowerLaw._satellite_occupation`, hod.py:539-551. -/
def cplSat (p : CplP) (m : ℝ) : ℝ :=
  if m ≥ 10 ^ p.M_min ∧ m ≤ 10 ^ p.M_max then 10 ^ p.logA * ((m / 10 ^ p.M_1) ^ p.alpha + 1) else 0

/-- `ContinuousPowerLaw(HODBulk)`, hod.py:523-555. -/
def continuousPowerLaw (p : CplP) : Bool → Hod :=
  bulk true (cplSat p) (fun _ => 1 * p.sigma_A) p.M_min

/-- `Constant._defaults`, hod.py:561. -/
structure ConstP where
  logA : ℝ := 0
  M_min : ℝ := 11
  sigma_A : ℝ := 0

/-- `Constant._satellite_occupation`, hod.py:563-565. -/
def constSat (p : ConstP) (m : ℝ) : ℝ := if m > 10 ^ p.M_min then 10 ^ p.logA else 0

/-- `Constant(HODBulk)`, hod.py:558-569. -/
def constant (p : ConstP) : Bool → Hod :=
  bulk false (constSat p) (fun _ => 1 * p.sigma_A) p.M_min

/-- `Spinelli19._defaults`, hod.py:585-606 (`sigma_A`, `M_max`, `a`, `b`, `eta` are unused by the code). -/
structure SpinelliP where
  a1 : ℝ := 0.0016
  a2 : ℝ := 0.00011
  alpha : ℝ := 0.56
  beta : ℝ := 0.43
  M_min : ℝ := 9
  M_break : ℝ := 11.86
  M_1 : ℝ := -2.99
  M_0 : ℝ := 8.31
  M_break_sat : ℝ := 11.4
  alpha_sat : ℝ := 0.84
  beta_sat : ℝ := 1.10
  M_1_counts : ℝ := 12.851
  alpha_counts : ℝ := 1.049
  M_min_counts : ℝ := 11
  M_max_counts : ℝ := 15

/-- `Spinelli19._central_occupation`, hod.py:610-624. -/
def spinelliCen (p : SpinelliP) (m : ℝ) : ℝ :=
  m * (p.a1 * (m / 1e10) ^ p.beta * Real.exp (-((m / 10 ^ p.M_break) ^ p.alpha)) + p.a2)
    * Real.exp (-((10 ^ p.M_1 / m) ^ (0.5 : ℝ)))

/-- `Spinelli19._satellite_occupation`, hod.py:626-635. -/
def spinelliSat (p : SpinelliP) (m : ℝ) : ℝ :=
  10 ^ p.M_0 * (m / 10 ^ p.M_break_sat) ^ p.beta_sat
    * Real.exp (-((10 ^ p.M_break_sat / m) ^ p.alpha_sat)) * (if m ≥ 10 ^ 11 then 1 else 0)

/-- `Spinelli19._tracer_per_central`, hod.py:655-664. -/
def spinelliTpc (p : SpinelliP) (m : ℝ) : ℝ :=
  if 10 ^ p.M_min_counts ≤ m ∧ 10 ^ p.M_max_counts ≥ m then 1 else 0

/-- `Spinelli19._tracer_per_satellite`, hod.py:666-675. -/
def spinelliTps (p : SpinelliP) (m : ℝ) : ℝ :=
  if 10 ^ p.M_min_counts ≤ m ∧ 10 ^ p.M_max_counts ≥ m
  then (m / 10 ^ p.M_1_counts) ^ p.alpha_counts else 0

/-- The overridden methods of `Spinelli19`, hod.py:610-675. -/
def spinelliDef (p : SpinelliP) : PoissonDef :=
  { inherent := false, sharpCut := false, cen := spinelliCen p, sat := spinelliSat p,
    tpc := spinelliTpc p, tps := spinelliTps p, mmin := p.M_min }

/-- `Spinelli19(HODPoisson)`, hod.py:572-675.  Outside the counts range the code divides by 0: the
theorems about `nc`/`ns` carry the guard `tpc ≠ 0`. -/
def spinelli19 (p : SpinelliP) : Bool → Hod := poisson (spinelliDef p)

/-- `Leauthaud11._defaults`, hod.py:752-774. -/
structure LeauthaudP where
  redshift : ℝ := 0
  sm_thresh : ℝ := 9
  smhm_m0_0 : ℝ := 10.72
  smhm_m0_a : ℝ := 0
  smhm_m1_0 : ℝ := 12.35
  smhm_m1_a : ℝ := 0
  smhm_beta_0 : ℝ := 0.43
  smhm_beta_a : ℝ := 0
  smhm_delta_0 : ℝ := 0.56
  smhm_delta_a : ℝ := 0
  smhm_gamma_0 : ℝ := 1.54
  smhm_gamma_a : ℝ := 0
  sig_logmstar : ℝ := 0.206
  alphasat : ℝ := 1
  betasat : ℝ := 0.859
  bsat : ℝ := 10.62
  betacut : ℝ := -0.13
  bcut : ℝ := 1.47
  M_min : ℝ := 10

/-- evolution of one SHMR parameter: `x_0 + x_a*(a-1)` with `a = 1/(1+z)`, hod.py:868-876. -/
def LeauthaudP.evolve (p : LeauthaudP) (x0 xa : ℝ) : ℝ := x0 + xa * (1 / (1 + p.redshift) - 1)

/-- `Leauthaud11.mean_log_halo_mass`, hod.py:854-889. -/
def LeauthaudP.meanLogHaloMass (p : LeauthaudP) (logms : ℝ) : ℝ :=
  let logm0 := p.evolve p.smhm_m0_0 p.smhm_m0_a
  let logm1 := p.evolve p.smhm_m1_0 p.smhm_m1_a
  let beta := p.evolve p.smhm_beta_0 p.smhm_beta_a
  let delta := p.evolve p.smhm_delta_0 p.smhm_delta_a
  let gamma := p.evolve p.smhm_gamma_0 p.smhm_gamma_a
  let q : ℝ := 10 ^ logms / 10 ^ logm0
  logm1 + beta * log10 q + q ^ delta / (1 + q ^ (-gamma)) - 0.5

/-- `np.linspace(0, 14, 1000)`, hod.py:906. -/
def logStellarTable : List ℝ := (List.range 1000).map fun i : ℕ => (i : ℝ) * (14 / 999)

/-- `Leauthaud11.mean_log_stellar_mass`, hod.py:891-920.  The cubic `interp1d` with extrapolation
(hod.py:909-914) is the parameter `interp`, given the table of (halo mass, stellar mass) logs. -/
def LeauthaudP.meanLogStellarMass (interp : List (ℝ × ℝ) → ℝ → ℝ) (p : LeauthaudP) (m : ℝ) : ℝ :=
  interp (logStellarTable.map fun s => (p.meanLogHaloMass s, s)) (log10 m)

/-- `Leauthaud11._central_occupation`, value only (hod.py:796-804). -/
def leauthaudCen (interp : List (ℝ × ℝ) → ℝ → ℝ) (p : LeauthaudP) (m : ℝ) : ℝ :=
  0.5 * (1 - erf ((p.sm_thresh - p.meanLogStellarMass interp m) / (Real.sqrt 2 * p.sig_logmstar)))

/-- `_msat`, `_mcut` of `_update_satellite_params`, hod.py:838-852. -/
def LeauthaudP.scaled (p : LeauthaudP) (b beta : ℝ) : ℝ :=
  let knee : ℝ := 1.0e12 * 0.72
  knee * b * (10 ^ p.meanLogHaloMass p.sm_thresh / knee) ^ beta

/-- `Leauthaud11._satellite_occupation`, value only (hod.py:826-833): already multiplied by the
central occupation. -/
def leauthaudSat (interp : List (ℝ × ℝ) → ℝ → ℝ) (p : LeauthaudP) (m : ℝ) : ℝ :=
  Real.exp (-(p.scaled p.bcut p.betacut) / m) * (m / p.scaled p.bsat p.betasat) ^ p.alphasat
    * leauthaudCen interp p m

/-- `Leauthaud11(HODPoisson)`, hod.py:678-920 (values; the mutation of `M_min` is `leauthaudStep`). -/
def leauthaud11 (interp : List (ℝ × ℝ) → ℝ → ℝ) (p : LeauthaudP) : Bool → Hod :=
  poisson { inherent := false, sharpCut := false, cen := leauthaudCen interp p,
            sat := leauthaudSat interp p, mmin := p.M_min }

/-- Methods of a `Leauthaud11` instance a caller can invoke. -/
inductive LCall | centralOcc (m : ℝ) | satelliteOcc (m : ℝ) | mmin
  | haloMass (s : ℝ) | stellarMass (m : ℝ)

/-- One call on a `Leauthaud11` instance: returned value and new `params`.  Occupation calls run
`_update_M_min` (hod.py:796, 826, 835-836) which overwrites `params["M_min"]`; the other two do not. -/
def leauthaudStep (interp : List (ℝ × ℝ) → ℝ → ℝ) (central : Bool) (p : LeauthaudP) :
    LCall → ℝ × LeauthaudP
  | .centralOcc m =>
      let p' := { p with M_min := p.meanLogHaloMass p.sm_thresh }
      ((leauthaud11 interp p' central).cenOcc m, p')
  | .satelliteOcc m =>
      let p' := { p with M_min := p.meanLogHaloMass p.sm_thresh }
      ((leauthaud11 interp p' central).satOcc m, p')
  | .mmin => (p.M_min, p)
  | .haloMass s => (p.meanLogHaloMass s, p)
  | .stellarMass m => (p.meanLogStellarMass interp m, p)

/-- Every concrete HOD class of the module with its parameters (`Geach12` = `Contreras13`). -/
inductive HodInst
  | zehavi05 (p : ZehaviP) | zheng05 (p : ZhengP) | contreras13 (p : ContrerasP)
  | tinker05 (p : TinkerP) | zehavi05WithMax (p : ZehaviMaxP) | zehavi05Marked (p : MarkedP)
  | continuousPowerLaw (p : CplP) | constant (p : ConstP) | spinelli19 (p : SpinelliP)
  | leauthaud11 (interp : List (ℝ × ℝ) → ℝ → ℝ) (p : LeauthaudP)

/-- Construct the HOD object: `Cls(central=central, **params)`. -/
def HodInst.mk : HodInst → Bool → Hod
  | .zehavi05 p => HOD.zehavi05 p
  | .zheng05 p => HOD.zheng05 p
  | .contreras13 p => HOD.contreras13 p
  | .tinker05 p => HOD.tinker05 p
  | .zehavi05WithMax p => HOD.zehavi05WithMax p
  | .zehavi05Marked p => HOD.zehavi05Marked p
  | .continuousPowerLaw p => HOD.continuousPowerLaw p
  | .constant p => HOD.constant p
  | .spinelli19 p => HOD.spinelli19 p
  | .leauthaud11 i p => HOD.leauthaud11 i p

end

end Halomod.HOD
