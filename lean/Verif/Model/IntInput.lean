import Verif.Model.Hod
import Verif.Model.Tools
import Verif.Model.IntegrateCorr
import Verif.Model.Concentration

/-!
# Integer-typed arguments

Several public functions allocate their result with `np.zeros_like(argument)` or `np.ones_like(argument)`, so the type of
the argument is the type of the result: hod.py:293-298, 342-348, 478-483, 626-635, 655-675; tools.py:296-325, 560-578;
integrate_corr.py:155-182; concentration.py:591-602; and `HaloModel.r` keeps the type of an array given as `rmin`
(halo_model.py:359-367).  Here every such function is modelled with the type of the argument (`isInt`) as an input;
`store` is the cast to the array's type.  All other arithmetic of these functions is float arithmetic in numpy also for an
integer argument (true division, real powers, exponentials), so nothing else changes.
-/
namespace Halomod.IntInput

open Halomod.Tools Halomod.HOD

noncomputable section

/-- `Zehavi05._central_occupation`, hod.py:293-298: `np.ones_like(m)`, then `n_c[m < 10**M_min] = 0`. -/
def zehaviCenDt (isInt : Bool) (M_min m : ℝ) : ℝ := if m < 10 ^ M_min then store isInt 0 else store isInt 1

/-- `Zehavi05WithMax._central_occupation`, hod.py:478-483: `np.zeros_like(m)`, then 1 on a mask. -/
def zehaviMaxCenDt (isInt : Bool) (M_min M_max m : ℝ) : ℝ :=
  if m ≥ 10 ^ M_min ∧ m ≤ 10 ^ M_max then store isInt 1 else store isInt 0

/-- `Tinker05._satellite_occupation`, hod.py:454-465: a product with the (typed) central occupation. -/
def tinkerSatDt (isInt : Bool) (p : TinkerP) (m : ℝ) : ℝ :=
  if m = 10 ^ p.M_min then 0
  else zehaviCenDt isInt p.M_min m * Real.exp (-(10 ^ p.M_cut) / (m - 10 ^ p.M_min)) * (m / 10 ^ p.M_1)

/-- `Zheng05._satellite_occupation`, hod.py:342-348: the values are written into `np.zeros_like(m)`. -/
def zhengSatDt (isInt : Bool) (p : ZhengP) (m : ℝ) : ℝ :=
  if m > 10 ^ p.M_0 then store isInt (((m - 10 ^ p.M_0) / 10 ^ p.M_1) ^ p.alpha) else store isInt 0

/-- `Spinelli19._satellite_occupation`, hod.py:626-635: a float product with the typed 0/1 array. -/
def spinelliSatDt (isInt : Bool) (p : SpinelliP) (m : ℝ) : ℝ :=
  10 ^ p.M_0 * (m / 10 ^ p.M_break_sat) ^ p.beta_sat
    * Real.exp (-((10 ^ p.M_break_sat / m) ^ p.alpha_sat))
    * (if m ≥ 10 ^ 11 then store isInt 1 else store isInt 0)

/-- `Spinelli19._tracer_per_central`, hod.py:655-664. -/
def spinelliTpcDt (isInt : Bool) (p : SpinelliP) (m : ℝ) : ℝ :=
  if 10 ^ p.M_min_counts ≤ m ∧ 10 ^ p.M_max_counts ≥ m then store isInt 1 else store isInt 0

/-- `Spinelli19._tracer_per_satellite`, hod.py:666-675. -/
def spinelliTpsDt (isInt : Bool) (p : SpinelliP) (m : ℝ) : ℝ :=
  if 10 ^ p.M_min_counts ≤ m ∧ 10 ^ p.M_max_counts ≥ m
  then store isInt ((m / 10 ^ p.M_1_counts) ^ p.alpha_counts) else store isInt 0

/-- The HOD object as seen by a caller whose masses are an integer array (`isInt`) or a float array: hod.py:270-920.
The classes without `zeros_like`/`ones_like` in a returned value do not depend on the type (`ContinuousPowerLaw` and
`Constant` multiply `np.ones_like(m)` by the float `sigma_A`, 555, 569). -/
def hodDt (isInt : Bool) : HodInst → Bool → Hod
  | .zehavi05 p => poisson
      { inherent := false, sharpCut := true, cen := zehaviCenDt isInt p.M_min, sat := zehaviSat p.M_1 p.alpha
        mmin := p.M_min }
  | .zheng05 p => poisson
      { inherent := false, sharpCut := false, cen := zhengCen p, sat := zhengSatDt isInt p
        mmin := p.M_min - 5 * p.sig_logm }
  | .contreras13 p => HOD.contreras13 p
  | .tinker05 p => poisson
      { inherent := true, sharpCut := true, cen := zehaviCenDt isInt p.M_min, sat := tinkerSatDt isInt p
        mmin := p.M_min }
  | .zehavi05WithMax p => poisson
      { inherent := false, sharpCut := true, cen := zehaviMaxCenDt isInt p.M_min p.M_max
        sat := zehaviSat p.M_1 p.alpha, mmin := p.M_min }
  | .zehavi05Marked p => poisson
      { inherent := false, sharpCut := true
        cen := fun m => zehaviMaxCenDt isInt p.M_min p.M_max m * 10 ^ p.logA
        sat := fun m => zehaviSat p.M_1 p.alpha m * 10 ^ p.logA
        tpc := fun _ => 10 ^ p.logA
        sigC := fun m => Real.sqrt (10 ^ p.logA * zehaviMaxCenDt isInt p.M_min p.M_max m
                                      * (1 - zehaviMaxCenDt isInt p.M_min p.M_max m))
        mmin := p.M_min }
  | .continuousPowerLaw p => HOD.continuousPowerLaw p
  | .constant p => HOD.constant p
  | .spinelli19 p => poisson
      { inherent := false, sharpCut := false, cen := spinelliCen p, sat := spinelliSatDt isInt p
        tpc := spinelliTpcDt isInt p, tps := spinelliTpsDt isInt p, mmin := p.M_min }
  | .leauthaud11 i p => HOD.leauthaud11 i p

/-- `power_to_corr` on the separations `rs`, tools.py:296-325: the results go into `np.zeros_like(r)`; a scalar Python
integer is wrapped into a list (296-298) and gives an integer array as well. -/
def powerToCorrDt (isInt : Bool) (P : ℝ → ℝ) (rs : List ℝ) : List ℝ := rs.map fun r => store isInt (powerToCorr P r)

/-- `projected_corr_gal`, integrate_corr.py:155-182, with the type of `rp_out`. -/
def projectedCorrDt (isInt : Bool) (isp : Spl) (n : ℕ) (r xi : ℕ → ℝ) (rlim : ℝ) (rpOut : ℕ → ℝ) (i : ℕ) : Option ℝ :=
  (IntegrateCorr.projectedCorr isp n r xi rlim rpOut i).map (store isInt)

/-- `corr_auto_tracer` and the other totals at `self.r` (halo_model.py:1545-1552, 359-367): the sum of the two calls on
the separations as they were given, `rmin` being an array. -/
def corrTotal (isInt : Bool) (oneHalo twoHalo : ES) (rs : List ℝ) : List ℝ :=
  List.zipWith (· + ·) (oneHalo.callArr isInt rs) (twoHalo.callArr isInt rs)

/-- `Ludlow16.cm` on an array of masses, concentration.py:591-602: one solution per mass, written into
`np.zeros_like(m)`. -/
def ludlowDt (isInt : Bool) (rows : List (List (ℝ × ℝ))) : Except Concentration.Err (List ℝ) :=
  rows.mapM fun l => (Concentration.eq7Array l).map (Concentration.storeAs isInt)

end

end Halomod.IntInput
