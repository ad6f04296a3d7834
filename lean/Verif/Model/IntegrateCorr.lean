import Verif.Prelude.Quad
import Verif.Model.Tools
import Verif.Model.HaloModel

/-!
# Model of `/repo/src/halomod/integrate_corr.py`

Floats are reals.  Arrays are `(length, ℕ → ℝ)`.  Cosmology (`comoving_distance`, `efunc`) is external: the
distances are given.  `np.zeros_like(rp_out)` with an integer `rp_out` (truncation) is modelled in `Model/IntInput.lean`.
-/
namespace Halomod.IntegrateCorr

open Finset Halomod.Tools Halomod.HaloModel

noncomputable section

/-! ## projected correlation -/

/-- `np.logspace(log10 a, log10 b, n)`, and with `base=np.e` and natural logs. -/
def logspace (a b : ℝ) (n i : ℕ) : ℝ := Real.exp (linspace (Real.log a) (Real.log b) n i)

/-- `ProjectedCF.rp` for scalar `rp_min`, integrate_corr.py:87-98. -/
def rp (log : Bool) (rpMin rpMax : ℝ) (num i : ℕ) : ℝ :=
  if log then logspace rpMin rpMax num i else linspace rpMin rpMax num i

open Classical in
/-- `ProjectedCF.rlim`, integrate_corr.py:100-106: `proj_limit or max(80.0, 5 * rp.max())` (0 is falsy). -/
def rlim (projLimit : Option ℝ) (rpMaxVal : ℝ) : ℝ :=
  match projLimit with
  | some x => if x = 0 then max 80 (5 * rpMaxVal) else x
  | none => max 80 (5 * rpMaxVal)

/-- `ProjectedCF.r`, integrate_corr.py:108-111. -/
def projR (rpMinVal rl : ℝ) (rnum i : ℕ) : ℝ := logspace rpMinVal rl rnum i

/-- `_get_theta`, integrate_corr.py:185-199. -/
def getTheta (a : ℝ) : ℝ :=
  2 ^ (1 + 2 * a)
    * (7 - 2 * a ^ 3 + 3 * Real.sqrt (5 - 8 * a + 4 * a ^ 2)
        + a ^ 2 * (9 + Real.sqrt (5 - 8 * a + 4 * a ^ 2))
        - a * (13 + 3 * Real.sqrt (5 - 8 * a + 4 * a ^ 2)))
    * ((1 + Real.sqrt (5 - 8 * a + 4 * a ^ 2)) / (a - 1)) ^ (-2 * a)
    / ((a - 1) ^ 2 * (-1 + 2 * a + Real.sqrt (5 - 8 * a + 4 * a ^ 2)))

open Classical in
/-- `max(1.3, -ydiff)` of integrate_corr.py:162-165.  `none`: infinity, when the correlation drops from a positive value to exactly
zero (the logarithm of 0 is minus infinity).  A negative correlation has no logarithm (NaN), nor has the difference of two
infinite ones, and Python's `max` then returns its first argument; so it does when `-ydiff` is minus infinity. -/
def slopeCut (r xi : ℕ → ℝ) (i : ℕ) : Option ℝ :=
  if 0 < xi i ∧ 0 < xi (i + 1) then
    some (max 1.3 (-((Real.log (xi (i + 1)) - Real.log (xi i)) / (Real.log (r (i + 1)) - Real.log (r i)))))
  else if 0 < xi i ∧ xi (i + 1) = 0 then none
  else some 1.3

open Classical in
/-- the value of the loop variable `a` after line 166 of iteration `i`, integrate_corr.py:157-166
(initially 0; `none`: infinity). -/
def aAt (n : ℕ) (r xi : ℕ → ℝ) : ℕ → Option ℝ
  | 0 => if (some 0 : Option ℝ) ≠ some 1.3 ∧ 0 < n - 1 then slopeCut r xi 0 else some 0
  | i + 1 => if aAt n r xi i ≠ some 1.3 ∧ i + 1 < n - 1 then slopeCut r xi (i + 1) else aAt n r xi i

/-- `y` of integrate_corr.py:168-174 for a given slope. -/
def yGrid (a rlim rp : ℝ) (t : ℕ) : ℝ := logspace (getTheta a * 0.01 ^ 2 * rp) (rlim - rp) 1000 t

/-- `p[i]` of integrate_corr.py:176-179 for a given slope. -/
def projAt (fit : ℝ → ℝ) (a rlim rp : ℝ) : ℝ :=
  simpsonX 1000 (yGrid a rlim rp) (fun t =>
    (yGrid a rlim rp t + rp) * fit (yGrid a rlim rp t + rp)
      / Real.sqrt ((yGrid a rlim rp t + 2 * rp) * yGrid a rlim rp t)) * 2

/-- `projected_corr_gal`, integrate_corr.py:124-182: entry `i`; `none`: no number, either because the local variable `theta` is
unbound (a single separation), or because the slope is infinite (then `theta` is NaN and so is the entry). -/
def projectedCorr (isp : Spl) (n : ℕ) (r xi : ℕ → ℝ) (rlim : ℝ) (rpOut : ℕ → ℝ) (i : ℕ) : Option ℝ :=
  if 0 < n - 1 then (aAt n r xi i).map fun a => projAt (isp n r xi) a rlim (rpOut i) else none

/-! ## redshift distributions -/

open Classical in
/-- `flat_z_dist`, integrate_corr.py:202-209. -/
def flatZ (zmin zmax z : ℝ) : ℝ := if zmin ≤ z ∧ z ≤ zmax then 1 / (zmax - zmin) else 0

/-- `np.isclose(x, 1.0, rtol=0.01)` (default `atol=1e-8`). -/
def close1 (x : ℝ) : Prop := |x - 1| ≤ 1e-8 + 0.01 * |(1:ℝ)|

/-- a distribution: a function, and possibly its own `integral(a, b)` method. -/
structure Dist where
  f : ℝ → ℝ
  integral : Option (ℝ → ℝ → ℝ) := none

/-- the quadrature of `_check_p`, integrate_corr.py:472: `p.integral(z.min(), z.max())` or Simpson's rule;
the grid is increasing. -/
def integ (p : Dist) (n : ℕ) (z : ℕ → ℝ) : ℝ :=
  match p.integral with
  | some I => I (z 0) (z (n - 1))
  | none => simpsonX n z (fun i => p.f (z i))

open Classical in
/-- `_check_p`, integrate_corr.py:470-480. -/
def checkP (p : Dist) (n : ℕ) (z : ℕ → ℝ) : Dist :=
  if close1 (integ p n z) then p else ⟨fun t => p.f t / integ p n z, none⟩

/-! ## angular correlation -/

/-- the cosmology at the sample points: comoving distance in Mpc/h, and `dxdz`. -/
structure Cosmo where
  h : ℝ
  /-- `comoving_distance(z)` in Mpc -/
  dist : ℝ → ℝ
  /-- `dxdz(z)`, integrate_corr.py:212-215 -/
  dxdz : ℝ → ℝ

/-- `u`, integrate_corr.py:555: `10 ** linspace`. -/
def uGrid (logMin logMax : ℝ) (unum i : ℕ) : ℝ := 10 ^ linspace logMin logMax unum i

/-- `z` (557-558) and `x` (559-563): when `p_of_z`, `x` follows `z`; otherwise `x` is evenly spaced. -/
def zGrid (zmin zmax : ℝ) (znum i : ℕ) : ℝ := linspace zmin zmax znum i

/-- integrate_corr.py:559, 561-563. -/
def xGrid (C : Cosmo) (pOfZ : Bool) (zmin zmax : ℝ) (znum i : ℕ) : ℝ :=
  if pOfZ then C.dist (zGrid zmin zmax znum i) * C.h
  else linspace (C.dist zmin * C.h) (C.dist zmax * C.h) znum i

/-- options of `angular_corr_gal`. -/
structure AngArgs where
  zmin : ℝ
  zmax : ℝ
  logu_min : ℝ
  logu_max : ℝ
  znum : ℕ := 100
  unum : ℕ := 100
  check : Bool := true
  pOfZ : Bool := true

/-- the variable on which `p1`, `p2` depend: `z` or `x`. -/
def AngArgs.grid (A : AngArgs) (C : Cosmo) (i : ℕ) : ℝ :=
  if A.pOfZ then zGrid A.zmin A.zmax A.znum i else xGrid C false A.zmin A.zmax A.znum i

/-- `angular_corr_gal`, integrate_corr.py:483-580, at one angle. -/
def angular (C : Cosmo) (A : AngArgs) (xi : ℝ → ℝ) (p1 : Dist) (p2 : Option Dist) (theta : ℝ) : ℝ :=
  let g := A.grid C
  let q1 := if A.check then checkP p1 A.znum g else p1                           -- 565-566
  let q2 := match p2 with                                                        -- 568-571
    | none => q1
    | some p => if A.check then checkP p A.znum g else p
  let w := fun i => if A.pOfZ then q1.f (g i) * q2.f (g i) / C.dxdz (g i) ^ 2     -- 573
    else q1.f (g i) * q2.f (g i)
  let x := xGrid C A.pOfZ A.zmin A.zmax A.znum
  let u := uGrid A.logu_min A.logu_max A.unum
  2 * simpsonX A.znum x (fun i => simpsonX A.unum u (fun j =>
    xi (Real.sqrt (theta ^ 2 * x i ^ 2 + u j ^ 2)) * w i))                       -- 574-580

/-! ## `AngularCF` grids -/

/-- `AngularCF.xvec`, integrate_corr.py:387-390: no factor `h`. -/
def xvec (C : Cosmo) (zmin zmax : ℝ) (znum i : ℕ) : ℝ := C.dist (zGrid zmin zmax znum i)

/-- parameters `theta_min`, `theta_max` accept, integrate_corr.py:318-330. -/
def thetaMinOk (v : ℝ) : Prop := ¬ v < 0
/-- integrate_corr.py:325-330. -/
def thetaMaxOk (v : ℝ) : Prop := ¬ v > 180

open Classical in
/-- `AngularCF.theta`, integrate_corr.py:392-401 (`none`: `ValueError`). -/
def thetaGrid (log : Bool) (tmin tmax : ℝ) (num : ℕ) : Option (ℕ → ℝ) :=
  if tmin > tmax then none else some fun i => if log then logspace tmin tmax num i else linspace tmin tmax num i

/-- limits of `AngularCF.r`, integrate_corr.py:403-408, given the extreme values of `theta` and `xvec`. -/
def angRmin (logMin thMin xMin : ℝ) : ℝ := Real.sqrt ((10 ^ logMin) ^ 2 + thMin ^ 2 * xMin ^ 2)
/-- integrate_corr.py:407. -/
def angRmax (logMax thMax xMax : ℝ) : ℝ := Real.sqrt ((10 ^ logMax) ^ 2 + thMax ^ 2 * xMax ^ 2)

end
end Halomod.IntegrateCorr
