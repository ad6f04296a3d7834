import Verif.Model.Tools
import Verif.Model.Hod
import Verif.Model.Exclusion
import Verif.Model.Bias

/-!
# Model of the halo-model quantities of `/repo/src/halomod/halo_model.py`

One object `HM` holds the arrays a `DMHaloModel`/`TracerHaloModel` has computed from its parameters
(mass function, bias, profiles ... : inherited from `hmf` or built by the component models, which have
their own models here).  The definitions below are the quantities that `halo_model.py` itself computes
from them.  Arrays are `(length, ℕ → ℝ)`; floats are reals; caching is not modelled here.
-/
namespace Halomod.HaloModel

open Finset Halomod.Tools Halomod.HOD Halomod.Exclusion

noncomputable section

/-- External numerical routines: scipy's interpolating spline, scipy's `UnivariateSpline(k=1)`, and
`tools.hankel_transform` with the three sets of arguments the halo model uses.  The transforms are arbitrary maps of a function
and an abscissa here; `Model/Tools.lean` models the routine and `codeEnv` (Props/CodeEnv.lean) plugs it in. -/
structure Env where
  isp : Spl
  us : USpl
  /-- `hankel_transform(f, r, "r")` with the default step, halo_model.py:527, 543, 682, 1364, 1474, 1585, 1633, cross_correlations.py:269 -/
  hankel : (ℝ → ℝ) → ℝ → ℝ
  /-- `hankel_transform(f, r, "r", h=1e-4)`, halo_model.py:783, cross_correlations.py:347 -/
  hankelFine : (ℝ → ℝ) → ℝ → ℝ := hankel
  /-- `hankel_transform(f, k, "k", h=0.001)`, halo_model.py:817 -/
  hankelK : (ℝ → ℝ) → ℝ → ℝ := hankel

/-- Arrays of a halo model. -/
structure HM where
  /-- mass grid `self.m` -/
  nm : ℕ
  m : ℕ → ℝ
  dndm : ℕ → ℝ
  /-- `halo_bias`, halo_model.py:435-438 -/
  bias : ℕ → ℝ
  /-- wavenumber grid `self.k` -/
  nk : ℕ
  k : ℕ → ℝ
  /-- `_r_table`, halo_model.py:336-339 -/
  nr : ℕ
  rt : ℕ → ℝ
  hod : Hod
  /-- `tracer_profile_ukm`, 1296-1299 (k, m) -/
  ut : ℕ → ℕ → ℝ
  /-- `halo_profile_ukm`, 614-617 (k, m) -/
  uh : ℕ → ℕ → ℝ
  /-- `tracer_profile_rho`, 1301-1304 (r, m) -/
  rhoT : ℕ → ℕ → ℝ
  /-- `tracer_profile_lam`, 1306-1312: `None` if the profile has no analytic self-convolution -/
  lamT : Option (ℕ → ℕ → ℝ)
  /-- `halo_profile_lam`, 624-630 -/
  lamH : Option (ℕ → ℕ → ℝ)
  meanDensity0 : ℝ
  overdensity : ℝ
  /-- `mean_density_in_halos` = `rho_gtm[0]`, 898-900 -/
  rhoGtm : ℝ
  dlog10m : ℝ
  /-- `force_1halo_turnover` -/
  turnover : Bool
  /-- `force_unity_dm_bias` -/
  forceUnity : Bool
  /-- `_power_halo_centres_fnc`, 453-505 -/
  phc : ℝ → ℝ
  /-- `linear_power_fnc`, 507-516 -/
  linPow : ℝ → ℝ
  /-- `"filtered" in hc_spectrum` -/
  filtered : Bool

/-- `spline_integral(self.m, f, xmin=xmin)` (default `log=True`). -/
def HM.S (E : Env) (h : HM) (f : ℕ → ℝ) (xmin : Option ℝ) : ℝ :=
  splineIntegral E.isp h.nm h.m f xmin none true

/-- an `ExtendedSpline` of this module as a function, or `none` if its construction raises. -/
def mkES (E : Env) (a : ESArgs) : Option (ℝ → ℝ) := (esInit E.isp E.us a).map ES.call

/-! ## occupation and derived tracer quantities -/

/-- `_central_occupation`, halo_model.py:1191-1202. -/
def HM.cenOccInt (h : HM) (i : ℕ) : ℝ :=
  if h.hod.sharpCut && (h.hod.central || h.hod.inherent) then 1 else h.hod.cenOcc (h.m i)

/-- `_total_occupation`, halo_model.py:1204-1210. -/
def HM.totOccInt (h : HM) (i : ℕ) : ℝ := h.cenOccInt i + h.hod.satOcc (h.m i)

/-- `tracer_mmin`, halo_model.py:1212-1224. -/
def HM.tracerMmin (h : HM) : Option ℝ :=
  if h.hod.sharpCut && (h.hod.central || h.hod.inherent) then some (10 ^ h.hod.mmin) else none

/-- `mean_tracer_den`, halo_model.py:1229-1240. -/
def HM.meanTracerDen (E : Env) (h : HM) : ℝ := h.S E (fun i => h.dndm i * h.totOccInt i) h.tracerMmin

/-- `bias_effective_tracer`, halo_model.py:1247-1256. -/
def HM.biasEffTracer (E : Env) (h : HM) : ℝ :=
  h.S E (fun i => h.dndm i * h.totOccInt i * h.bias i) h.tracerMmin / h.meanTracerDen E

/-- `mass_effective`, halo_model.py:1258-1266. -/
def HM.massEff (E : Env) (h : HM) : ℝ :=
  log10 (h.S E (fun i => h.m i * h.dndm i * h.totOccInt i) h.tracerMmin / h.meanTracerDen E)

/-- `satellite_fraction`, halo_model.py:1268-1278. -/
def HM.satFrac (E : Env) (h : HM) : ℝ :=
  h.S E (fun i => h.dndm i * h.hod.satOcc (h.m i)) h.tracerMmin / h.meanTracerDen E

/-- `central_fraction`, halo_model.py:1280-1286. -/
def HM.cenFrac (E : Env) (h : HM) : ℝ := 1 - h.satFrac E

/-- `tracer_density_m`, halo_model.py:1288-1291. -/
def HM.tracerDensityM (h : HM) (i : ℕ) : ℝ := h.dndm i * h.hod.totalOcc (h.m i)

/-! ## 1-halo terms -/

/-- `mmin` used at wavenumber number `j` in `_do_1halo_integral`, halo_model.py:637-645. -/
def HM.oneHaloMmin (h : HM) (maxMmin : ℝ) (j : ℕ) : ℝ :=
  let densMin := 4 * Real.pi * h.meanDensity0 * h.overdensity / 3
  if h.turnover then max maxMmin (densMin * (Real.pi / h.k j / 10) ^ 3) else maxMmin

/-- `_do_1halo_integral`, halo_model.py:635-649; `integrand` is (k, m). -/
def HM.do1halo (E : Env) (h : HM) (maxMmin : ℝ) (integrand : ℕ → ℕ → ℝ) (meanDens : ℝ) (j : ℕ) : ℝ :=
  h.S E (integrand j) (some (h.oneHaloMmin maxMmin j)) / meanDens ^ 2

/-- lower extension of the 1-halo power spectra: `tools._zero` or `"boundary"`, e.g. 663. -/
def HM.oneHaloLower (h : HM) : Ext := if h.turnover then .callable (fun _ => 0) else .boundary

/-- table of `power_1h_auto_matter_fnc`, halo_model.py:654-658. -/
def HM.power1hMatterTab (E : Env) (h : HM) : ℕ → ℝ :=
  h.do1halo E (h.m 0) (fun j i => h.dndm i * h.m i ^ 2 * h.uh j i ^ 2) h.meanDensity0

/-- `power_1h_auto_matter_fnc`, halo_model.py:651-665. -/
def HM.power1hMatter (E : Env) (h : HM) : Option (ℝ → ℝ) :=
  mkES E { n := h.nk, x := h.k, y := h.power1hMatterTab E, lower := h.oneHaloLower, upper := .powerLaw }

/-- table of `power_1h_ss_auto_tracer_fnc`, halo_model.py:1325-1329. -/
def HM.power1hSSTab (E : Env) (h : HM) : ℕ → ℝ :=
  h.do1halo E h.hod.mmin (fun j i => h.ut j i ^ 2 * h.dndm i * h.hod.ssPairs (h.m i)) (h.meanTracerDen E)

/-- `power_1h_ss_auto_tracer_fnc`, halo_model.py:1318-1336. -/
def HM.power1hSS (E : Env) (h : HM) : Option (ℝ → ℝ) :=
  mkES E { n := h.nk, x := h.k, y := h.power1hSSTab E, lower := h.oneHaloLower, upper := .powerLaw }

/-- table of `power_1h_cs_auto_tracer_fnc`, halo_model.py:1388-1392. -/
def HM.power1hCSTab (E : Env) (h : HM) : ℕ → ℝ :=
  h.do1halo E h.hod.mmin (fun j i => h.dndm i * 2 * h.hod.csPairs (h.m i) * h.ut j i) (h.meanTracerDen E)

open Classical in
/-- `power_1h_cs_auto_tracer_fnc`, halo_model.py:1380-1399; `np.all(p[-10:] > 0)`. -/
def HM.power1hCS (E : Env) (h : HM) : Option (ℝ → ℝ) :=
  mkES E { n := h.nk, x := h.k, y := h.power1hCSTab E, lower := h.oneHaloLower,
           upper := if ∀ j < h.nk, h.nk ≤ j + 10 → 0 < h.power1hCSTab E j then .powerLaw
                    else .callable fun _ => 0 }

/-- `tools._SumCallable` of two optional callables. -/
def sumC (f g : Option (ℝ → ℝ)) (offset : ℝ) : Option (ℝ → ℝ) := do
  let a ← f
  let b ← g
  return sumCallable a b offset

/-- `power_1h_auto_tracer_fnc`, halo_model.py:1435-1440. -/
def HM.power1hTracer (E : Env) (h : HM) : Option (ℝ → ℝ) := sumC (h.power1hCS E) (h.power1hSS E) 0

/-! ## 1-halo correlations -/

/-- table extension shared by the correlation functions, e.g. halo_model.py:684-689: power law below,
zero above. -/
def HM.corrES (E : Env) (h : HM) (c : ℕ → ℝ) : Option (ℝ → ℝ) :=
  mkES E { n := h.nr, x := h.rt, y := c, lower := .powerLaw, upper := .callable fun _ => 0 }

/-- `corr_1h_auto_matter_fnc`, halo_model.py:672-689. -/
def HM.corr1hMatter (E : Env) (h : HM) : Option (ℝ → ℝ) :=
  match h.lamH with
  | some lam => h.corrES E fun i =>
      trapzDx h.nm (Real.log 10 * h.dlog10m) (fun j => h.dndm j * h.m j ^ 3 * lam i j)
        / h.meanDensity0 ^ 2 - 1
  | none => do
      let p ← h.power1hMatter E
      h.corrES E fun i => E.hankel p (h.rt i)

/-- `corr_1h_ss_auto_tracer_fnc`, halo_model.py:1346-1369. -/
def HM.corr1hSS (E : Env) (h : HM) : Option (ℝ → ℝ) :=
  match h.lamT with
  | some lam => h.corrES E fun i =>
      h.S E (fun j => lam i j * h.dndm j * h.hod.ssPairs (h.m j)) h.tracerMmin
        / h.meanTracerDen E ^ 2 - 1
  | none => do
      let p ← h.power1hSS E
      h.corrES E fun i => E.hankel p (h.rt i)

/-- `corr_1h_cs_auto_tracer_fnc`, halo_model.py:1409-1427. -/
def HM.corr1hCS (E : Env) (h : HM) : Option (ℝ → ℝ) :=
  h.corrES E fun i =>
    h.S E (fun j => h.dndm j * 2 * h.hod.csPairs (h.m j) * h.rhoT i j) h.tracerMmin
      / h.meanTracerDen E ^ 2 - 1

/-- `corr_1h_auto_tracer_fnc`, halo_model.py:1447-1478.  The `except AttributeError` branch is not
modelled (none of the modelled HODs lacks the methods). -/
def HM.corr1hTracer (E : Env) (h : HM) : Option (ℝ → ℝ) :=
  match h.lamT with
  | some lam => h.corrES E fun i =>
      h.S E (fun j => h.dndm j * (h.hod.ssPairs (h.m j) * lam i j + 2 * h.hod.csPairs (h.m j) * h.rhoT i j)
          * (if h.hod.central then h.cenOccInt j else 1)) h.tracerMmin
        / h.meanTracerDen E ^ 2
  | none => sumC (h.corr1hCS E) (h.corr1hSS E) 1

/-! ## 2-halo terms -/

/-- what `_get_power_2h_primitive` uses of an exclusion object: rows of `integrate()`, `density_mod`,
and the object's `m`, `density`, `bias`. -/
structure ExclRes where
  rows : ℕ
  intg : ℕ → ℕ → ℝ
  dmod : ℕ → ℝ
  n : ℕ
  m : ℕ → ℝ
  density : ℕ → ℝ
  /-- `bias[-1]` if 2D else `bias`, halo_model.py:742 -/
  biasLast : ℕ → ℝ
  /-- `exclusion_model == NoExclusion` -/
  isNone : Bool

/-- `_get_power_2h_primitive`, halo_model.py:716-768: row `ir`, table at `k j`. -/
def HM.power2hTab (E : Env) (h : HM) (e : ExclRes) (effBias : ℝ) (debias : Bool) (ir j : ℕ) : ℝ :=
  let x := e.intg ir j * e.dmod ir
  let x := if debias then
      x * (effBias / splineIntegral E.isp e.n e.m (fun i => e.density i * e.biasLast i) none none true) ^ 2
    else x
  x * h.phc (h.k j)

/-- `_get_power_2h_primitive`, the callable of row `ir`, halo_model.py:747-759. -/
def HM.power2hPrim (E : Env) (h : HM) (e : ExclRes) (effBias : ℝ) (debias : Bool) (ir : ℕ) :
    Option (ℝ → ℝ) :=
  mkES E { n := h.nk, x := h.k, y := h.power2hTab E e effBias debias ir,
           lower := .callable h.linPow, matchLower := true,
           upper := if e.isNone && !h.filtered then .powerLaw else .callable fun _ => 0 }

/-- `_get_corr_2h_auto_fnc`, halo_model.py:770-788; a single row is used for every `r`.
`isinstance(Exclusion, NoExclusion)` (line 785) is about the *class* `Exclusion`, hence always false:
the lower extension is always zero. -/
def HM.corr2h (E : Env) (h : HM) (e : ExclRes) (effBias : ℝ) (debias : Bool) : Option (ℝ → ℝ) := do
  let rows ← (List.range e.rows).mapM fun ir => h.power2hPrim E e effBias debias ir
  let c : ℕ → ℝ := fun i => E.hankelFine (if e.rows = 1 then rows.getD 0 (fun _ => 0) else rows.getD i (fun _ => 0)) (h.rt i)
  mkES E { n := h.nr, x := h.rt, y := c, lower := .callable (fun _ => 0), upper := .callable fun _ => 0 }

/-- the `_matter_exclusion` object for `NoExclusion` without scale-dependent bias, halo_model.py:696-714. -/
def HM.matterExcl (h : HM) : Excl where
  n := h.nm
  m := h.m
  density := fun i => h.dndm i * h.m i / h.rhoGtm
  pint := fun j i => h.dndm i * h.m i / h.rhoGtm * h.uh j i
  bias := .d1 h.bias
  r := h.rt
  haloDensity := h.overdensity * h.meanDensity0
  xminArg := none

/-- the `_tracer_exclusion` object without scale-dependent bias, halo_model.py:1485-1508. -/
def HM.tracerExcl (E : Env) (h : HM) : Excl where
  n := h.nm
  m := h.m
  density := fun i => h.dndm i * h.totOccInt i / h.meanTracerDen E
  pint := fun j i => h.dndm i * h.totOccInt i / h.meanTracerDen E * h.ut j i
  bias := .d1 h.bias
  r := h.rt
  haloDensity := h.overdensity * h.meanDensity0
  xminArg := h.tracerMmin

/-- the results of a `NoExclusion` object with 1D bias. -/
def noExclRes (E : Env) (e : Excl) (b : ℕ → ℝ) : ExclRes where
  rows := 1
  intg := noExclIntegrate (fun n x y a c => splIntegral E.isp n x y a c) e
  dmod := noExclDensityMod e
  n := e.n
  m := e.m
  density := e.density
  biasLast := b
  isNone := true

/-- `bias_effective_matter`, halo_model.py:870-896. -/
def HM.biasEffMatter (E : Env) (h : HM) : ℝ :=
  if h.forceUnity then 1
  else h.S E (fun i => h.m i * h.dndm i * h.bias i) none / h.rhoGtm

/-- `power_2h_auto_matter_fnc`, halo_model.py:809-841, for `NoExclusion` and no scale-dependent bias. -/
def HM.power2hMatter (E : Env) (h : HM) : Option (ℝ → ℝ) :=
  h.power2hPrim E (noExclRes E h.matterExcl h.bias) (h.biasEffMatter E) h.forceUnity 0

/-- `power_2h_auto_tracer_fnc`, halo_model.py:1510-1517, for `NoExclusion` and no scale-dependent bias. -/
def HM.power2hTracer (E : Env) (h : HM) : Option (ℝ → ℝ) :=
  h.power2hPrim E (noExclRes E (h.tracerExcl E) h.bias) (h.biasEffTracer E) false 0

/-- `corr_2h_auto_matter_fnc`, halo_model.py:790-801 (NoExclusion, no scale-dependent bias). -/
def HM.corr2hMatter (E : Env) (h : HM) : Option (ℝ → ℝ) :=
  h.corr2h E (noExclRes E h.matterExcl h.bias) (h.biasEffMatter E) h.forceUnity

/-- `corr_2h_auto_tracer_fnc`, halo_model.py:1524-1529. -/
def HM.corr2hTracer (E : Env) (h : HM) : Option (ℝ → ℝ) :=
  h.corr2h E (noExclRes E (h.tracerExcl E) h.bias) (h.biasEffTracer E) false

/-- the branch of `_get_power_2h_auto_fnc` with exclusion or scale-dependent bias, halo_model.py:815-830,
given `corr = _get_corr_2h_auto_fnc(..)`: the transform of the correlation, overwritten where
`k_hm < 1e-2` by `self.power * effective_bias`.  `out[mask] = ..` with a mask of another length than `out`
is an `IndexError` (`none`). -/
def HM.power2hFromCorr (E : Env) (h : HM) (corr : ℝ → ℝ) (power : ℕ → ℝ) (nkhm : ℕ) (khm : ℕ → ℝ)
    (effBias : ℝ) : Option (ℕ → ℝ) :=
  open Classical in
  if ∃ j < nkhm, khm j < 1e-2 then
    if nkhm = h.nk then
      some fun j => if khm j < 1e-2 then power j * effBias else E.hankelK corr (h.k j)
    else none
  else some fun j => E.hankelK corr (h.k j)

/-! ## totals -/

/-- `corr_auto_matter_fnc`, halo_model.py:848-853. -/
def HM.corrMatter (E : Env) (h : HM) : Option (ℝ → ℝ) := sumC (h.corr1hMatter E) (h.corr2hMatter E) 1

/-- `power_auto_matter_fnc`, halo_model.py:860-863. -/
def HM.powerMatter (E : Env) (h : HM) : Option (ℝ → ℝ) := sumC (h.power1hMatter E) (h.power2hMatter E) 0

/-- `power_auto_tracer_fnc`, halo_model.py:1536-1538. -/
def HM.powerTracer (E : Env) (h : HM) : Option (ℝ → ℝ) := do
  let a ← h.power1hTracer E
  let b ← h.power2hTracer E
  return fun k => a k + b k

/-- `corr_auto_tracer_fnc`, halo_model.py:1545-1548. -/
def HM.corrTracer (E : Env) (h : HM) : Option (ℝ → ℝ) := do
  let a ← h.corr1hTracer E
  let b ← h.corr2hTracer E
  return fun r => a r + b r

/-! ## tracer-matter cross terms -/

/-- table of `power_1h_cross_tracer_matter_fnc`, halo_model.py:1564-1575. -/
def HM.power1hCrossTab (E : Env) (h : HM) (j : ℕ) : ℝ :=
  h.S E (fun i => h.dndm i * h.m i * h.uh j i * (h.cenOccInt i + h.hod.satOcc (h.m i) * h.ut j i))
      h.tracerMmin / (h.meanTracerDen E * h.meanDensity0)

/-- `power_1h_cross_tracer_matter_fnc`, halo_model.py:1558-1576. -/
def HM.power1hCross (E : Env) (h : HM) : Option (ℝ → ℝ) :=
  mkES E { n := h.nk, x := h.k, y := h.power1hCrossTab E, lower := .powerLaw, upper := .powerLaw }

/-- `corr_1h_cross_tracer_matter_fnc`, halo_model.py:1583-1589. -/
def HM.corr1hCross (E : Env) (h : HM) : Option (ℝ → ℝ) := do
  let p ← h.power1hCross E
  h.corrES E fun i => E.hankel p (h.rt i)

/-- table of `power_2h_cross_tracer_matter_fnc`, halo_model.py:1600-1618. -/
def HM.power2hCrossTab (E : Env) (h : HM) (j : ℕ) : ℝ :=
  h.S E (fun i => h.dndm i * h.bias i * (h.cenOccInt i + h.hod.satOcc (h.m i) * h.ut j i)) h.tracerMmin
    * h.S E (fun i => h.dndm i * h.bias i * h.m i * h.uh j i) none
    * h.phc (h.k j) / (h.meanTracerDen E * h.meanDensity0)

/-- `power_2h_cross_tracer_matter_fnc`, halo_model.py:1596-1625. -/
def HM.power2hCross (E : Env) (h : HM) : Option (ℝ → ℝ) :=
  mkES E { n := h.nk, x := h.k, y := h.power2hCrossTab E, lower := .powerLaw,
           upper := if h.filtered then .callable fun _ => 0 else .powerLaw }

/-- `corr_2h_cross_tracer_matter_fnc`, halo_model.py:1632-1638. -/
def HM.corr2hCross (E : Env) (h : HM) : Option (ℝ → ℝ) := do
  let p ← h.power2hCross E
  h.corrES E fun i => E.hankel p (h.rt i)

/-- `power_cross_tracer_matter_fnc`, halo_model.py:1645-1650. -/
def HM.powerCross (E : Env) (h : HM) : Option (ℝ → ℝ) := sumC (h.power1hCross E) (h.power2hCross E) 0

/-- `corr_cross_tracer_matter_fnc`, halo_model.py:1657-1664. -/
def HM.corrCross (E : Env) (h : HM) : Option (ℝ → ℝ) := sumC (h.corr1hCross E) (h.corr2hCross E) 1

/-! ## halo-centre power -/

/-- masked grid positions, ascending: `self.m >= 10**mn and self.m <= 10**mx`, halo_model.py:604. -/
def HM.maskIdx (h : HM) (mn mx : ℝ) : List ℕ :=
  open Classical in (List.range h.nm).filter fun i => decide (10 ^ mn ≤ h.m i ∧ h.m i ≤ 10 ^ mx)

/-- `get_b` on a range, halo_model.py:600-607. -/
def HM.getB (h : HM) (mn mx : ℝ) : ℝ :=
  let idx := h.maskIdx mn mx
  let x := fun i => h.m (idx.getD i 0)
  simpsonX idx.length x (fun i => h.bias (idx.getD i 0) * h.dndm (idx.getD i 0))
    / simpsonX idx.length x (fun i => h.dndm (idx.getD i 0))

/-- `power_hh`, halo_model.py:564-609, after the defaults are filled in (`Mmin`, `Mmax` of the model and
`mmin2 = mmin`, `mmax2 = mmax`).  With `mmin == mmax` (or `mmin2 == mmax2`) line 598 builds a spline with
the ordinates `self.bias`, which is the bias *component object* and not the array `halo_bias`: an
exception, `none`. -/
def HM.powerHH (h : HM) (Mmin Mmax : ℝ) (mmin mmax mmin2 mmax2 : Option ℝ) (k : ℝ) : Option ℝ :=
  open Classical in
  let a := mmin.getD Mmin
  let b := mmax.getD Mmax
  let a2 := mmin2.getD a
  let b2 := mmax2.getD b
  if a = b ∨ a2 = b2 then none else some (h.getB a b * h.getB a2 b2 * h.phc k)

/-- `halo_bias` of a model at redshift `z` with `bias_model=Tinker10PBSplit`, halo_model.py:370-383, 435-438:
the keyword `z` is not among those passed to the bias component, whose default is `z = 0.0`
(bias.py:132). -/
def haloBiasTinkerPB (spl : ℝ → Bias.TkRow) (x : Bias.TkExp) (dhalo _z dc nu : ℝ) : ℝ :=
  Bias.tinker10PBSplit spl x dhalo 0 dc nu

/-! ## grids and filtered spectra -/

/-- element `i` of `np.linspace(a, b, num)`: the last one is set to `b` exactly if `num > 1`. -/
def linspace (a b : ℝ) (num i : ℕ) : ℝ :=
  if 1 < num ∧ i + 1 = num then b else a + i * ((b - a) / (num - 1))

/-- `r`, halo_model.py:359-367, for scalar `rmin`: logarithmic or linear. -/
def rGrid (rlog : Bool) (rmin rmax : ℝ) (rnum : ℕ) (i : ℕ) : ℝ :=
  if rlog then Real.exp (linspace (Real.log rmin) (Real.log rmax) rnum i) else linspace rmin rmax rnum i

/-- number of elements of `np.arange(a, b, d)` (`d > 0`), exact arithmetic. -/
def arangeLen (a b d : ℝ) : ℕ := ⌈(b - a) / d⌉₊

/-- `10 ** np.arange(a, b, d)`: `k_hm` (halo_model.py:351-357) and `_r_table` (336-339). -/
def powGrid (a d : ℝ) (i : ℕ) : ℝ := 10 ^ (a + i * d)

/-- `TopHat.k_space` of hmf: `3 (sin x - x cos x)/x^3` squared is not taken; 1 for tiny `x`
(external, `hmf.density_field.filters`).  Parameter `W` below. -/
abbrev Window := ℝ → ℝ

open Classical in
/-- table of the filtered spectra, halo_model.py:467-470 and 478-481: `p = P * W(k R)` (R = 2 or 3), zeroed
from the first non-positive sample on; no non-positive sample is an `IndexError` (`none`). -/
def filteredTab (W : Window) (R : ℝ) (nk : ℕ) (k P : ℕ → ℝ) : Option (ℕ → ℝ) :=
  let p := fun j => P j * W (k j * R)
  if h : ∃ j, j < nk ∧ p j ≤ 0 then some fun j => if Nat.find h ≤ j then 0 else p j else none

end
end Halomod.HaloModel
