import Verif.Model.HaloModel

/-!
# Model of the 2-halo terms with any exclusion class and with scale-dependent bias
(`/repo/src/halomod/halo_model.py` 696-806, 1485-1529; classes of `halo_exclusion.py`)
-/
namespace Halomod.HaloModel

open Halomod.Tools Halomod.Exclusion

noncomputable section

/-- the exclusion classes of halo_exclusion.py:274, 301, 349, 433, 468, 526, 614, 640. -/
inductive ExclCls
  | noExclusion | sphere | dblSphere | dblSphere_ | dblEllipsoid | dblEllipsoid_ | ngMatched | ngMatched_

/-- `integrate()` of each class, halo_exclusion.py:276-298, 335-346, 377-382, 436-462, 509-521, 539-564,
632-636, 656-660. -/
def exclIntegrate (ius : Ius) (junk : Mat) (cls : ExclCls) (e : Excl) : ℕ → ℕ → ℝ :=
  match cls with
  | .noExclusion => noExclIntegrate ius e
  | .sphere => sphereIntegrate ius e
  | .dblSphere => dblSphereIntegrate ius e
  | .dblSphere_ => dblSphereIntegrate_ e
  | .dblEllipsoid => ellIntegrate ius e
  | .dblEllipsoid_ => ellIntegrate_ junk e
  | .ngMatched => ngIntegrate ius e
  | .ngMatched_ => ngIntegrate_ junk e

/-- `density_mod` of each class; `DblSphere_`, `NgMatched`, `NgMatched_` inherit theirs,
halo_exclusion.py:265, 312-323, 366-375, 433, 497-507, 529-537, 614, 640. -/
def exclDensityMod (ius : Ius) (junk : Mat) (cls : ExclCls) (e : Excl) : ℕ → ℝ :=
  match cls with
  | .noExclusion => noExclDensityMod e
  | .sphere => sphereDensityMod ius e
  | .dblSphere | .dblSphere_ => dblSphereDensityMod ius e
  | .dblEllipsoid | .ngMatched => ellDensityMod ius e
  | .dblEllipsoid_ | .ngMatched_ => ellDensityMod_ junk e

/-- number of rows of `integrate()`: one row per separation, except `NoExclusion` with a 1D bias. -/
def exclRows (cls : ExclCls) (e : Excl) (nr : ℕ) : ℕ :=
  match cls with
  | .noExclusion => noExclRows e nr
  | _ => nr

/-- what the 2-halo code reads of an exclusion object, halo_model.py:730-744: `bias[-1]` of a 2D bias is its
last separation. -/
def exclRes (E : Env) (junk : Mat) (cls : ExclCls) (e : Excl) (nr : ℕ) : ExclRes where
  rows := exclRows cls e nr
  intg := exclIntegrate (fun n x y a c => splIntegral E.isp n x y a c) junk cls e
  dmod := exclDensityMod (fun n x y a c => splIntegral E.isp n x y a c) junk cls e
  n := e.n
  m := e.m
  density := e.density
  biasLast := match e.bias with | .d1 b => b | .d2 b => b (nr - 1)
  isNone := match cls with | .noExclusion => true | _ => false

/-- the bias handed to the exclusion object, halo_model.py:699-702 and 1492-1495: with a scale-dependent bias model
`np.outer(sd_bias_correction, halo_bias)`. -/
def HM.exclBias (h : HM) (sd : Option (ℕ → ℝ)) : Bias :=
  match sd with
  | none => .d1 h.bias
  | some s => .d2 fun ir im => s ir * h.bias im

/-- `_matter_exclusion`, halo_model.py:695-714. -/
def HM.matterExclX (h : HM) (sd : Option (ℕ → ℝ)) : Excl := { h.matterExcl with bias := h.exclBias sd }

/-- `_tracer_exclusion`, halo_model.py:1485-1508. -/
def HM.tracerExclX (E : Env) (h : HM) (sd : Option (ℕ → ℝ)) : Excl := { h.tracerExcl E with bias := h.exclBias sd }

/-- `corr_2h_auto_matter_fnc`, halo_model.py:790-801, for any exclusion class and scale-dependent bias. -/
def HM.corr2hMatterX (E : Env) (junk : Mat) (cls : ExclCls) (h : HM) (sd : Option (ℕ → ℝ)) : Option (ℝ → ℝ) :=
  h.corr2h E (exclRes E junk cls (h.matterExclX sd) h.nr) (h.biasEffMatter E) h.forceUnity

/-- `corr_2h_auto_tracer_fnc`, halo_model.py:1524-1529, for any exclusion class and scale-dependent bias. -/
def HM.corr2hTracerX (E : Env) (junk : Mat) (cls : ExclCls) (h : HM) (sd : Option (ℕ → ℝ)) : Option (ℝ → ℝ) :=
  h.corr2h E (exclRes E junk cls (h.tracerExclX E sd) h.nr) (h.biasEffTracer E) false

/-- `_get_power_2h_auto_fnc`, halo_model.py:810-833, given the exclusion object `e`: without exclusion and scale-dependent bias the primitive
spectrum, otherwise the transform of the correlation at the wavenumbers `k` (overwritten where `k_hm` is small), as an extended spline.  `power` is
`self.power`, `khm` the `nkhm` wavenumbers `k_hm`. -/
def HM.power2hX (E : Env) (junk : Mat) (cls : ExclCls) (h : HM) (e : Excl) (sd : Option (ℕ → ℝ)) (effBias : ℝ) (debias : Bool)
    (power : ℕ → ℝ) (nkhm : ℕ) (khm : ℕ → ℝ) : Option (ℝ → ℝ) :=
  match cls, sd with
  | .noExclusion, none => h.power2hPrim E (exclRes E junk cls e h.nr) effBias debias 0
  | _, _ => do
    let corr ← h.corr2h E (exclRes E junk cls e h.nr) effBias debias
    let out ← h.power2hFromCorr E corr power nkhm khm effBias
    mkES E { n := h.nk, x := h.k, y := out, lower := .powerLaw, upper := .callable fun _ => 0 }

/-- `power_2h_auto_matter_fnc`, halo_model.py:835-843, for any exclusion class and scale-dependent bias. -/
def HM.power2hMatterX (E : Env) (junk : Mat) (cls : ExclCls) (h : HM) (sd : Option (ℕ → ℝ)) (power : ℕ → ℝ) (nkhm : ℕ) (khm : ℕ → ℝ) : Option (ℝ → ℝ) :=
  h.power2hX E junk cls (h.matterExclX sd) sd (h.biasEffMatter E) h.forceUnity power nkhm khm

/-- `power_2h_auto_tracer_fnc`, halo_model.py:1510-1517, for any exclusion class and scale-dependent bias. -/
def HM.power2hTracerX (E : Env) (junk : Mat) (cls : ExclCls) (h : HM) (sd : Option (ℕ → ℝ)) (power : ℕ → ℝ) (nkhm : ℕ) (khm : ℕ → ℝ) : Option (ℝ → ℝ) :=
  h.power2hX E junk cls (h.tracerExclX E sd) sd (h.biasEffTracer E) false power nkhm khm

end
end Halomod.HaloModel
