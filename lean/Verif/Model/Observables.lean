import Verif.Model.IntegrateCorr

/-!
# Constructors and parameter setters of the projected and angular frameworks
(`/repo/src/halomod/integrate_corr.py` 20-121, 218-376, `/repo/src/halomod/halo_model.py` 244-264)

`hmf`'s `update(**kw)` assigns the keywords given through the setters and then validates (documented behaviour of an
external).  Keywords of the halo model that neither class treats specially are a table `String → Option ℝ`.
-/
namespace Halomod.Observables

open Halomod.IntegrateCorr

noncomputable section

/-- other keywords. -/
abbrev Table := String → Option ℝ

/-- assigning the keywords that are given. -/
def over (s u : Table) : Table := fun k => (u k).orElse fun _ => s k

/-- Python's `int(x)`: truncation towards zero. -/
def pyInt (x : ℝ) : ℤ := if 0 ≤ x then ⌊x⌋ else ⌈x⌉

/-- `ValueError`s of the setters. -/
inductive Err
  | rpNum | thetaMin | thetaMax
  deriving DecidableEq

/-! ## ProjectedCF -/

/-- keywords given by the user to `ProjectedCF(..)` or `.update(..)`, integrate_corr.py:38-47; `proj_limit=None` can be
given explicitly. -/
structure ProjKw where
  rpMin : Option ℝ := none
  rpMax : Option ℝ := none
  rpNum : Option ℝ := none
  rpLog : Option Bool := none
  projLimit : Option (Option ℝ) := none
  rnum : Option ℝ := none
  rest : Table := fun _ => none

/-- the settings stored in the object. -/
structure ProjSt where
  rpMin : ℝ
  rpMax : ℝ
  rpNum : ℤ
  rpLog : Bool
  projLimit : Option ℝ
  rnum : ℤ
  rest : Table

/-- `ProjectedCF.__init__`, integrate_corr.py:38-57, with the setters of 59-84 and halo_model.py:255-258 (`rnum`). -/
def projConstruct (k : ProjKw) : Except Err ProjSt :=
  let rpNum := k.rpNum.getD 30
  let rnum := k.rnum.getD (5 * rpNum)                                       -- 49-50
  if rpNum < 0 then .error .rpNum                                           -- 77-78
  else .ok { rpMin := k.rpMin.getD 0.01, rpMax := k.rpMax.getD 50.0, rpNum := pyInt rpNum, rpLog := k.rpLog.getD true, projLimit := k.projLimit.getD none, rnum := pyInt rnum, rest := k.rest }

/-- `update(**kw)` on a `ProjectedCF`: each given keyword goes through its setter, integrate_corr.py:59-84. -/
def projUpdate (s : ProjSt) (k : ProjKw) : Except Err ProjSt :=
  let s' : ProjSt := { rpMin := k.rpMin.getD s.rpMin, rpMax := k.rpMax.getD s.rpMax, rpNum := (k.rpNum.map pyInt).getD s.rpNum, rpLog := k.rpLog.getD s.rpLog, projLimit := k.projLimit.getD s.projLimit, rnum := (k.rnum.map pyInt).getD s.rnum, rest := over s.rest k.rest }
  match k.rpNum with
  | none => .ok s'
  | some v => if v < 0 then .error .rpNum else .ok s'

/-! ## AngularCF -/

/-- keywords of `AngularCF(..)`, integrate_corr.py:257-274 (the ones with checks or defaults that depend on others; the
rest in the table).  `p1 = some none` is an explicit `p1=None`. -/
structure AngKw where
  p1 : Option (Option (ℝ → ℝ)) := none
  p2 : Option (Option (ℝ → ℝ)) := none
  thetaMin : Option ℝ := none
  thetaMax : Option ℝ := none
  zmin : Option ℝ := none
  zmax : Option ℝ := none
  z : Option ℝ := none
  rest : Table := fun _ => none

/-- the settings stored in the object; `p1 = none` is `None`. -/
structure AngSt where
  p1 : Option (ℝ → ℝ)
  p2 : Option (ℝ → ℝ)
  thetaMin : ℝ
  thetaMax : ℝ
  zmin : ℝ
  zmax : ℝ
  z : ℝ
  rest : Table

open Classical in
/-- `AngularCF.__init__`, integrate_corr.py:257-301, with the setters of 303-376.  `z` is hmf's redshift parameter
(default 0, hmf documentation). -/
def angConstruct (k : AngKw) : Except Err AngSt :=
  let zmin := k.zmin.getD 0.2
  let zmax := k.zmax.getD 0.4
  let p1 := match k.p1.getD none with                                       -- 284-285
    | none => flatZ zmin zmax
    | some f => f
  let tmin := k.thetaMin.getD (1e-3 * Real.pi / 180.0)
  let tmax := k.thetaMax.getD (Real.pi / 180.0)
  if ¬ thetaMinOk tmin then .error .thetaMin
  else if ¬ thetaMaxOk tmax then .error .thetaMax
  else .ok { p1 := some p1, p2 := k.p2.getD none, thetaMin := tmin, thetaMax := tmax, zmin := zmin, zmax := zmax, z := k.z.getD 0, rest := k.rest }

/-- is the warning of integrate_corr.py:277-282 issued? -/
def angWarns (k : AngKw) : Prop := k.z.getD 0 < k.zmin.getD 0.2 ∨ k.zmax.getD 0.4 < k.z.getD 0

open Classical in
/-- `update(**kw)` on an `AngularCF`: assignment through the setters, integrate_corr.py:303-376; `p1=None` is stored as
`None`.  (The checks are repeated for stored values, which passed them before.) -/
def angUpdate (s : AngSt) (k : AngKw) : Except Err AngSt :=
  let s' : AngSt := { p1 := k.p1.getD s.p1, p2 := k.p2.getD s.p2, thetaMin := k.thetaMin.getD s.thetaMin, thetaMax := k.thetaMax.getD s.thetaMax, zmin := k.zmin.getD s.zmin, zmax := k.zmax.getD s.zmax, z := k.z.getD s.z, rest := over s.rest k.rest }
  if ¬ thetaMinOk s'.thetaMin then .error .thetaMin
  else if ¬ thetaMaxOk s'.thetaMax then .error .thetaMax
  else .ok s'

/-! ## the table warning -/

/-- does the `rmax` setter warn?  halo_model.py:249-259, with `_logr_table_max = 2.5` (line 160). -/
def rmaxWarns (v : ℝ) : Prop := v > (10:ℝ) ^ (2.5:ℝ)

end
end Halomod.Observables
