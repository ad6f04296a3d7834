import Mathlib.Data.Real.Basic
import Mathlib.Algebra.Order.Floor.Ring
import Mathlib.Algebra.Order.Archimedean.Real.Basic
import Mathlib.Data.List.Nodup

/-!
# Settings of a halo model: keywords, setters, defaults
(`/repo/src/halomod/halo_model.py` 46-175, 193-331, 944-985, 997-1045, `/repo/src/halomod/functional.py`,
`/repo/src/halomod/wdm.py` 58-60)

Python values are a small inductive type.  hmf (external) contributes: the keywords its own classes accept, the look-up of a
component class by name (`get_mdl`), what assigning a dictionary does to the stored dictionary, and `update`, which passes
every keyword through its setter and refuses unknown ones (documented behaviour).  Setters of hmf's own parameters are not
modelled.
-/
namespace Halomod.Settings

noncomputable section

/-- Python values a user can pass for a setting; `arr` is a list of numbers, `cls fam name` a component class of a family
(a `Bias`, `Profile`, ... subclass), `dict` a dictionary of numbers. -/
inductive Val
  | none | bool (b : Bool) | int (n : ℤ) | float (x : ℝ) | str (s : String) | arr (l : List ℝ)
  | dict (d : List (String × ℝ)) | cls (fam name : String)

open Classical in
/-- Python's `bool(v)`. -/
def truthy : Val → Bool
  | .none => false
  | .bool b => b
  | .int n => n ≠ 0
  | .float x => decide (x ≠ 0)
  | .str s => s ≠ ""
  | .arr l => !l.isEmpty
  | .dict d => !d.isEmpty
  | .cls _ _ => true

/-- exceptions. -/
inductive Exc
  | assertionError | typeError | valueError
  deriving DecidableEq

/-- externals. -/
structure Ext where
  /-- Python's `float(s)` on strings -/
  parseFloat : String → Option ℝ
  /-- Python's `int(s)` on strings -/
  parseInt : String → Option ℤ
  /-- is there a component class of this name in this family? (`hmf._internals.get_mdl`) -/
  known : String → String → Bool
  /-- stored value after assigning a (converted) value over an old one (hmf's `parameter` decorator: dictionaries may be
  merged) -/
  put : Val → Val → Val
  /-- keywords accepted by hmf's `MassFunction.__init__` and its parents -/
  hmfNames : List String

/-- `float(v)`. -/
def toFloat (X : Ext) : Val → Except Exc Val
  | .bool b => .ok (.float (if b then 1 else 0))
  | .int n => .ok (.float n)
  | .float x => .ok (.float x)
  | .str s => match X.parseFloat s with
    | some x => .ok (.float x)
    | .none => .error .valueError
  | _ => .error .typeError

/-- `int(v)`: truncation towards zero. -/
def toInt (X : Ext) : Val → Except Exc Val
  | .bool b => .ok (.int (if b then 1 else 0))
  | .int n => .ok (.int n)
  | .float x => .ok (.int (if 0 ≤ x then ⌊x⌋ else ⌈x⌉))
  | .str s => match X.parseInt s with
    | some n => .ok (.int n)
    | .none => .error .valueError
  | _ => .error .typeError

/-- `hmf._internals.get_mdl(v, fam)`: a name is looked up in the family, a class of the family is kept. -/
def getMdl (X : Ext) (fam : String) : Val → Except Exc Val
  | .str s => if X.known fam s then .ok (.cls fam s) else .error .valueError
  | .cls f s => if f = fam then .ok (.cls f s) else .error .valueError
  | _ => .error .valueError

/-- the sorts of setters. -/
inductive Setter
  | params | model (fam : String) | optModel (fam : String) | exclusion | num | whole | switch | spectrum | asIs

/-- what the setter stores, halo_model.py:
`*_params` 199-203, 226-230, 238-242, 301-305, 320-324, 327-331, 1003-1007, 1015-1019, 1036-1040;
models 194-196, 221-223, 233-235, 1010-1012, with `None` kept 293-298, 1022-1033, with `None` meaning `NoExclusion` 313-317;
numbers 250-265 (the warning is not part of the result), 273-290; switches 268-270, 308-310, 1043-1045; the named spectra
206-218; 245-247, 998-1000 keep what is given. -/
def Setter.run (X : Ext) : Setter → Val → Except Exc Val
  | .params, v =>
    let v := if truthy v then v else .dict []          -- val = val or {}
    match v with
    | .dict d => .ok (.dict d)                         -- assert isinstance(val, dict)
    | _ => .error .assertionError
  | .model fam, v => getMdl X fam v
  | .optModel fam, v => match v with
    | .none => .ok .none
    | v => getMdl X fam v
  | .exclusion, v => match v with
    | .none => getMdl X "Exclusion" (.str "NoExclusion")
    | v => getMdl X "Exclusion" v
  | .num, v => toFloat X v
  | .whole, v => toInt X v
  | .switch, v => .ok (.bool (truthy v))
  | .spectrum, v => match v with
    | .str s => if s ∈ ["linear", "nonlinear", "filtered-lin", "filtered-nl"] then .ok (.str s) else .error .valueError
    | _ => .error .valueError
  | .asIs, v => .ok v

/-- keywords, defaults and setters of `DMHaloModel` (halo_model.py:46-73) in the order of assignment (129-175); `Mmin` and
`Mmax` are handed to hmf (139), whose setter keeps them. -/
def sigDM : List (String × Val × Setter) :=
  [("bias_model", .str "Tinker10", .model "Bias"), ("bias_params", .none, .params),
   ("Mmin", .int 0, .asIs), ("Mmax", .int 18, .asIs),
   ("halo_profile_model", .str "NFW", .model "Profile"), ("halo_profile_params", .none, .params),
   ("halo_concentration_model", .str "Duffy08", .model "CMRelation"), ("halo_concentration_params", .none, .params),
   ("sd_bias_model", .none, .optModel "ScaleDepBias"), ("sd_bias_params", .none, .params),
   ("exclusion_model", .str "NoExclusion", .exclusion), ("exclusion_params", .none, .params),
   ("dr_table", .float 0.01, .num), ("rmin", .float 0.01, .asIs), ("rmax", .float 120.0, .num), ("rnum", .int 100, .whole),
   ("rlog", .bool true, .switch), ("hm_logk_min", .int (-2), .num), ("hm_logk_max", .int 2, .num),
   ("hm_dlog10k", .float 0.05, .num), ("hc_spectrum", .str "linear", .spectrum),
   ("force_1halo_turnover", .bool true, .switch), ("force_unity_dm_bias", .bool true, .asIs),
   ("colossus_params", .none, .params)]

/-- keywords, defaults and setters of `TracerHaloModel`, halo_model.py:944-970. -/
def sigTracer : List (String × Val × Setter) :=
  [("hod_params", .none, .params), ("hod_model", .str "Zehavi05", .model "HOD"),
   ("tracer_profile_model", .none, .optModel "Profile"), ("tracer_profile_params", .none, .params),
   ("tracer_concentration_model", .none, .optModel "CMRelation"), ("tracer_concentration_params", .none, .params),
   ("tracer_density", .none, .asIs)]

/-- all settings of a `TracerHaloModel` that halomod itself declares. -/
def sig : List (String × Val × Setter) := sigDM ++ sigTracer

/-- keywords as passed: a Python dictionary. -/
abbrev Kw := List (String × Val)

/-- the setter of a setting. -/
def setterOf (n : String) : Setter := match sig.lookup n with
  | some p => p.2
  | none => .asIs

/-- the stored settings: what the attribute of each name holds. -/
abbrev Store := String → Option Val

/-- one assignment of the constructors: `self.x = x` or `self.x_params = x_params or {}` (129, 142-158, 958-967), then the
setter. -/
def initOne (X : Ext) (kw : Kw) (p : String × Val × Setter) : Except Exc (String × Val) :=
  let v := (kw.lookup p.1).getD p.2.1
  let v := match p.2.2 with
    | .params => if truthy v then v else .dict []
    | _ => v
  (p.2.2.run X v).map fun w => (p.1, w)

/-- `TracerHaloModel(**kw)` without a tracer density (halo_model.py:944-970, 46-175): keywords that neither class names go to
hmf, which refuses those it does not know. -/
def construct (X : Ext) (kw : Kw) : Except Exc Store :=
  if ∀ p ∈ kw, p.1 ∈ sig.map (·.1) ∨ p.1 ∈ X.hmfNames then
    (sig.mapM (initOne X kw)).map fun l n => l.lookup n
  else .error .typeError

open Classical in
/-- Python's `"M_min" in v`, halo_model.py:981: not defined for numbers, `None` and classes. -/
def containsMmin : Val → Except Exc Bool
  | .dict d => .ok (d.lookup "M_min").isSome
  | .str s => .ok (decide ("M_min".toList <:+: s.toList))
  | .arr _ => .ok false
  | _ => .error .typeError

/-- hmf's `Framework.update`: every keyword through its setter, unknown ones refused.  hmf's own settings are not part of
the store. -/
def superUpdate (X : Ext) (s : Store) (kw : Kw) : Except Exc Store :=
  if ∀ p ∈ kw, p.1 ∈ sig.map (·.1) ∨ p.1 ∈ X.hmfNames then
    (kw.filter fun p => p.1 ∈ sig.map (·.1)).foldlM (fun s p =>
      ((setterOf p.1).run X p.2).map fun w => Function.update s p.1 (some (X.put ((s p.1).getD .none) w))) s
  else .error .valueError

/-- `obj.update(**kw)` of a `TracerHaloModel` with no tracer density, before or after, halo_model.py:977-988 (the density
machinery is modelled in HaloState). -/
def update (X : Ext) (s : Store) (kw : Kw) : Except Exc Store :=
  match kw.lookup "hod_params" with
  | none => superUpdate X s kw
  | some v => do
    let b ← containsMmin v                                                              -- 981
    superUpdate X (if b then Function.update s "tracer_density" (some .none) else s) kw

/-- `HaloModelWDM(**kw)`, wdm.py:58-60: `kw.setdefault("halo_concentration_model", "Ludlow2016")`. -/
def wdmKw (kw : Kw) : Kw :=
  if (kw.lookup "halo_concentration_model").isSome then kw else kw ++ [("halo_concentration_model", .str "Ludlow2016")]

/-- the default `fast_kwargs` of `get_halomodel`, functional.py:21-35. -/
def fastKw : Kw :=
  [("transfer_fit", .str "BBKS"), ("lnk_min", .int (-4)), ("lnk_max", .int 2), ("dlnk", .int 1), ("Mmin", .int 13),
   ("dlog10m", .float 0.5), ("rmin", .int 10), ("rmax", .int 20), ("rnum", .int 4), ("halo_exclusion", .str "None"),
   ("nonlinear", .bool false), ("scale_dependent_bias", .bool false), ("hod_model", .str "Zehavi05")]

/-- the keywords `get_halomodel` hands to hmf's `get_hmf` for its trial objects: the given ones if non-empty, otherwise the
default, functional.py:21. -/
def fastKwargs (given : Option Kw) : Kw := match given with
  | some [] => fastKw
  | some l => l
  | none => fastKw

end
end Halomod.Settings
