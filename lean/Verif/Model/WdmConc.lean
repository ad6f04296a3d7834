import Verif.Model.Wdm

/-!
# Which concentration a WDM model uses
(`/repo/src/halomod/wdm.py` 18-43, 58-60, 117-132, 135-138 and `/repo/src/halomod/halo_model.py` 386-408, 1029-1040, 1081-1136)
-/
namespace Halomod.Wdm

noncomputable section

/-- A class of concentration relations: one of the package, or one made from it by `CMRelationWDMRescaled` (wdm.py:18-43). -/
inductive CmCls (ι : Type)
  | plain (x : ι) | rescaled (x : ι)

/-- values given for a concentration model: a name, a class, `None`. -/
inductive CmVal (ι : Type)
  | name (s : List Char) | cls (c : CmCls ι) | none

/-- what the settings are looked up in: `reg`, hmf's registry of component classes (`get_mdl`, external), and `mod`, the names in the module
`halomod.concentration`, to which `CMRelationWDMRescaled` looks (wdm.py:23). -/
structure Names (ι : Type) where
  reg : List Char → Option (CmCls ι)
  mod : List Char → Option ι

variable {ι : Type}

/-- setter of `halo_concentration_model` in a WDM model, wdm.py:117-122; `none` is an exception. -/
def haloSetter (N : Names ι) : CmVal ι → Option (CmCls ι)
  | .name s => if "WDM".toList.isSuffixOf s then (N.mod (stripWDM s)).map .rescaled else N.reg s
  | .cls c => some c
  | .none => none

/-- setter of `tracer_concentration_model`, halo_model.py:1029-1033 (not overridden in wdm.py); the outer `none` is an exception. -/
def tracerSetter (N : Names ι) : CmVal ι → Option (Option (CmCls ι))
  | .none => some none
  | .name s => (N.reg s).map some
  | .cls c => some (some c)

/-- `kw.setdefault("halo_concentration_model", "Ludlow2016")`, wdm.py:58-59 and 136-137. -/
def haloKw (given : Option (CmVal ι)) : CmVal ι := given.getD (.name "Ludlow2016".toList)

/-- an instance of a relation: its class, its parameters and, for a rescaled class, the attribute `m_hm`. -/
structure Conc (ι : Type) where
  cls : CmCls ι
  params : Dict
  mhm : Option ℝ

open Classical in
/-- making an instance (concentration.py:106-134 and hmf's `Component.__init__`: unknown parameters refused, the others override the defaults; for a
rescaled class wdm.py:25-27, whose keyword `m_hm` is 1000 by default, and wdm.py:39).  `dflt` are the defaults of the classes of the package. -/
def mk (dflt : ι → Dict) (c : CmCls ι) (kw : Dict) : Option (Conc ι) :=
  match c with
  | .plain x => if ∀ k, (kw k).isSome → (dflt x k).isSome then some ⟨c, (dflt x).update kw, none⟩ else none
  | .rescaled x =>
    let kw' : Dict := fun k => if k = "m_hm" then none else kw k
    let d := (dflt x).update wdmDefaults
    if ∀ k, (kw' k).isSome → (d k).isSome then some ⟨c, d.update kw', some ((kw "m_hm").getD 1000)⟩ else none

/-- `halo_concentration` of a WDM model with half-mode mass `mhm`, wdm.py:124-132 and halo_model.py:386-408: the attribute `m_hm` is set if there is
one. -/
def haloConc (dflt : ι → Dict) (c : CmCls ι) (kw : Dict) (mhm : ℝ) : Option (Conc ι) :=
  (mk dflt c kw).map fun q => { q with mhm := q.mhm.map fun _ => mhm }

open Classical in
/-- `tracer_concentration`, halo_model.py:1081-1136 (not overridden in wdm.py). -/
def tracerConc (dflt : ι → Dict) (c : CmCls ι) (kw : Dict) (mhm : ℝ) (tc : Option (CmCls ι)) (tkw : Dict) : Option (Conc ι) :=
  match tc with
  | none => haloConc dflt c kw mhm
  | some t => mk dflt t (if (∀ k, tkw k = none) ∧ t = c then kw else tkw)

/-- `cm(m, z)` of an instance: of the class itself (`rel`, with its parameters) or wdm.py:29-36. -/
def Conc.cm (rel : ι → Dict → ℝ → ℝ → ℝ) (q : Conc ι) (m z : ℝ) : ℝ :=
  match q.cls with
  | .plain x => rel x q.params m z
  | .rescaled x => cmWdm (rel x q.params) ((q.params "g1").getD 0) ((q.params "g2").getD 0) ((q.params "beta0").getD 0) ((q.params "beta1").getD 0)
      (q.mhm.getD 0) m z

end
end Halomod.Wdm
