import Verif.Model.HaloModel
import Mathlib.Data.List.Basic

/-!
# Model of how a `TracerHaloModel` builds its component objects
(`/repo/src/halomod/halo_model.py` 385-419, 1080-1170, validation 180-193 and 993-995, mass mask 1062-1078)

Classes are identified by a type `C` (`==` on classes is identity); parameter dictionaries by a list of
key/value pairs, empty = falsy.  A component object is represented by what it is constructed from; the
keywords common to all components (cosmology, filter, redshift, mass definition ...) are the same in every
constructor call and are left out.
-/
namespace Halomod.Components

/-- a dictionary of model parameters. -/
abbrev Params := List (String × ℝ)

/-- component objects: a profile (with its concentration relation, or `None`) and a concentration relation
(with the profile it was given). -/
inductive Comp (C : Type) where
  | noRel
  | prof (cls : C) (rel : Comp C) (params : Params)
  | conc (cls : C) (profile : Comp C) (params : Params)

/-- the parameters involved. -/
structure Cfg (C : Type) where
  haloProf : C
  haloProfParams : Params
  haloConc : C
  haloConcParams : Params
  tracerProf : Option C
  tracerProfParams : Params
  tracerConc : Option C
  tracerConcParams : Params

variable {C : Type} [DecidableEq C]

/-- `halo_concentration`, halo_model.py:385-408. -/
def haloConcentration (c : Cfg C) : Comp C :=
  .conc c.haloConc (.prof c.haloProf .noRel c.haloProfParams) c.haloConcParams

/-- `halo_profile`, halo_model.py:410-419. -/
def haloProfile (c : Cfg C) : Comp C := .prof c.haloProf (haloConcentration c) c.haloProfParams

/-- `tr_params` of the tracer profile, halo_model.py:1098-1107 and 1148-1151. -/
def tracerProfEffParams (c : Cfg C) (cls : C) : Params :=
  if c.tracerProfParams.isEmpty ∧ cls = c.haloProf then c.haloProfParams else c.tracerProfParams

/-- `tracer_concentration`, halo_model.py:1080-1135. -/
def tracerConcentration (c : Cfg C) : Comp C :=
  match c.tracerConc with
  | none => haloConcentration c                                                     -- 1083-1084
  | some tc =>
    let thisProfile : Comp C :=
      match c.tracerProf with
      | none => .prof c.haloProf .noRel c.haloProfParams                            -- 1089-1096
      | some tp => .prof tp .noRel (tracerProfEffParams c tp)                       -- 1097-1115
    let tr := if c.tracerConcParams.isEmpty ∧ tc = c.haloConc then c.haloConcParams
      else c.tracerConcParams                                                       -- 1117-1123
    .conc tc thisProfile tr

/-- `tracer_profile`, halo_model.py:1142-1159. -/
def tracerProfile (c : Cfg C) : Comp C :=
  match c.tracerProf with
  | none => haloProfile c
  | some tp => .prof tp (tracerConcentration c) (tracerProfEffParams c tp)

/-- the relation and profile handed to the HOD object, halo_model.py:1161-1170. -/
def hodComponents (c : Cfg C) : Comp C × Comp C := (tracerConcentration c, tracerProfile c)

/-- evaluation of the components: `cm(m, z)` of a relation, and `u(k, m, c=..)` etc. of a profile at *given*
concentrations (profiles.py: the argument `c` replaces the profile's own relation). -/
structure Eval (C : Type) where
  cm : Comp C → ℝ → ℝ
  u : C → Params → (k m conc : ℝ) → ℝ

/-- a profile method called with the keyword `c` (`None`: the profile's own relation). -/
def Eval.profU (e : Eval C) : Comp C → ℝ → ℝ → Option ℝ → ℝ
  | .prof cls rel params, k, m, c => e.u cls params k m (c.getD (e.cm rel m))
  | _, _, _, _ => 0

/-- `tracer_profile_ukm`, halo_model.py:1137-1140, 1296-1299: evaluated at `tracer_cmz_relation`. -/
def Eval.tracerUkm (e : Eval C) (c : Cfg C) (k m : ℝ) : ℝ :=
  e.profU (tracerProfile c) k m (some (e.cm (tracerConcentration c) m))

/-- `halo_profile_ukm`, halo_model.py:436-439, 614-617. -/
def Eval.haloUkm (e : Eval C) (c : Cfg C) (k m : ℝ) : ℝ :=
  e.profU (haloProfile c) k m (some (e.cm (haloConcentration c) m))

/-- the tracer profile evaluated by a user or by `populate` without giving concentrations
(`tracer_profile.u(k, m)`, `tracer_profile.populate(..)`): the profile's own relation. -/
def Eval.tracerOwn (e : Eval C) (c : Cfg C) (k m : ℝ) : ℝ := e.profU (tracerProfile c) k m none

/-! ## validation and the tracer mass mask -/

noncomputable section

open Classical in
/-- `_tm`, halo_model.py:1062-1078 (as the list of kept grid positions); `hod.mmin` may be `None`. -/
def tracerMask (nm : ℕ) (m : ℕ → ℝ) (mmin : Option ℝ) : List ℕ :=
  match mmin with
  | none => (List.range nm).filter fun i => decide (∃ k < nm, (∀ j < nm, m k ≤ m j) ∧ m k ≤ m i)
  | some x => (List.range nm).filter fun i => decide ((10:ℝ) ^ x ≤ m i)

/-- separations: `rmin` is a number or an array (`rmin` with `__len__`), halo_model.py:359-367. -/
inductive RSpec where
  | scalar (rmin rmax : ℝ) (rnum : ℕ)
  | array (r : List ℝ)

/-- `len(self.r)`. -/
def RSpec.len : RSpec → ℕ
  | .scalar _ _ n => n
  | .array r => r.length

/-- what `validate` reads. -/
structure VCfg where
  r : RSpec
  hmLogkMin : ℝ
  hmLogkMax : ℝ
  hmDlog10k : ℝ
  nm : ℕ
  m : ℕ → ℝ
  mmin : Option ℝ

/-- number of elements of `np.arange(a, b, d)` for any non-zero step. -/
def arangeLen' (a b d : ℝ) : ℕ := ⌈(b - a) / d⌉₊

/-- `TracerHaloModel.validate`, halo_model.py:180-193 and 993-995 (the parts of `hmf`'s classes left out; the
internal table limits are the constants -3 and 2.5): `true` iff no assertion fails. -/
def validateOk (v : VCfg) : Prop :=
  (match v.r with | .scalar a b _ => a < b | .array _ => True) ∧                    -- 183-184
  0 < v.r.len ∧                                                                     -- 185
  v.hmLogkMin < v.hmLogkMax ∧                                                       -- 186-188
  0 < arangeLen' v.hmLogkMin v.hmLogkMax v.hmDlog10k ∧                              -- 189
  1 < (tracerMask v.nm v.m v.mmin).length                                           -- 995

end
end Halomod.Components
