import Verif.Model.Bias
import Verif.Model.Concentration

/-!
# Model of components together with their parameter dictionaries
(`/repo/src/halomod/bias.py`, `/repo/src/halomod/concentration.py`: the `_defaults` of every class and the way its
methods read `self.params`)

`hmf.Component.__init__` is outside the repository; it is modelled as documented there: every keyword must be a key
of `_defaults` (else `ValueError`), and `params` is a copy of `_defaults` updated with the keywords.
A dictionary is a list of key/value pairs with distinct keys.
-/
namespace Halomod.Params

open Halomod.Bias Halomod.Concentration

noncomputable section

/-- a dictionary of real-valued model parameters. -/
abbrev Dict := List (String × ℝ)

/-- the exceptions involved. -/
inductive Exc
  | valueError
  | keyError
  deriving DecidableEq

/-- `Component.__init__` of hmf (external), reached from bias.py:148, 765 and concentration.py:184. -/
def initParams (defaults kw : Dict) : Except Exc Dict :=
  if kw.all (fun p => (defaults.lookup p.1).isSome) then
    .ok (defaults.map fun d => (d.1, (kw.lookup d.1).getD d.2))
  else .error .valueError

/-- `self.params[k]`. -/
def get (ps : Dict) (k : String) : Except Exc ℝ :=
  match ps.lookup k with
  | some v => .ok v
  | none => .error .keyError

/-- the inputs common to all bias components, bias.py:120-146 (one mass). -/
structure BiasIn where
  nu : ℝ
  delta_c : ℝ
  m : ℝ
  mstar : ℝ
  delta_halo : ℝ
  n : ℝ
  sigma_8 : ℝ
  Om0 : ℝ
  h : ℝ
  n_eff : ℝ
  z : ℝ

/-- the bias classes of bias.py with a closed formula (`Tinker10PBSplit` is separate below). -/
inductive BiasCls
  | unityBias | mo96 | jing98 | st99 | smt01 | seljak04 | seljak04Cosmo | tinker05 | mandelbaum05 | pillepich10
  | manera10 | tinker10

/-- `_defaults` of each class, bias.py:119, 238, 278, 321, 364-372, 420-430, 461, 484, 516, 551, 603. -/
def biasDefaults : BiasCls → Dict
  | .unityBias => []
  | .mo96 => []
  | .jing98 => [("a", 0.5), ("b", 0.06), ("c", 0.02)]
  | .st99 => [("q", 0.707), ("p", 0.3)]
  | .smt01 => [("a", 0.707), ("b", 0.5), ("c", 0.6)]
  | .seljak04 => [("a", 0.53), ("b", 0.39), ("c", 0.45), ("d", 0.13), ("e", 40), ("f", 5e-4), ("g", 1.5)]
  | .seljak04Cosmo => [("a", 0.53), ("b", 0.39), ("c", 0.45), ("d", 0.13), ("e", 40), ("f", 5e-4), ("g", 1.5),
      ("a1", 0.4), ("a2", 0.3)]
  | .tinker05 => [("a", 0.707), ("b", 0.35), ("c", 0.8)]
  | .mandelbaum05 => [("q", 0.73), ("p", 0.15)]
  | .pillepich10 => [("B0", 0.647), ("B1", -0.320), ("B2", 0.568)]
  | .manera10 => [("q", 0.709), ("p", 0.248)]
  | .tinker10 => [("B", 0.183), ("b", 1.5), ("c", 2.4)]

/-- `ST99.bias` reading its parameters, bias.py:280-285. -/
def st99Of (ps : Dict) (i : BiasIn) : Except Exc ℝ := do
  let p ← get ps "p"
  let q ← get ps "q"
  .ok (st99 q p i.delta_c i.nu)

/-- `SMT01.bias` reading its parameters, bias.py:323-333. -/
def smt01Of (ps : Dict) (i : BiasIn) : Except Exc ℝ := do
  let a ← get ps "a"
  let b ← get ps "b"
  let c ← get ps "c"
  .ok (smt01 a b c i.delta_c i.nu)

/-- the seven parameters of `Seljak04`, bias.py:375-381. -/
def seljakOf (ps : Dict) : Except Exc SeljakParams := do
  let a ← get ps "a"
  let b ← get ps "b"
  let c ← get ps "c"
  let d ← get ps "d"
  let e ← get ps "e"
  let f ← get ps "f"
  let g ← get ps "g"
  .ok ⟨a, b, c, d, e, f, g⟩

/-- `bias()` of each class reading `self.params`, bias.py:180, 207, 240, 280, 323, 374, 432, 518, 605; `Tinker05`
inherits from `SMT01` (443), `Mandelbaum05` (464) and `Manera10` (526) from `ST99`. -/
def biasOf (cls : BiasCls) (ps : Dict) (i : BiasIn) : Except Exc ℝ :=
  match cls with
  | .unityBias => .ok (unity i.nu)
  | .mo96 => .ok (mo96 i.delta_c i.nu)
  | .jing98 => do
    let a ← get ps "a"
    let b ← get ps "b"
    let c ← get ps "c"
    .ok (jing98 a b c i.n_eff i.delta_c i.nu)
  | .st99 | .mandelbaum05 | .manera10 => st99Of ps i
  | .smt01 | .tinker05 => smt01Of ps i
  | .seljak04 => do
    let s ← seljakOf ps
    .ok (seljak04 s i.m i.mstar)
  | .seljak04Cosmo => do
    let s ← seljakOf ps
    let a1 ← get ps "a1"
    let a2 ← get ps "a2"
    .ok (seljak04Cosmo s a1 a2 i.Om0 i.n i.sigma_8 i.h i.m i.mstar)
  | .pillepich10 => do
    let B0 ← get ps "B0"
    let B1 ← get ps "B1"
    let B2 ← get ps "B2"
    .ok (pillepich10 B0 B1 B2 i.nu)
  | .tinker10 => do
    let B ← get ps "B"
    let c ← get ps "c"
    let b ← get ps "b"
    .ok (tinker10 B b c i.delta_halo i.delta_c i.nu)

/-- `Cls(nu, ..., **kw).bias()`, bias.py:120-148 followed by `bias()`. -/
def biasCall (cls : BiasCls) (kw : Dict) (i : BiasIn) : Except Exc ℝ := do
  let ps ← initParams (biasDefaults cls) kw
  biasOf cls ps i

/-! ## Tinker10PBSplit -/

/-- `delta_virs`, bias.py:716. -/
def deltaVirs : List ℕ := [200, 300, 400, 600, 800, 1200, 1600, 2400, 3200]

/-- `Tinker10PBSplit._defaults`, bias.py:658-714. -/
def pbDefaults : Dict :=
  [("alpha_200", 0.368), ("alpha_300", 0.363), ("alpha_400", 0.385), ("alpha_600", 0.389), ("alpha_800", 0.393),
   ("alpha_1200", 0.365), ("alpha_1600", 0.379), ("alpha_2400", 0.355), ("alpha_3200", 0.327),
   ("beta_200", 0.589), ("beta_300", 0.585), ("beta_400", 0.544), ("beta_600", 0.543), ("beta_800", 0.564),
   ("beta_1200", 0.623), ("beta_1600", 0.637), ("beta_2400", 0.673), ("beta_3200", 0.702),
   ("gamma_200", 0.864), ("gamma_300", 0.922), ("gamma_400", 0.987), ("gamma_600", 1.09), ("gamma_800", 1.2),
   ("gamma_1200", 1.34), ("gamma_1600", 1.5), ("gamma_2400", 1.68), ("gamma_3200", 1.81),
   ("phi_200", -0.729), ("phi_300", -0.789), ("phi_400", -0.910), ("phi_600", -1.05), ("phi_800", -1.2),
   ("phi_1200", -1.26), ("phi_1600", -1.45), ("phi_2400", -1.5), ("phi_3200", -1.49),
   ("eta_200", -0.243), ("eta_300", -0.261), ("eta_400", -0.261), ("eta_600", -0.273), ("eta_800", -0.278),
   ("eta_1200", -0.301), ("eta_1600", -0.301), ("eta_2400", -0.319), ("eta_3200", -0.336),
   ("beta_exp", 0.2), ("phi_exp", -0.08), ("eta_exp", 0.27), ("gamma_exp", -0.01), ("max_z", 3)]

/-- `f"{name}_{d}"`, bias.py:720-723, 735-738. -/
def key (name : String) (d : ℕ) : String := name ++ "_" ++ toString d

/-- one column at the given overdensity, bias.py:719-738: tabulated overdensities read the parameter, others use the
spline through the nine values (`spl`, scipy's `InterpolatedUnivariateSpline`). -/
def pbColumn (spl : List (ℝ × ℝ) → ℝ → ℝ) (ps : Dict) (name : String) (dh : ℝ) : Except Exc ℝ :=
  open Classical in
  if h : ∃ d ∈ deltaVirs, dh = (d : ℝ) then get ps (key name h.choose)
  else do
    let vals ← deltaVirs.mapM (fun d => get ps (key name d))
    .ok (spl ((deltaVirs.map fun d => (d : ℝ)).zip vals) dh)

/-- `Tinker10PBSplit(**kw).bias()`, bias.py:718-748. -/
def pbCall (spl : List (ℝ × ℝ) → ℝ → ℝ) (kw : Dict) (i : BiasIn) : Except Exc ℝ := do
  let ps ← initParams pbDefaults kw
  let b0 ← pbColumn spl ps "beta" i.delta_halo
  let g0 ← pbColumn spl ps "gamma" i.delta_halo
  let p0 ← pbColumn spl ps "phi" i.delta_halo
  let e0 ← pbColumn spl ps "eta" i.delta_halo
  let mz ← get ps "max_z"
  let be ← get ps "beta_exp"
  let pe ← get ps "phi_exp"
  let ee ← get ps "eta_exp"
  let ge ← get ps "gamma_exp"
  .ok (tinkerPB (tkEvolve ⟨b0, g0, p0, e0⟩ ⟨be, pe, ee, ge, mz⟩ i.z) i.delta_c i.nu)

/-- `TinkerSD05._defaults` and `bias_scale`, bias.py:792-799; NaN is `none`. -/
def sdCall (kw : Dict) (xi : ℝ) : Except Exc (Option ℝ) := do
  let ps ← initParams [("a", 1.17), ("b", 1.49), ("c", 0.69), ("d", 2.09)] kw
  let a ← get ps "a"
  let b ← get ps "b"
  let c ← get ps "c"
  let d ← get ps "d"
  .ok (tinkerSD05 a b c d xi)

/-! ## Concentration relations -/

/-- the concentration classes with a closed formula or a closed outer formula (`Duffy08` has its own theorems). -/
inductive ConcCls
  | bullock01Power | zehavi11 | maccio07 | ludlow16Empirical | ludlow2016Empirical

/-- `_defaults`, concentration.py:344, 373, 502, 635-645; `ms = None` is represented by leaving the key `"ms"` for the
optional argument of `concCall`; the deprecated name inherits everything (701-712). -/
def concDefaults : ConcCls → Dict
  | .bullock01Power => [("a", 9), ("b", -0.13), ("c", 1), ("norm", 1)]
  | .zehavi11 => [("a", 11), ("b", -0.13), ("c", 1), ("norm", 1)]
  | .maccio07 => [("c_0", 28.65), ("gamma", 1.45), ("norm", 1)]
  | .ludlow16Empirical | .ludlow2016Empirical => [("c0_0", 3.395), ("c0_z", -0.215), ("beta_0", 0.307),
      ("beta_z", 0.54), ("gamma1_0", 0.628), ("gamma1_z", -0.047), ("gamma2_0", 0.317), ("gamma2_z", -0.893), ("norm", 1)]

/-- the default pivot `ms`, concentration.py:344, 502. -/
def msDefault : ConcCls → Option ℝ
  | .zehavi11 => some 2.26e12
  | _ => none

/-- the external inputs of a concentration relation: critical overdensity, growth factor, non-linear mass. -/
structure ConcIn where
  delta_c : ℝ
  D : ℝ → ℝ
  mnl : ℝ → ℝ

/-- `Cls(..., **kw).cm(m, z)`, concentration.py:350-354, 376-383, 666-684.  `ms` is the value of the keyword `ms` when
one is given (`some none` for `ms=None`); only the power laws have one. -/
def concCall (cls : ConcCls) (kw : Dict) (ms : Option (Option ℝ)) (i : ConcIn) (m z : ℝ) : Except Exc (Option ℝ) := do
  let ps ← initParams (concDefaults cls) kw
  match cls with
  | .bullock01Power | .zehavi11 => do
    let a ← get ps "a"
    let b ← get ps "b"
    let c ← get ps "c"
    let norm ← get ps "norm"
    .ok (some (bullockPower ⟨a, b, c, ms.getD (msDefault cls), norm⟩ i.mnl m z))
  | .maccio07 => do
    if ms.isSome then .error .valueError else
    let norm ← get ps "norm"
    let c0 ← get ps "c_0"
    let g ← get ps "gamma"
    .ok (some (maccio07 c0 g norm m z))
  | .ludlow16Empirical | .ludlow2016Empirical => do
    if ms.isSome then .error .valueError else
    let norm ← get ps "norm"
    let c00 ← get ps "c0_0"
    let c0z ← get ps "c0_z"
    let b0 ← get ps "beta_0"
    let bz ← get ps "beta_z"
    let g10 ← get ps "gamma1_0"
    let g1z ← get ps "gamma1_z"
    let g20 ← get ps "gamma2_0"
    let g2z ← get ps "gamma2_z"
    .ok (empirical ⟨c00, c0z, b0, bz, g10, g1z, g20, g2z, norm⟩ i.delta_c (i.D z) m z)

/-- `Bullock01(**kw).cm(m, z)`, concentration.py:288-308. -/
def bullockCall (kw : Dict) (nu D : ℝ → ℝ) (m : List ℝ) (z : ℝ) : Except Exc (List ℝ) := do
  let ps ← initParams [("F", 0.01), ("K", 3.4), ("norm", 1)] kw
  let norm ← get ps "norm"
  let K ← get ps "K"
  let F ← get ps "F"
  .ok (bullockCm norm K F nu D m z)

end
end Halomod.Params
