import Verif.Model.Populate
import Verif.Model.Profiles
import Verif.Model.HaloModel

/-! # Model of `Profile.populate`, `/repo/src/halomod/profiles.py:508-545`

One satellite; the random numbers (a uniform deviate `u` and three normals `g`) are arguments.  The column shape
`(1000, 1)` of the tables (`np.outer` with a single concentration) is not modelled: scipy flattens it. -/
namespace Halomod.Profiles

open Halomod.Tools Halomod.Populate Halomod.HaloModel

noncomputable section

/-- profiles.py:534-545 for one tracer: the table of radii up to the halo radius, the table of the cumulative
distribution there, the interpolating spline of the inverse, the radius at the deviate `u`, the direction of `g`. -/
def Shape.populateOne (s : Shape) (e : Env) (isp : Spl) (m : ℝ) (c : Option ℝ) (centre : Fin 3 → ℝ) (u : ℝ) (g : Fin 3 → ℝ) :
    Except PyErr (Fin 3 → ℝ) := do
  let (cv, rs, _) ← s.rVars e 0 (some m) c .s                                     -- 534
  let xs := fun i => linspace 0 1 1000 i * cv                                     -- 534
  let F := fun i => match s.cdf e (xs i) (some cv) (some m) .x with               -- 536
    | .ok v => v
    | .error _ => 0
  let x := isp 1000 F xs u                                                        -- 537-540
  return place rs x g centre                                                      -- 542-545

end
end Halomod.Profiles
