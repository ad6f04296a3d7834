import Verif.Model.Components
import Verif.Model.HaloState

/-!
# Model of the branch of `TracerHaloModel._find_m_min` for HODs without a sharp cut
(`/repo/src/halomod/halo_model.py` 1669-1682 and 1702-1716)
-/
namespace Halomod.HaloState

open Halomod.HOD Halomod.Components

noncomputable section

/-- the clone used by the solver: mass grid, mass function, and the HOD as a function of `M_min` (all other
HOD parameters fixed). -/
structure Clone where
  nm : ℕ
  m : ℕ → ℝ
  dndm : ℕ → ℝ
  hod : ℝ → Hod

/-- `c._tm` for `M_min = x`, halo_model.py:1062-1078. -/
def Clone.mask (c : Clone) (x : ℝ) : List ℕ := tracerMask c.nm c.m (some (c.hod x).mmin)

/-- lines 1677 and 1711-1712 (and 1704): Simpson's rule over `ln m` of `m dn/dm N(m)` on the masked grid. -/
def Clone.density (c : Clone) (x : ℝ) : ℝ :=
  let idx := c.mask x
  simpsonDx idx.length (Real.log (c.m 1 / c.m 0)) fun i =>
    c.m (idx.getD i 0) * c.dndm (idx.getD i 0) * (c.hod x).totalOcc (c.m (idx.getD i 0))

/-- does `c.update(hod_params={"M_min": x})` pass `validate` (line 995)? -/
def Clone.valid (c : Clone) (x : ℝ) : Prop := 1 < (c.mask x).length

/-- scipy's `minimize(f, x0, method="Nelder-Mead", ..)`: the points at which it evaluates `f` (in order) and
the point it returns. -/
abbrev Optimizer := (ℝ → ℝ) → ℝ → List ℝ × ℝ

/-- results of the solver. -/
inductive SmoothRes
  | ngException
  | assertionError
  | ok (mmin : ℝ)

open Classical in
/-- halo_model.py:1702-1716 (and 1675-1677): the clone at `M_min = Mmin`; the check of the largest density;
the minimisation of `|density - ng|` started at 12.0, in which a trial that leaves fewer than two masses
raises; the returned point is used without looking at `res.success`. -/
def findSmooth (opt : Optimizer) (c : Clone) (Mmin ng : ℝ) : SmoothRes :=
  if ¬ c.valid Mmin then .assertionError                                            -- 1675
  else if c.density Mmin < ng then .ngException                                     -- 1705-1706
  else
    let r := opt (fun x => |c.density x - ng|) 12.0                                 -- 1708-1714
    if ∀ x ∈ r.1, c.valid x then .ok r.2 else .assertionError

end
end Halomod.HaloState
