import Verif.Prelude.Quad
import Verif.Model.Tools
import Verif.Model.Hod
import Mathlib.Analysis.SpecialFunctions.Log.Base

/-!
# Model of the `tracer_density` machinery of `TracerHaloModel`
(`/repo/src/halomod/halo_model.py` 932-988 and 1669-1716)

`Rest` is the bundle of all parameters other than `hod_params` and `tracer_density`.  `hod_params` is a
dictionary `String → Option ℝ`.  What `hmf`'s framework does on assignment (external) is a parameter.
-/
namespace Halomod.HaloState

open Finset

noncomputable section

/-- a dictionary of parameters. -/
abbrev Dict := String → Option ℝ

/-- `{"M_min": x}`. -/
def mminDict (x : ℝ) : Dict := fun k => if k = "M_min" then some x else none

/-- exceptions that can leave `update`. -/
inductive Err
  | invalid      -- ValueError/AssertionError of the framework
  | ng           -- NGException
  | other        -- anything else raised by the solver
  deriving DecidableEq

/-- Externals: the framework (`hmf`) and the numerical part of the solver. -/
structure World (Rest RestKw : Type) where
  /-- effect of assigning a dictionary parameter: `self.hod_params = new` -/
  setDict : Dict → Dict → Dict
  /-- effect of `super().update(**kwargs)` on the other parameters -/
  setRest : Rest → RestKw → Rest
  /-- does `validate()` accept (otherwise it raises, the parameters staying as assigned)? -/
  valid : Rest → Dict → Bool
  /-- `self.Mmin` -/
  Mmin : Rest → ℝ
  /-- the other parameters with `dlog10m = 0.01` -/
  dlog : Rest → Rest
  /-- `_find_m_min` after the clone has been made, halo_model.py:1677-1715: a function of the clone's
  parameters, and of the density asked for -/
  solve : Rest → Dict → ℝ → Except Err ℝ

/-- a keyword given or not given, and `None` or a number. -/
abbrev Kw (α : Type) := Option α

/-- arguments of `update`. `density = none`: keyword absent; `some none`: `tracer_density=None`. -/
structure Upd (RestKw : Type) where
  density : Kw (Option ℝ)
  hodParams : Kw Dict
  rest : RestKw

/-- state of a `TracerHaloModel`. -/
structure St (Rest : Type) where
  rest : Rest
  hod : Dict
  density : Option ℝ

variable {Rest RestKw : Type}

/-- lines 977-980 of `update`: what happens to `tracer_density`. -/
def newDensity (s : St Rest) (u : Upd RestKw) : Option ℝ :=
  match u.density with
  | some d => d                                                            -- 977-978
  | none =>
    match u.hodParams with
    | some p => if (p "M_min").isSome then none else s.density             -- 979-980
    | none => s.density

/-- line 982: `super().update(**kwargs)`. -/
def superUpdate (X : World Rest RestKw) (s : St Rest) (u : Upd RestKw) : St Rest :=
  { s with
    rest := X.setRest s.rest u.rest
    hod := u.hodParams.elim s.hod (X.setDict s.hod) }

mutual
/-- `update`, halo_model.py:975-988.  The result is the outcome and the object left behind; `none` means
that the recursion was cut after `fuel` nested calls. -/
def update (X : World Rest RestKw) (noRest : RestKw) : ℕ → St Rest → Upd RestKw →
    Option (Except Err Unit × St Rest)
  | 0, _, _ => none
  | fuel + 1, s, u =>
    let s1 := { s with density := newDensity s u }
    let s2 := superUpdate X s1 u
    if X.valid s2.rest s2.hod then
      match s2.density with
      | none => some (.ok (), s2)
      | some n =>                                                          -- 984-986
        match find X noRest fuel s2 n with
        | none => none
        | some (.error e) => some (.error e, s2)
        | some (.ok m) =>
          let s3 := { s2 with hod := X.setDict s2.hod (mminDict m) }
          if X.valid s3.rest s3.hod then some (.ok (), s3) else some (.error .invalid, s3)
    else some (.error .invalid, s2)
/-- `_find_m_min`, halo_model.py:1669-1716: clone with `M_min = Mmin` (an `update` on a copy), then solve. -/
def find (X : World Rest RestKw) (noRest : RestKw) : ℕ → St Rest → ℝ → Option (Except Err ℝ)
  | 0, _, _ => none
  | fuel + 1, s, n =>
    let copy := { s with rest := X.dlog s.rest }                           -- 1675 (dlog10m=0.01)
    match update X noRest fuel copy ⟨none, some (mminDict (X.Mmin s.rest)), noRest⟩ with
    | none => none
    | some (.error e, _) => some (.error e)
    | some (.ok (), c) => some (X.solve c.rest c.hod n)
end

/-- `__init__`, halo_model.py:956-973: assignments, then the solver if a density is given. -/
def construct (X : World Rest RestKw) (noRest : RestKw) (fuel : ℕ) (rest : Rest) (hod : Dict)
    (density : Option ℝ) : Option (Except Err Unit × St Rest) :=
  let s : St Rest := ⟨rest, hod, density⟩
  match density with
  | none => some (.ok (), s)
  | some n =>
    match find X noRest fuel s n with
    | none => none
    | some (.error e) => some (.error e, s)
    | some (.ok m) => some (.ok (), { s with hod := X.setDict s.hod (mminDict m) })

/-! ## the sharp-cut branch of the solver, halo_model.py:1685-1701 -/

/-- results of `_find_m_min`. -/
inductive FindRes
  | attributeError
  | ngException
  | indexError
  | splineError
  | ok (mmin : ℝ)

/-- `integral[j]` of line 1686: `cumtrapz` of the reversed integrand `y` (length `N`), `j < N - 1`. -/
def cumRev (N : ℕ) (dx : ℝ) (y : ℕ → ℝ) (j : ℕ) : ℝ :=
  ∑ t ∈ range (j + 1), dx * (y (N - 1 - t) + y (N - 1 - (t + 1))) / 2

open Classical in
/-- halo_model.py:1685-1701.  `hasCumtrapz`: does `scipy.integrate` still have the attribute `cumtrapz`
(removed in scipy 1.14; the lock file of the repository pins 1.17.1)?  `m`, `y` are the masked masses and
integrand (length `N`), `lenM = len(c.m)`.  scipy's spline of degree 3 needs at least four points with
strictly increasing finite abscissae. -/
def findSharp (hasCumtrapz : Bool) (isp : Tools.Spl) (N lenM : ℕ) (dx : ℝ) (m y : ℕ → ℝ) (ng : ℝ) : FindRes :=
  if !hasCumtrapz then .attributeError
  else if N - 1 = 0 then .indexError                                       -- integral[-1] of an empty array
  else if cumRev N dx y (N - 2) < ng then .ngException                     -- 1688-1689
  else if h : ∃ j, j < N - 1 ∧ cumRev N dx y j > ng then
    let ind := Nat.find h                                                  -- 1691
    let lo := ind - 4
    let hi := min (min (ind + 4) lenM) (N - 1)
    let w := hi - lo
    let X := fun i => Real.log (cumRev N dx y (lo + i))                    -- 1694, 1696
    let Y := fun i => Real.log (m (N - 1 - (lo + i + 1)))                  -- 1693: reversed, first dropped
    if 4 ≤ w ∧ 0 < cumRev N dx y lo ∧ ∀ i, i + 1 < w → X i < X (i + 1) then
      .ok (isp w X Y (Real.log ng) / Real.log 10)                          -- 1696-1697
    else .splineError
  else .indexError                                                         -- np.where(..)[0][0]

end
end Halomod.HaloState
