import Verif.Prelude.Quad
import Mathlib.Analysis.SpecialFunctions.Pow.Real
import Mathlib.Analysis.SpecialFunctions.Log.Basic
import Mathlib.Analysis.Real.Pi.Bounds

/-!
# Model of `/repo/src/halomod/halo_exclusion.py`

Arrays are functions of natural-number indices with explicit lengths.  Floats are reals.
In-place loops over a matrix are sequences of point updates.  `numba`-compiled functions are modelled
by their Python text; memory they leave uninitialised (`np.empty`) is an arbitrary function `junk`.
-/
namespace Halomod.Exclusion

open Finset

noncomputable section

abbrev Mat := ℕ → ℕ → ℝ

/-! ## utilities, lines 29-132 -/

/-- weight along one axis in `dbltrapz` (halo_exclusion.py:38-39): entries `1:-1` are doubled. -/
def trapzW (n i : ℕ) : ℝ := if 1 ≤ i ∧ i < n - 1 then 2 else 1

/-- `dbltrapz`, halo_exclusion.py:34-40 (`dy or dx`: a `dy` of `None` or 0 becomes `dx`). -/
def dbltrapz (n : ℕ) (X : Mat) (dx : ℝ) (dy : Option ℝ) : ℝ :=
  let dy' := match dy with | some d => if d = 0 then dx else d | none => dx
  dx * dy' * (∑ i ∈ range n, ∑ j ∈ range n, X i j * trapzW n i * trapzW n j) / 4

/-- weight along one axis in `makeW` (halo_exclusion.py:46-49): `1:n-1:2` times 4, `2:n-1:2` times 2. -/
def makeWaxis (n i : ℕ) : ℝ :=
  (if 1 ≤ i ∧ i < n - 1 ∧ i % 2 = 1 then 4 else 1) * (if 2 ≤ i ∧ i < n - 1 ∧ i % 2 = 0 then 2 else 1)

/-- `makeW`, halo_exclusion.py:43-50. -/
def makeW (nx ny : ℕ) : Mat := fun i j => makeWaxis nx i * makeWaxis ny j

/-- Python `range(a, b, s)`. -/
def pyRange (a b s : ℕ) : List ℕ := (List.range ((b - a + (s - 1)) / s)).map fun k => a + s * k

/-- one in-place update `W[a, b] *= c` -/
structure Upd where
  a : ℕ
  b : ℕ
  c : ℝ

/-- effect of `W[a, b] *= c` -/
def mulAt (W : Mat) (u : Upd) : Mat := fun i j => if i = u.a ∧ j = u.b then W i j * u.c else W i j

/-- The in-place updates of `makeW_` in program order, halo_exclusion.py:75-104, for the square case
`nx = ny = n` (the only one used); negative indices `-1`, `-2` are `n-1`, `n-2`. -/
def makeWUpdates (n : ℕ) : List Upd :=
  if n % 2 = 0 then
    ((pyRange 1 (n - 2) 2).flatMap fun ix =>                                 -- 76
      [⟨ix, n - 1, 4⟩, ⟨n - 1, ix, 4⟩] ++                                    -- 77-78
        (List.range (n - 1)).flatMap fun iy => [⟨ix, iy, 4⟩, ⟨iy, ix, 4⟩])   -- 79-81
    ++ ((pyRange 2 (n - 2) 2).flatMap fun ix =>                              -- 83
      [⟨ix, n - 1, 2⟩, ⟨n - 1, ix, 2⟩] ++                                    -- 84-85
        (List.range (n - 1)).flatMap fun iy => [⟨ix, iy, 2⟩, ⟨iy, ix, 2⟩])   -- 86-88
    ++ ((List.range n).flatMap fun ix =>                                     -- 90
      [⟨ix, n - 2, 2.5⟩, ⟨ix, n - 1, 1.5⟩, ⟨n - 2, ix, 2.5⟩, ⟨n - 1, ix, 1.5⟩]) -- 91-94
  else
    ((pyRange 1 (n - 1) 2).flatMap fun ix =>                                 -- 96
      (List.range n).flatMap fun iy => [⟨ix, iy, 4⟩, ⟨iy, ix, 4⟩])           -- 97-99
    ++ ((pyRange 2 (n - 1) 2).flatMap fun ix =>                              -- 101
      (List.range n).flatMap fun iy => [⟨ix, iy, 2⟩, ⟨iy, ix, 2⟩])           -- 102-104

/-- `makeW_`, halo_exclusion.py:72-106. -/
def makeW_ (n : ℕ) : Mat := (makeWUpdates n).foldl mulAt (fun _ _ => 1)

/-- The in-place updates of `makeH_`, halo_exclusion.py:112-115 (square case). -/
def makeHUpdates (n : ℕ) : List Upd :=
  (pyRange 1 (n - 1) 1).flatMap fun ix =>
    (List.range n).flatMap fun iy => [⟨ix, iy, 2⟩, ⟨iy, ix, 2⟩]

/-- `makeH_`, halo_exclusion.py:109-117. -/
def makeH_ (n : ℕ) : Mat := (makeHUpdates n).foldl mulAt (fun _ _ => 1)

/-- the triangle loop shared by `dblsimps_` (lines 63-67) and `dbltrapz_` (126-130): diagonal once,
strict upper triangle twice. -/
def triSum (n : ℕ) (W X : Mat) : ℝ :=
  ∑ ix ∈ range n, (W ix ix * X ix ix + ∑ iy ∈ Ico (ix + 1) n, 2 * W ix iy * X ix iy)

/-- `dblsimps_`, halo_exclusion.py:56-69. -/
def dblsimps_ (n : ℕ) (X : Mat) (dx dy : ℝ) : ℝ := dx * dy * triSum n (makeW_ n) X / 9

/-- `dbltrapz_`, halo_exclusion.py:120-132. -/
def dbltrapz_ (n : ℕ) (X : Mat) (dx dy : ℝ) : ℝ := dx * dy * triSum n (makeH_ n) X / 4

/-! ## the exclusion object -/

/-- `bias`: 1D over mass or 2D over (r, mass), halo_exclusion.py:169-171. -/
inductive Bias
  | d1 (b : ℕ → ℝ)
  | d2 (b : ℕ → ℕ → ℝ)

/-- Integral of the cubic interpolating spline through `(x i, y i)`, `i < n`, from `a` to `b`:
`InterpolatedUnivariateSpline(x, y).integral(a, b)` — an external, hence a parameter. -/
abbrev Ius := (n : ℕ) → (x y : ℕ → ℝ) → (a b : ℝ) → ℝ

/-- Constructor arguments of `Exclusion`, halo_exclusion.py:179-198. -/
structure Excl where
  n : ℕ
  m : ℕ → ℝ
  density : ℕ → ℝ
  /-- (k, m) -/
  pint : ℕ → ℕ → ℝ
  bias : Bias
  r : ℕ → ℝ
  haloDensity : ℝ
  xminArg : Option ℝ

/-- `self.dlnx`, halo_exclusion.py:196. -/
def Excl.dlnx (e : Excl) : ℝ := Real.log (e.m 1 / e.m 0)

/-- `self.xmin`, halo_exclusion.py:198: kept only if it is strictly above the first grid mass. -/
def Excl.xmin (e : Excl) : Option ℝ :=
  match e.xminArg with
  | some x => if x > e.m 0 then some x else none
  | none => none

/-- `raw_integrand`, halo_exclusion.py:200-209, at (ir, ik, im). -/
def Excl.raw (e : Excl) (ir ik im : ℕ) : ℝ :=
  match e.bias with
  | .d1 b => 1 * (e.pint ik im * b im * e.m im)
  | .d2 b => (e.pint ik im * e.m im) * b ir im

/-- `_spline_integrate`, halo_exclusion.py:211-239. -/
def Excl.splineIntegrate (ius : Ius) (e : Excl) (f : ℕ → ℝ) : ℝ :=
  match e.xmin with
  | none => simpsonDx e.n e.dlnx f
  | some x => ius e.n (fun i => Real.log (e.m i)) f (Real.log x) (Real.log (e.m (e.n - 1)))

/-- `r_halo`, halo_exclusion.py:267-270. -/
def Excl.rHalo (e : Excl) (im : ℕ) : ℝ :=
  (3 * e.m im / (4 * Real.pi * e.haloDensity)) ^ ((1.0 : ℝ) / 3.0)

/-- `NoExclusion.integrate`, halo_exclusion.py:276-298.  For 1D bias the code returns one row that is
broadcast over `r`. -/
def noExclIntegrate (ius : Ius) (e : Excl) (ir ik : ℕ) : ℝ :=
  match e.bias with
  | .d1 b => e.splineIntegrate ius (fun im => e.pint ik im * b im * e.m im) ^ 2
  | .d2 _ => e.splineIntegrate ius (e.raw ir ik) ^ 2

/-- number of rows of `NoExclusion.integrate()` given `nr` separations (297: one row for 1D bias). -/
def noExclRows (e : Excl) (nr : ℕ) : ℕ :=
  match e.bias with
  | .d1 _ => 1
  | .d2 _ => nr

/-- `Exclusion.density_mod` of the base class (used by NoExclusion), halo_exclusion.py:265. -/
def noExclDensityMod (_e : Excl) (_ir : ℕ) : ℝ := 1

/-- `Sphere.mlim`, halo_exclusion.py:330-333. -/
def Excl.mlim (e : Excl) (ir : ℕ) : ℝ := 4 * Real.pi * (e.r ir / 2) ^ 3 * e.haloDensity / 3

/-- `Sphere.mask` (true = removed), halo_exclusion.py:325-328. -/
def sphereMask (e : Excl) (ir im : ℕ) : Prop := e.m im > e.mlim ir

open Classical in
/-- setting masked elements to zero, e.g. halo_exclusion.py:322, 345, 372, 426. -/
def masked (p : Prop) (x : ℝ) : ℝ := if p then 0 else x

/-- `Sphere.density_mod`, halo_exclusion.py:312-323. -/
def sphereDensityMod (ius : Ius) (e : Excl) (ir : ℕ) : ℝ :=
  e.splineIntegrate ius fun im => masked (sphereMask e ir im) (1 * (e.density im * e.m im))

/-- `Sphere.integrate`, halo_exclusion.py:335-346. -/
def sphereIntegrate (ius : Ius) (e : Excl) (ir ik : ℕ) : ℝ :=
  e.splineIntegrate ius (fun im => masked (sphereMask e ir im) (e.raw ir ik im)) ^ 2

/-- `DblSphere.mask`, halo_exclusion.py:360-364; the final `.T` also swaps the two mass axes. -/
def dblSphereMask (e : Excl) (ir i j : ℕ) : Prop := (e.rHalo j + e.rHalo i) * 1 > e.r ir

/-- `DblSphere.density_mod`, halo_exclusion.py:366-375. -/
def dblSphereDensityMod (ius : Ius) (e : Excl) (ir : ℕ) : ℝ :=
  Real.sqrt (e.splineIntegrate ius fun i => e.splineIntegrate ius fun j =>
    masked (dblSphereMask e ir i j) ((e.density i * e.m i) * (e.density j * e.m j)))

/-- outer integral of `integrate_dblsphere` / `DblEllipsoid.integrate` given the inner one: spline from
`xmin` if set, else Simpson (halo_exclusion.py:406-421, 520). -/
def Excl.outerInt (ius : Ius) (e : Excl) (f : ℕ → ℝ) : ℝ := e.splineIntegrate ius f

/-- `DblSphere.integrate` = `integrate_dblsphere`, halo_exclusion.py:377-430: the inner integral is
Simpson over the *full* grid, whatever `xmin`. -/
def dblSphereIntegrate (ius : Ius) (e : Excl) (ir ik : ℕ) : ℝ :=
  e.outerInt ius fun i => simpsonDx e.n e.dlnx fun j =>
    masked (dblSphereMask e ir i j) (e.raw ir ik i * e.raw ir ik j)

open Classical in
/-- `integrate_dblsphere_` / `DblSphere_.integrate`, halo_exclusion.py:436-462: only the upper triangle
of the work array is written (lines 447-452); the rest stays at its initial 0. `xmin` is ignored. -/
def dblSphereIntegrate_ (e : Excl) (ir ik : ℕ) : ℝ :=
  dblsimps_ e.n (fun i j => if i ≤ j then
      (if dblSphereMask e ir i j then 0 else e.raw ir ik i * e.raw ir ik j) else 0) e.dlnx e.dlnx

/-- `DblEllipsoid.prob`, halo_exclusion.py:488-495 (`np.clip` to [0,1]). -/
def ellProb (r r1 r2 : ℝ) : ℝ :=
  let x := (r * (1 / (r1 + r2)) - 0.8) / 0.29
  let y := min (max x 0) 1
  3 * y ^ 2 - 2 * y ^ 3

/-- `DblEllipsoid.density_mod`, halo_exclusion.py:497-507. -/
def ellDensityMod (ius : Ius) (e : Excl) (ir : ℕ) : ℝ :=
  let integrand : Mat := fun i j => ellProb (e.r ir) (e.rHalo i) (e.rHalo j)
    * (1 * ((e.density i * e.m i) * (e.density j * e.m j)))
  match e.xmin with
  | none => Real.sqrt (dbltrapz e.n integrand e.dlnx none)
  | some _ => Real.sqrt (e.splineIntegrate ius fun i => e.splineIntegrate ius (integrand i))

/-- `DblEllipsoid.integrate`, halo_exclusion.py:509-521. -/
def ellIntegrate (ius : Ius) (e : Excl) (ir ik : ℕ) : ℝ :=
  e.outerInt ius fun i => simpsonDx e.n e.dlnx fun j =>
    ellProb (e.r ir) (e.rHalo i) (e.rHalo j) * (e.raw ir ik i * e.raw ir ik j)

/-- the scalar computed in `prob_inner_` / `prob_inner_r_`, halo_exclusion.py:584-590, 604-610. -/
def probInner (r r1 r2 : ℝ) : ℝ :=
  let x := (r / (r1 + r2) - 0.8) / 0.29
  if x ≤ 0 then 0 else if x ≥ 1 then 1 else 3 * x ^ 2 - 2 * x ^ 3

/-- the array `prob_inner_` returns at one `r` (halo_exclusion.py:576-611): upper triangle computed,
lower triangle uninitialised memory. -/
def probInner_ (junk : Mat) (r : ℝ) (rvir : ℕ → ℝ) : Mat := fun i j =>
  if i ≤ j then probInner r (rvir i) (rvir j) else junk i j

/-- `DblEllipsoid_.integrate` = `integrate_dblell`, halo_exclusion.py:544-564. `xmin` is ignored. -/
def ellIntegrate_ (junk : Mat) (e : Excl) (ir ik : ℕ) : ℝ :=
  dbltrapz_ e.n (fun i j => if i ≤ j then
      e.raw ir ik i * e.raw ir ik j * probInner_ junk (e.r ir) e.rHalo i j else 0) e.dlnx e.dlnx

/-- `DblEllipsoid_.density_mod` = `density_mod_`, halo_exclusion.py:529-537, 566-573. -/
def ellDensityMod_ (junk : Mat) (e : Excl) (ir : ℕ) : ℝ :=
  Real.sqrt (dbltrapz_ e.n (fun i j => probInner_ junk (e.r ir) e.rHalo i j
    * ((e.density i * e.m i) * (e.density j * e.m j))) e.dlnx e.dlnx)

/-- `NgMatched.mask` / `NgMatched_.mask`, halo_exclusion.py:620-630, 644-654, given `density_mod[ir]`. -/
def ngMask (e : Excl) (dmod : ℝ) (im : ℕ) : Prop :=
  1 * cumtrapz0 e.dlnx (fun i => e.density i * e.m i) im > 1.0001 * (dmod * 1)

/-- `NgMatched.integrate`, halo_exclusion.py:632-636. -/
def ngIntegrate (ius : Ius) (e : Excl) (ir ik : ℕ) : ℝ :=
  e.splineIntegrate ius (fun im => masked (ngMask e (ellDensityMod ius e ir) im) (e.raw ir ik im)) ^ 2

/-- `NgMatched_.integrate`, halo_exclusion.py:656-660 (plain Simpson; `xmin` is ignored). -/
def ngIntegrate_ (junk : Mat) (e : Excl) (ir ik : ℕ) : ℝ :=
  simpsonDx e.n e.dlnx
    (fun im => masked (ngMask e (ellDensityMod_ junk e ir) im) (e.raw ir ik im)) ^ 2

/-! ## cumsimps, lines 663-682 -/

/-- `f1` of `cumsimps`, halo_exclusion.py:675-677. -/
def cumsimpsF1 (n : ℕ) (f : ℕ → ℝ) (i : ℕ) : ℝ :=
  f i * (if 1 ≤ i ∧ i < n - 1 then 2 else 1) * (if 1 ≤ i ∧ i < n - 1 ∧ i % 2 = 1 then 2 else 1)

/-- `rm` of `cumsimps`, halo_exclusion.py:678-679. -/
def cumsimpsRm (n : ℕ) (f : ℕ → ℝ) (i : ℕ) : ℝ :=
  f i * (if 1 ≤ i ∧ i < n - 1 ∧ i % 2 = 1 then 3 else 1)

/-- `cumsimps(func, dx)[i]`, halo_exclusion.py:663-682. -/
def cumsimps (n : ℕ) (f : ℕ → ℝ) (dx : ℝ) (i : ℕ) : ℝ :=
  ((∑ j ∈ range (i + 1), cumsimpsF1 n f j) - cumsimpsRm n f i) * dx / 3

end
end Halomod.Exclusion
