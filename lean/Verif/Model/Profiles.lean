import Verif.Prelude.Sici
import Mathlib.Analysis.SpecialFunctions.Pow.Real
import Mathlib.Analysis.SpecialFunctions.Gamma.Basic
import Mathlib.Analysis.SpecialFunctions.Trigonometric.Arctan
import Mathlib.Data.List.Sort

/-!
# Model of `/repo/src/halomod/profiles.py`

Floats are reals.  Every public method is modelled at one element of its (broadcast) arrays; what depends
on array *shapes* (`rho`'s masked assignment, the reshaping in `Profile._p`, the pairing of concentrations
with wavenumbers in `Einasto._p`) is modelled separately on shapes and index lists at the end of the file.
Not modelled: the numerical Fourier transforms (`hankel` in `ProfileInf._p`, the Meijer-G fits of
`MooreInf`/`GeneralizedNFWInf`), the table behind `Einasto._p`, the Simpson rule in `Profile._h`.
-/
namespace Halomod.Profiles

noncomputable section

/-- Python exceptions that the modelled calls can raise. -/
inductive PyErr
  | typeError
  | valueError
  | indexError
  | unboundLocal
  | attributeError
  | assertionError
  deriving DecidableEq

/-- What `Profile.__init__` stores, profiles.py:109-127. -/
structure Env where
  /-- `self.delta_halo` -/
  deltaHalo : ℝ
  /-- `self.mean_dens`: the mean density at the profile's redshift -/
  meanDens : ℝ
  /-- `self.mean_density0` -/
  meanDens0 : ℝ
  /-- `m ↦ self._cm_relation.cm(m, self.z)` -/
  cmRel : ℝ → ℝ
  /-- `self.nu_fn` -/
  nuFn : ℝ → ℝ
  /-- `self.params["eta_bloat"]` -/
  etaBloat : ℝ

/-- `Profile.halo_mass_to_radius`, profiles.py:129-141. -/
def Env.massToRadius (e : Env) (m : ℝ) (atZ : Bool := false) : ℝ :=
  (3 * m / (4 * Real.pi * e.deltaHalo * (if atZ then e.meanDens else e.meanDens0))) ^ ((1.0 : ℝ) / 3.0)

/-- `Profile.halo_radius_to_mass`, profiles.py:143-147. -/
def Env.radiusToMass (e : Env) (r : ℝ) (atZ : Bool := false) : ℝ :=
  4 * Real.pi * r ^ 3 * e.deltaHalo * (if atZ then e.meanDens else e.meanDens0) / 3

/-- `Profile._rs_from_m` once the concentration is known, profiles.py:149-166. -/
def Env.rsBase (e : Env) (m c : ℝ) (atZ : Bool := false) : ℝ :=
  e.massToRadius m atZ * Real.sqrt (e.nuFn m) ^ e.etaBloat / c

/-- `Profile.virial_velocity`, profiles.py:190-209; `none` is the Python `None`. -/
def Env.virialVelocity (e : Env) (m r : Option ℝ) : Except PyErr ℝ :=
  match m, r with
  | none, none => .error .valueError
  | some m, _ => .ok (Real.sqrt (6.673 * 1e-11 * m / e.massToRadius m))
  | none, some r => .ok (Real.sqrt (6.673 * 1e-11 * e.radiusToMass r / r))

/-- A concrete profile class: its `_f`, `_h`, `_p`, and its overrides of the mass–concentration chain. -/
structure Shape where
  f : ℝ → ℝ
  h : ℝ → ℝ
  /-- `_p(K, c)` -/
  p : ℝ → ℝ → ℝ
  /-- `cm_relation` applied to the value of the relation object -/
  cmOf : ℝ → ℝ := id
  /-- factor by which the class's `_rs_from_m` multiplies `Profile._rs_from_m`, given `c` -/
  rsFac : ℝ → ℝ := fun _ => 1
  /-- whether the class's `_rs_from_m` accepts the keyword `at_z` -/
  rsAtZ : Bool := true
  /-- whether the class's `_rs_from_m` accepts `c=None` (it may do arithmetic with `c` afterwards) -/
  rsNoC : Bool := true

/-- `self.cm_relation(m)`, profiles.py:443-445 and `Moore.cm_relation` 821-825. -/
def Shape.cm (s : Shape) (e : Env) (m : ℝ) : ℝ := s.cmOf (e.cmRel m)

/-- `self._rs_from_m(m, c)` (positional, `c` given). -/
def Shape.rs (s : Shape) (e : Env) (m c : ℝ) : ℝ := e.rsBase m c * s.rsFac c

/-- `Profile.scale_radius(m, at_z)`, profiles.py:168-188: calls `self._rs_from_m(m=m, at_z=at_z)`. -/
def Shape.scaleRadius (s : Shape) (e : Env) (m : ℝ) (atZ : Bool := false) : Except PyErr ℝ :=
  if s.rsAtZ then
    if s.rsNoC then .ok (e.rsBase m (s.cm e m) atZ * s.rsFac (s.cm e m)) else .error .typeError
  else .error .typeError

/-- Values of the `coord` argument. -/
inductive RCoord
  | r | x | s | other
  deriving DecidableEq

/-- Values of the `norm` argument. -/
inductive Norm
  | none | m | rho | other
  deriving DecidableEq

/-- `Profile._get_r_variables`, profiles.py:447-473: returns `(c, r_s, x)`.
The mass is optional: with `m = None`, `cm_relation`/`halo_mass_to_radius` do arithmetic on `None`. -/
def Shape.rVars (s : Shape) (e : Env) (r : ℝ) (m c : Option ℝ) (coord : RCoord) :
    Except PyErr (ℝ × ℝ × ℝ) :=
  match m with
  | .none => .error .typeError
  | some m =>
    let c := c.getD (s.cm e m)
    let rs := s.rs e m c
    match coord with
    | .r => .ok (c, rs, r / rs)
    | .x => .ok (c, rs, r)
    | .s => .ok (c, rs, r * c)
    | .other => .error .valueError

/-- `Profile._rho_s`, profiles.py:315-337; an unknown `norm` leaves the local `rho` unbound. -/
def Shape.rhoS (s : Shape) (e : Env) (c rs : ℝ) (norm : Norm) : Except PyErr ℝ :=
  match norm with
  | .none => .ok (c ^ 3 * e.deltaHalo * e.meanDens / (3 * s.h c))
  | .m => .ok (1.0 / (4 * Real.pi * rs ^ 3 * s.h c))
  | .rho => .ok (c ^ 3 * e.deltaHalo / (3 * s.h c))
  | .other => .error .unboundLocal

/-- `Profile.rho`, profiles.py:339-362, one element of an array `r`. -/
def Shape.rho (s : Shape) (e : Env) (r m : ℝ) (norm : Norm := .none) (c : Option ℝ := Option.none)
    (coord : RCoord := .r) : Except PyErr ℝ := do
  let (c, rs, x) ← s.rVars e r (some m) c coord
  let a ← s.rhoS e c rs norm
  return (if c < x then 0.0 else s.f x * a)

/-- `ProfileInf.rho`, profiles.py:551-574: no truncation. -/
def Shape.rhoInf (s : Shape) (e : Env) (r m : ℝ) (norm : Norm := .none) (c : Option ℝ := Option.none)
    (coord : RCoord := .r) : Except PyErr ℝ := do
  let (c, rs, x) ← s.rVars e r (some m) c coord
  let a ← s.rhoS e c rs norm
  return s.f x * a

/-- Values of the wavenumber `coord` argument. -/
inductive KCoord
  | k | kappa | other
  deriving DecidableEq

/-- `Profile._get_k_variables`, profiles.py:475-496; an unknown `coord` leaves `K` unbound. -/
def Shape.kVars (s : Shape) (e : Env) (k m : ℝ) (c : Option ℝ := Option.none) (coord : KCoord := .k) :
    Except PyErr (ℝ × ℝ) :=
  let c := c.getD (s.cm e m)
  let rs := s.rs e m c
  match coord with
  | .k => .ok (c, k * rs)
  | .kappa => .ok (c, k)
  | .other => .error .unboundLocal

/-- Normalisation step shared by `Profile.u` and `ProfileInf.u`, profiles.py:387-392, 599-604. -/
def uNorm (u m : ℝ) : Norm → Except PyErr ℝ
  | .none => .ok (u * m)
  | .m => .ok u
  | .rho => .error .valueError
  | .other => .error .valueError

/-- `Profile.u`, profiles.py:364-392. -/
def Shape.u (s : Shape) (e : Env) (k m : ℝ) (norm : Norm := .m) (c : Option ℝ := Option.none)
    (coord : KCoord := .k) : Except PyErr ℝ := do
  let (c, K) ← s.kVars e k m c coord
  uNorm (s.p K c / s.h c) m norm

/-- `ProfileInf.u`, profiles.py:576-604: calls `self._get_k_variables(k, m)` and drops the arguments
`c` and `coord`; `pInf` is the class's one-argument `_p`. -/
def Shape.uInf (s : Shape) (pInf : ℝ → ℝ) (e : Env) (k m : ℝ) (norm : Norm := .m)
    (_c : Option ℝ := Option.none) (_coord : KCoord := .k) : Except PyErr ℝ := do
  let (c, K) ← s.kVars e k m
  uNorm (pInf K / s.h c) m norm

/-- The value of `lam` once the radial variables are known, profiles.py:415-418, 646-649; `l` is the class's `_l`. -/
def Shape.lamValue (s : Shape) (l : ℝ → ℝ → ℝ) (e : Env) (norm : Norm) (c rs x : ℝ) : Except PyErr ℝ :=
  if norm = .none ∨ norm = .m then do
    let a ← s.rhoS e c rs norm
    return l x c * rs ^ 3 * a ^ 2
  else throw .valueError

/-- `Profile.lam`, profiles.py:394-421 (default `norm="m"`); `l` is the class's `_l`, if it has one. -/
def Shape.lam (s : Shape) (l : Option (ℝ → ℝ → ℝ)) (e : Env) (r m : ℝ) (norm : Norm := .m)
    (c : Option ℝ := Option.none) (coord : RCoord := .r) : Except PyErr ℝ :=
  match l with
  | .none => .error .attributeError
  | some l => do
    let (c, rs, x) ← s.rVars e r (some m) c coord
    s.lamValue l e norm c rs x

/-- `ProfileInf.lam`, profiles.py:625-652 (default `norm=None`): the radial variables are computed before the class is
asked whether it has a self-convolution. -/
def Shape.lamInf (s : Shape) (l : Option (ℝ → ℝ → ℝ)) (e : Env) (r m : ℝ) (norm : Norm := .none)
    (c : Option ℝ := Option.none) (coord : RCoord := .r) : Except PyErr ℝ := do
  let (c, rs, x) ← s.rVars e r (some m) c coord
  match l with
  | .none => throw .attributeError
  | some l => s.lamValue l e norm c rs x

/-- `Profile.cdf`, profiles.py:423-441. -/
def Shape.cdf (s : Shape) (e : Env) (r : ℝ) (c m : Option ℝ := Option.none) (coord : RCoord := .r) :
    Except PyErr ℝ := do
  let (c, _, x) ← s.rVars e r m c coord
  return s.h x / s.h c

/-! ### Concrete profiles -/

/-- `NFW._f`, profiles.py:678-679. -/
def nfwF (x : ℝ) : ℝ := 1.0 / (x * (1 + x) ^ 2)
/-- `NFW._h`, profiles.py:681-682. -/
def nfwH (c : ℝ) : ℝ := Real.log (1.0 + c) - c / (1.0 + c)
/-- `NFW._p`, profiles.py:684-687. -/
def nfwP (K c : ℝ) : ℝ :=
  Real.sin K * (Si ((1 + c) * K) - Si K) - Real.sin (c * K) / ((1 + c) * K)
    + Real.cos K * (Ci ((1 + c) * K) - Ci K)
/-- `NFW._l`, low branch, profiles.py:703-714. -/
def nfwLlo (x c : ℝ) : ℝ :=
  let a := 1.0 / c
  let f2 := (-4 * (1 + a) + 2 * a * x * (1 + 2 * a) + (a * x) ^ 2)
    / (2 * (x * (1 + a)) ^ 2 * (2 + x))
  let f3 := Real.log ((1 + a - a * x) * (1 + x) / (1 + a)) / x ^ 3
  let f4 := Real.log (1 + x) / (x * (2 + x) ^ 2)
  4 * Real.pi * (f2 + f3 + f4)
/-- `NFW._l`, high branch, profiles.py:715-723. -/
def nfwLhi (x c : ℝ) : ℝ :=
  let a := 1.0 / c
  let f2 := Real.log ((1 + a) / (a + a * x - 1)) / (x * (2 + x) ^ 2)
  let f3 := (x * a ^ 2 - 2 * a) / (2 * x * (1 + a) ^ 2 * (2 + x))
  4 * Real.pi * (f2 + f3)
/-- `NFW._l`, profiles.py:689-725, one element.  The guard of the high branch,
`np.any((x < 2c) & (x > c))`, looks at the whole array; an element equal to `2c` in an array with no
element inside `(c,2c)` keeps 0 instead of the branch value (which is also 0, `C29_at_twice`). -/
def nfwL (x c : ℝ) : ℝ :=
  if x ≤ c then nfwLlo x c else if x ≤ 2 * c then nfwLhi x c else 0
/-- `NFW`. -/
def nfw : Shape := { f := nfwF, h := nfwH, p := nfwP }

/-- `NFWInf._p`, profiles.py:731-733. -/
def nfwInfP (K : ℝ) : ℝ := 0.5 * ((Real.pi - 2 * Si K) * Real.sin K - 2 * Real.cos K * Ci K)
/-- `NFWInf._l`, profiles.py:735-739. -/
def nfwInfL (x : ℝ) : ℝ :=
  8 * Real.pi / (x ^ 2 * (x + 2))
    * (((x ^ 2 + 2 * x + 2) * Real.log (1 + x)) / (x * (x + 2)) - 1)

/-- `Hernquist._f`, profiles.py:761-762. -/
def herF (x : ℝ) : ℝ := 1.0 / (x * (1 + x) ^ 3)
/-- `Hernquist._h`, profiles.py:764-765. -/
def herH (c : ℝ) : ℝ := c ^ 2 / (2 * (1 + c) ^ 2)
/-- `Hernquist._p`, profiles.py:767-775. -/
def herP (K c : ℝ) : ℝ :=
  let f1 := K * Ci K * Real.sin K - K * Real.cos K * Si K - 1
  let f2 := -((1 + c) * K * Real.cos (c * K) + Real.sin (c * K)) / (1 + c) ^ 2
  let f3 := K ^ 2 * (Ci (K + c * K) * Real.sin K - Real.cos K * Si (K + c * K))
  (-K / 2 * f1 + 0.5 * (f2 + f3)) / K
/-- `Hernquist`. -/
def hernquist : Shape := { f := herF, h := herH, p := herP }
/-- `HernquistInf._p`, profiles.py:781-784. -/
def herInfP (K : ℝ) : ℝ :=
  0.25 * (2 - K * (2 * Ci K * Real.sin K + Real.cos K * (Real.pi - 2 * Si K)))
/-- `HernquistInf._l`, profiles.py:786-790. -/
def herInfL (x : ℝ) : ℝ :=
  let h1 := (24 + 60 * x + 56 * x ^ 2 + 24 * x ^ 3 + 6 * x ^ 4 + x ^ 5) / (1 + x)
  let h2 := 12 * (1 + x) * (2 + 2 * x + x ^ 2) * Real.log (1 + x) / x
  4 * Real.pi * 4 * (h1 - h2) / (x ^ 4 * (2 + x) ^ 4)

/-- `Moore._f`, profiles.py:815-816. -/
def mooreF (x : ℝ) : ℝ := 1.0 / (x ^ (1.5 : ℝ) * (1 + x ^ (1.5 : ℝ)))
/-- `Moore._h`, profiles.py:818-819. -/
def mooreH (c : ℝ) : ℝ := 2.0 * Real.log (1 + c ^ (1.5 : ℝ)) / 3
/-- `(c / 1.7) ** 0.9`, profiles.py:823, 829. -/
def mooreC (c : ℝ) : ℝ := (c / 1.7) ^ (0.9 : ℝ)
/-- `Moore`, profiles.py:793-829, with an arbitrary `_p`.  `_rs_from_m(self, m, c=None)` has no `at_z`
parameter, and computes `r_s * c / …`, which fails for `c = None`. -/
def moore (p : ℝ → ℝ → ℝ) : Shape :=
  { f := mooreF, h := mooreH, p := p, cmOf := mooreC, rsFac := fun c => c / mooreC c,
    rsAtZ := false, rsNoC := false }

/-- `Constant._f`, profiles.py:877-878. -/
def constF (_x : ℝ) : ℝ := 1.0
/-- `Constant._h`, profiles.py:880-881. -/
def constH (c : ℝ) : ℝ := c ^ 3 / 3.0
/-- `Constant._p`, profiles.py:883-884. -/
def constP (K c : ℝ) : ℝ := (-c * K * Real.cos (c * K) + Real.sin (c * K)) / K ^ 3
/-- `Constant`. -/
def constant : Shape := { f := constF, h := constH, p := constP }

/-- `GeneralizedNFW._f`, profiles.py:912-913. -/
def gnfwF (α x : ℝ) : ℝ := 1.0 / (x ^ α * (1 + x) ^ (3 - α))

/-- `Einasto._f`, profiles.py:1002-1004. -/
def einastoF (a x : ℝ) : ℝ := Real.exp ((-2.0 / a) * (x ^ a - 1))
/-- `ginc`: `gamma(a) * gammainc(a, x)`, the unnormalised lower incomplete gamma function,
profiles.py:70-72. -/
def ginc (s x : ℝ) : ℝ := ∫ t in (0 : ℝ)..x, t ^ (s - 1) * Real.exp (-t)
/-- `Einasto._h`, profiles.py:1006-1008. -/
def einastoH (a c : ℝ) : ℝ :=
  Real.exp (2 / a) * (2 / a) ^ (-3.0 / a) * ginc (3.0 / a) ((2.0 / a) * c ^ a) / a

/-- `CoredNFW._f`, profiles.py:1056-1057. -/
def coredF (x : ℝ) : ℝ := 1.0 / (x + 0.75) / (x + 1) ^ 2
/-- `CoredNFW._h`, profiles.py:1059-1065. -/
def coredH (c : ℝ) : ℝ :=
  -4 * (-(2 * c + 3) / (c + 1) + 2 * Real.log (c + 1)) + 9 * Real.log (c + 0.75) - 12
    - 9 * Real.log 0.75
/-- `CoredNFW._p.antideriv`, profiles.py:1068-1077. -/
def coredAnti (k x : ℝ) : ℝ :=
  (1.0 / k) * (12 * (Real.cos k * Si (k * (x + 1)) - Real.sin k * Ci (k * (x + 1)))
    + 4 * k * (Real.cos k * Ci (k * (x + 1)) + Real.sin k * Si (k * (x + 1)))
    - 4 * Real.sin (k * x) / (x + 1)
    + -12 * (Real.cos (0.75 * k) * Si (k * (x + 0.75)) - Real.sin (0.75 * k) * Ci (k * (x + 0.75))))
/-- `CoredNFW._p`, profiles.py:1067-1079. -/
def coredP (K c : ℝ) : ℝ := coredAnti K c - coredAnti K 0
/-- `CoredNFW`. -/
def coredNfw : Shape := { f := coredF, h := coredH, p := coredP }

/-- `PowerLawWithExpCut._f`, profiles.py:1105-1106. -/
def plF (a b x : ℝ) : ℝ := 1.0 / (x ^ b) * Real.exp (-a * x)
/-- `PowerLawWithExpCut._h`, profiles.py:1108-1113 (independent of `c`). -/
def plH (a b : ℝ) : ℝ := Real.Gamma (3 - b) * a ^ (b - 3)
open Classical in
/-- `PowerLawWithExpCut._p`, profiles.py:1115-1125. -/
def plP (a b K : ℝ) : ℝ :=
  if b = 2 then Real.arctan (K / a) / K
  else -1 / K * ((a ^ 2 + K ^ 2) ^ (b / 2 - 1) * Real.Gamma (2 - b)
    * Real.sin ((b - 2) * Real.arctan (K / a)))

end

/-! ### Shapes and index pairing -/

/-- numpy broadcasting of two shapes (innermost axis first), `none` if incompatible. -/
def broadcastRev : List ℕ → List ℕ → Option (List ℕ)
  | [], ys => some ys
  | xs, [] => some xs
  | x :: xs, y :: ys =>
    if x = y ∨ y = 1 then (broadcastRev xs ys).map (x :: ·)
    else if x = 1 then (broadcastRev xs ys).map (y :: ·)
    else none

/-- Shape of `x` for scalar mass (`[]`) or mass array, per coordinate: `np.divide.outer(r, r_s)`, `r`,
`np.outer(r, c)` (the last always two-dimensional), profiles.py:464-470.  Axes innermost first. -/
def xShape (r m : List ℕ) : RCoord → List ℕ
  | .r => m ++ r
  | .x => r
  | .s => [m.prod, r.prod]
  | .other => []

/-- The assignment `rho[x > c] = 0.0` of profiles.py:360, on shapes: `fShape` is the shape of `_f(x)`
(that of `x`, or `[]` for a `_f` that returns a Python float), `m` the shape of the masses.
numpy scalars (shape `[]`) do not support item assignment; a boolean mask must have the shape of
the array it indexes.  Simplification: `_rho_s` is reduced by `np.squeeze`, which only matters for
size-one mass arrays, taken here as scalars. -/
def rhoShape (fShape x m : List ℕ) : Except PyErr (List ℕ) :=
  match broadcastRev fShape m, broadcastRev x m with
  | some res, some mask =>
    if res = [] then .error .typeError else if mask = res then .ok res else .error .indexError
  | _, _ => .error .valueError

/-- Reshaping and assertions at the top of the generic numerical `Profile._p`, profiles.py:266-272:
`K` has shape `kShape` (outermost first), `c` has length `nc` after `np.atleast_1d`. Returns the
two-dimensional shape used. -/
def genericPShape (kShape : List ℕ) (nc : ℕ) : Except PyErr (ℕ × ℕ) :=
  let k2 : List ℕ :=
    match kShape with
    | [n] => if n ≠ nc then [1, n] else [n, 1]
    | s => s
  match k2 with
  | [a, b] => if b = nc then .ok (a, b) else .error .assertionError
  | [] => .error .typeError
  | _ => .error .assertionError

/-- Flat list of `(K, c)` pairs at which `Einasto._p` evaluates its interpolating spline,
profiles.py:1010-1030: `K` is a matrix of `nk` rows (wavenumbers) by `c.length` columns (haloes), read in
C order by `K.flatten()`; the concentrations are `np.repeat(c, K.shape[0])`. -/
def einastoPairs {α β : Type} (nk : ℕ) (K : ℕ → ℕ → α) (c : List β) : List (α × β) :=
  List.zip ((List.range nk).flatMap fun i => (List.range c.length).map fun j => K i j)
    (c.flatMap fun cj => List.replicate nk cj)

open Classical in
/-- `MooreInf._p`/`GeneralizedNFWInf._p` (profiles.py:854-866, 944-956) on a C-contiguous two-dimensional
`K`, given and returned flattened.  `np.reshape(K, -1)` is a view and `K1.sort()` sorts it in place, so `K`
itself is reordered before `fit(np.log(np.reshape(K, -1)))` is evaluated and reshaped to `K`'s shape.
`fit` is the interpolated Meijer-G transform as a function of the wavenumber.
Simplification: `fit` is taken as already built. -/
noncomputable def meijerP (fit : ℝ → ℝ) (K : List ℝ) : List ℝ := (K.insertionSort (· ≤ ·)).map fit

/-- The accumulation loop of `Profile._p` for one wavenumber, profiles.py:283-306: haloes are visited in
order of concentration (`cs` = the sorted concentrations) and the integral from the previous concentration
is added to the previous halo's value.  `quad a b` is the integral from `a` to `b`. -/
def accumulate (quad : ℝ → ℝ → ℝ) : List ℝ → List ℝ
  | [] => []
  | c0 :: rest =>
    let rec go (prevC prevV : ℝ) : List ℝ → List ℝ
      | [] => []
      | c :: cs => (prevV + quad prevC c) :: go c (prevV + quad prevC c) cs
    quad 0 c0 :: go c0 (quad 0 c0) rest

end Halomod.Profiles
