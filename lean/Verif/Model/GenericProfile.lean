import Verif.Model.Profiles
import Verif.Model.IntegrateCorr
import Mathlib.Data.Fintype.Lattice
import Mathlib.Logic.Equiv.Fin.Basic

/-!
# Profiles without closed forms

`Profile._h` and `Profile._p` of profiles.py are the numerical fallbacks: they are what
`GeneralizedNFW` (both), `Moore` and `Einasto` with a non-default `alpha` (the transform) use.
Externals: `scipy.integrate.quad` (`quad g a b`), `InterpolatedUnivariateSpline` (`isp`, of `Model/Tools`) and
`np.argsort` (any sorting permutation).
-/
namespace Halomod.Profiles

open Halomod.HaloModel (linspace)
open Halomod.Tools (Spl)

noncomputable section

/-- One sub-interval of `scipy.integrate.cumulative_simpson(y, dx=dx)`: even sub-intervals use the parabola
through the point after them, odd ones and the last one the parabola through the point before. -/
def cumSub (n : ℕ) (dx : ℝ) (y : ℕ → ℝ) (j : ℕ) : ℝ :=
  if j % 2 = 0 ∧ j + 2 < n then dx / 3 * (5 * y j / 4 + 2 * y (j + 1) - y (j + 2) / 4)
  else dx / 3 * (5 * y (j + 1) / 4 + 2 * y j - y (j - 1) / 4)

/-- Entry `i` of `scipy.integrate.cumulative_simpson(y, dx=dx, initial=0)` for at least three samples. -/
def cumSimpson (n : ℕ) (dx : ℝ) (y : ℕ → ℝ) (i : ℕ) : ℝ := ∑ j ∈ Finset.range i, cumSub n dx y j

/-- A float or a one-dimensional array. -/
inductive SA
  | scalar (v : ℝ)
  | arr (l : List ℝ)

/-- Elementwise application. -/
def SA.map (g : ℝ → ℝ) : SA → SA
  | .scalar v => .scalar (g v)
  | .arr l => .arr (l.map g)

/-- `np.max`: `none` stands for the ValueError on an empty array. -/
def SA.max : SA → Option ℝ
  | .scalar v => some v
  | .arr l => l.max?

/-- `x` of `np.linspace(1e-6, np.max(c), 2000, retstep=True)`, profiles.py:230. -/
def hGrid (cmax : ℝ) (i : ℕ) : ℝ := linspace 1e-6 cmax 2000 i
/-- `dx` of the same call. -/
def hStep (cmax : ℝ) : ℝ := (cmax - 1e-6) / 1999

/-- `integ`, profiles.py:231-233. -/
def hTable (f : ℝ → ℝ) (cmax : ℝ) (i : ℕ) : ℝ :=
  cumSimpson 2000 (hStep cmax) (fun i => f (hGrid cmax i) * hGrid cmax i ^ 2) i

/-- `Profile._h`, profiles.py:211-239: numerical normalisation `∫ f x²` out to the concentration. -/
def genericH (isp : Spl) (f cm : ℝ → ℝ) (c m : Option SA) : Except PyErr SA :=
  match c, m with
  | none, none => .error .valueError
  | c, m =>
    let c : SA := match m with
      | some m => m.map cm
      | none => c.getD (.scalar 0)
    match c.max with
    | none => .error .valueError
    | some cmax =>
      match c with
      | .scalar _ => .ok (.scalar (hTable f cmax 1999))
      | .arr l => .ok (.arr (l.map (isp 2000 (hGrid cmax) (hTable f cmax))))

/-- Integrand of `Profile._p`, profiles.py:294. -/
def pIntegrand (f : ℝ → ℝ) (k x : ℝ) : ℝ := x * f x * Real.sin (k * x) / k

/-- The loop over haloes of `Profile._p` for one wavenumber, profiles.py:286-306, after its first `i` passes:
`σ` is `sort_indx`, the table is indexed by halo.  `quad g a b` is `scipy.integrate.quad(g, a, b, ...)[0]`. -/
def pColumn {nc : ℕ} (quad : (ℝ → ℝ) → ℝ → ℝ → ℝ) (g : ℝ → ℝ) (c : Fin nc → ℝ) (σ : Fin nc → Fin nc) : ℕ → Fin nc → ℝ
  | 0 => fun _ => 0
  | i + 1 =>
    let res := pColumn quad g c σ i
    if h : i < nc then
      let c0 : ℝ := if i = 0 then 0 else c (σ ⟨i - 1, by omega⟩)
      let integral := quad g c0 (c (σ ⟨i, h⟩))
      Function.update res (σ ⟨i, h⟩) (if i = 0 then integral else res (σ ⟨i - 1, by omega⟩) + integral)
    else res

/-- `zeros`, profiles.py:285: `np.pi / k * np.arange(c.max() // (np.pi / k))`. -/
def pZeros (k cmax : ℝ) : List ℝ := (List.range ⌊cmax / (Real.pi / k)⌋₊).map fun i : ℕ => Real.pi / k * (i : ℝ)

open Classical in
/-- `points`, profiles.py:290. -/
def pPoints (k cmax c0 c1 : ℝ) : List ℝ := (pZeros k cmax).filter fun t => c0 < t ∧ t < c1

/-- The wavenumbers at which the integrals are made, profiles.py:279: 100 logarithmic steps between the
smallest and the largest entry of `K`. -/
def pKK {nk nc : ℕ} (K : Fin nk → Fin nc → ℝ) (q : ℕ) : ℝ :=
  IntegrateCorr.logspace (⨅ p : Fin nk × Fin nc, K p.1 p.2) (⨆ p : Fin nk × Fin nc, K p.1 p.2) 100 q

open Classical in
/-- `Profile._p`, profiles.py:274-311, for a two-dimensional `K` with one column per halo (see `genericPShape`
for what happens to other shapes).  `InterpolatedUnivariateSpline` raises ValueError unless its abscissae
increase strictly.  Simplification: positive wavenumbers; the floating-point dtype of `K` (an integer `K`
would truncate the result through `np.zeros_like`). -/
def genericP {nk nc : ℕ} (quad : (ℝ → ℝ) → ℝ → ℝ → ℝ) (isp : Spl) (f : ℝ → ℝ) (K : Fin nk → Fin nc → ℝ)
    (c : Fin nc → ℝ) (σ : Fin nc → Fin nc) : Except PyErr (Fin nk → Fin nc → ℝ) :=
  if nk = 0 ∨ nc = 0 then .error .valueError else
  if ¬ ∀ q, q + 1 < 100 → pKK K q < pKK K (q + 1) then .error .valueError else
  let inter : Fin nc → ℕ → ℝ := fun j q => pColumn quad (pIntegrand f (pKK K q)) c σ nc j
  .ok fun i j => isp 100 (pKK K) (inter j) (K i j)

/-- `Profile._reduce` on shapes, profiles.py:498-506 (outermost first): `np.squeeze` drops the axes of
length one, and a single element becomes a numpy scalar.  (`x[0]` on the zero-dimensional result of
`np.squeeze` always raises IndexError, so the `except` branch is the one taken.) -/
def reduceShape (s : List ℕ) : List ℕ := s.filter (· ≠ 1)

/-- Shape of `K` in `_get_k_variables`, profiles.py:489-492: `np.outer(k, r_s)` if both are iterable, else
numpy multiplication; with `coord="kappa"`, `k` itself.  Shapes outermost first; arrays are
one-dimensional or scalars. -/
def kShape (kappa : Bool) (k m : List ℕ) : List ℕ :=
  if kappa then k else if k ≠ [] ∧ m ≠ [] then [k.prod, m.prod] else k ++ m

end

end Halomod.Profiles
