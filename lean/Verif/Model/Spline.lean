import Verif.Model.Tools
import Mathlib.LinearAlgebra.Matrix.NonsingularInverse

/-! # Model of the interpolating spline used throughout the package

`scipy.interpolate.InterpolatedUnivariateSpline(x, y)` (imported as `spline` at `/repo/src/halomod/tools.py:15`,
`halo_model.py:26`, `profiles.py:63`, `bias.py:72`, `cross_correlations.py:33`, `halo_exclusion.py:12`, `integrate_corr.py:15`) with
its default degree `k = 3`.  FITPACK solves for the element of the `n`-dimensional space of cubic splines with knots
`x[2], …, x[n-3]` that passes through the data; here that space has the truncated-power basis instead of B-splines (same space, same
function).  scipy refuses fewer than four points; the model then returns the polynomial through them.  Evaluation outside the data
continues the end pieces (`ext=0`). -/
namespace Halomod.Tools

noncomputable section

/-- basis of the cubic splines with knots `x 2, …, x (n-3)`: `(t - x₀)^k`, then `(t - x_{k-2})₊³`.
Used by every spline of the package, e.g. `/repo/src/halomod/tools.py:505`. -/
def splBasis (x : ℕ → ℝ) (k : ℕ) (t : ℝ) : ℝ := if k < 4 then (t - x 0) ^ k else max 0 (t - x (k - 2)) ^ 3

/-- the interpolation conditions as a linear system; e.g. for `/repo/src/halomod/tools.py:505`. -/
def splMatrix (n : ℕ) (x : ℕ → ℝ) : Matrix (Fin n) (Fin n) ℝ := fun i k => splBasis x k (x i)

/-- `InterpolatedUnivariateSpline(x, y)(t)`; e.g. `/repo/src/halomod/tools.py:505`, `halo_model.py:598`. -/
def cubicSpl : Spl := fun n x y t =>
  ∑ k : Fin n, ((splMatrix n x)⁻¹.mulVec fun i : Fin n => y i) k * splBasis x k t

end
end Halomod.Tools
