import Mathlib.Analysis.Calculus.Deriv.Basic

/-! # Specification: the cubic spline through given points

The curve through `n ≥ 5` points with increasing abscissae that is a cubic polynomial between neighbouring points, has no jump of
value, slope or curvature at the inner points, and no jump of the third derivative at the first and last inner point
("not a knot").  This is what `scipy.interpolate.InterpolatedUnivariateSpline` (degree 3, no smoothing) is documented to return:
its knots are the data points without the second and the last but one. -/
namespace Halomod.Spec

/-- `a + b u + c u² + d u³`. -/
structure Cub where
  a : ℝ
  b : ℝ
  c : ℝ
  d : ℝ

def Cub.eval (p : Cub) (u : ℝ) : ℝ := p.a + p.b * u + p.c * u ^ 2 + p.d * u ^ 3

def Cub.slope (p : Cub) (u : ℝ) : ℝ := p.b + 2 * p.c * u + 3 * p.d * u ^ 2

def Cub.curv (p : Cub) (u : ℝ) : ℝ := 2 * p.c + 6 * p.d * u

/-- `p j` is the piece from `x j` to `x (j+1)`, in powers of `t - x j`. -/
structure Pieces (n : ℕ) (x : ℕ → ℝ) (p : ℕ → Cub) : Prop where
  value : ∀ j, j + 2 < n → (p (j + 1)).eval 0 = (p j).eval (x (j + 1) - x j)
  slope : ∀ j, j + 2 < n → (p (j + 1)).slope 0 = (p j).slope (x (j + 1) - x j)
  curv : ∀ j, j + 2 < n → (p (j + 1)).curv 0 = (p j).curv (x (j + 1) - x j)
  first : (p 1).d = (p 0).d
  last : (p (n - 2)).d = (p (n - 3)).d

/-- the spline through `(x i, y i)`, `i < n`. -/
structure IsSpline (n : ℕ) (x y : ℕ → ℝ) (S : ℝ → ℝ) (p : ℕ → Cub) : Prop where
  pieces : Pieces n x p
  on : ∀ j, j + 1 < n → ∀ t, x j ≤ t → t ≤ x (j + 1) → S t = (p j).eval (t - x j)
  /-- extrapolation continues the first and the last piece -/
  below : ∀ t, t ≤ x 0 → S t = (p 0).eval (t - x 0)
  above : ∀ t, x (n - 1) ≤ t → S t = (p (n - 2)).eval (t - x (n - 2))
  through : ∀ i < n, S (x i) = y i

end Halomod.Spec
