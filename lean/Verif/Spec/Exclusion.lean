import Verif.Prelude.Quad
import Mathlib.Analysis.Real.Pi.Bounds

/-!
# Specification for halo exclusion
-/
namespace Halomod.Spec

noncomputable section

/-- `R` is the radius of a sphere of mass `m` and density `rho`. -/
def IsHaloRadius (m rho R : ℝ) : Prop := 0 ≤ R ∧ 4 / 3 * Real.pi * R ^ 3 * rho = m

/-- Composite Simpson on an odd number of samples; for an even number, Simpson on all but the last
interval and a trapezoid on the last one (the rule the fast kernels document/implement). -/
def simpsonTrap (n : ℕ) (dx : ℝ) (y : ℕ → ℝ) : ℝ :=
  if n % 2 = 1 then basicSimpson ((n - 1) / 2) dx y
  else basicSimpson ((n - 2) / 2) dx y + dx * (y (n - 2) + y (n - 1)) / 2

/-- Tinker et al. (2005) pair probability as printed in the class documentation:
`P(y) = 3y² - 2y³`, `y = (x-0.8)/0.29`, `x = r/(R1+R2)`, 0 below and 1 above. -/
def ellipsoidP (x : ℝ) : ℝ :=
  if x ≤ 0.8 then 0 else if 1.09 ≤ x then 1
  else 3 * ((x - 0.8) / 0.29) ^ 2 - 2 * ((x - 0.8) / 0.29) ^ 3

end
end Halomod.Spec
