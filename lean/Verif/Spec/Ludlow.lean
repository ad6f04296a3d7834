import Mathlib.Analysis.SpecialFunctions.Pow.Real

/-! # Reading of equations (6) and (7) of Ludlow et al. (2016) used by the C31 theorems -/
namespace Halomod.Concentration

/-- Equation (6), read physically: a halo of concentration `c` observed at `z` formed at `zf ≥ 0` when the
critical density at `zf` times `C` is the mean density inside its scale radius, i.e. the overdensity `dh`
times `c³ M(c)` (with `M(c)` = fraction of the mass inside the scale radius) times the critical density
at `z`.  `cube` is the exponent with which matter dilutes: 3 in the paper; the code takes the root with the
rounded exponent `0.33333`, that is `cube = 1 / 0.33333`. -/
def FormedAt (cube : ℝ) (M : ℝ → ℝ) (dh Om Ode C z c zf : ℝ) : Prop :=
  0 ≤ zf ∧ C * (Om * (1 + zf) ^ cube + Ode) = dh * c ^ 3 * M c * (Om * (1 + z) ^ 3 + Ode)

/-- Equation (7): the mass fraction inside the scale radius minus the collapsed fraction at `zf`. -/
noncomputable def collapseResidual (M D erfc : ℝ → ℝ) (dc z den c zf : ℝ) : ℝ :=
  M c - erfc (dc * (1 / D zf - 1 / D z) / den)

/-- The concentrations tried: 400 values from 1 to 100, equally spaced in the logarithm. -/
def IsTried (c : ℝ) : Prop := ∃ i : ℕ, i < 400 ∧ c = (100 : ℝ) ^ ((i : ℝ) / 399)

end Halomod.Concentration
