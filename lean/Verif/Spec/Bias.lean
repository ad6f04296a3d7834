import Mathlib.MeasureTheory.Integral.IntegralEqImproper
import Mathlib.Analysis.SpecialFunctions.Gaussian.GaussianIntegral

/-!
# Specification for halo bias

Mass-weighted halo abundances ("multiplicity functions") as functions of the peak height
`x = delta_c / sigma`, per unit `ln x`; from the cited papers (the package takes them from `hmf`).
-/
namespace Halomod.Bias

open Set MeasureTheory

/-- Press & Schechter (1974). -/
noncomputable def psF (x : ℝ) : ℝ := Real.sqrt (2 / Real.pi) * x * Real.exp (-x ^ 2 / 2)

/-- Sheth & Tormen (1999), amplitude `A`. -/
noncomputable def stF (A q p x : ℝ) : ℝ :=
  A * Real.sqrt (2 * q / Real.pi) * (1 + (q * x ^ 2) ^ (-p)) * x * Real.exp (-q * x ^ 2 / 2)

/-- Tinker et al. (2010), eq. 8 times the peak height. -/
noncomputable def tkF (α β γ φ η x : ℝ) : ℝ :=
  α * (1 + (β * x) ^ (-2 * φ)) * x ^ (2 * η) * Real.exp (-γ * x ^ 2 / 2) * x

/-- All matter being in haloes of abundance `f`, the mean of the bias `b` (a function of the squared
peak height) equals the total abundance: haloes together trace the matter without bias. -/
def Unbiased (f b : ℝ → ℝ) : Prop :=
  IntegrableOn (fun x => f x / x) (Ioi 0) ∧ IntegrableOn (fun x => b (x ^ 2) * (f x / x)) (Ioi 0) ∧
    ∫ x in Ioi 0, b (x ^ 2) * (f x / x) = ∫ x in Ioi 0, f x / x

/-- The peak-background split: `b = 1 - (1/delta_c) dln f / dln x`, i.e.
`x f'(x) = -delta_c (b - 1) f(x)`. -/
def PeakBackgroundSplit (dc : ℝ) (f b : ℝ → ℝ) : Prop :=
  ∀ x : ℝ, 0 < x → ∃ f', HasDerivAt f f' x ∧ x * f' = -(dc * (b (x ^ 2) - 1)) * f x

/-- Table 4 of Tinker et al. (2010): overdensity, beta, gamma, phi, eta at redshift 0. -/
noncomputable def tinker10Table4 : List (ℝ × ℝ × ℝ × ℝ × ℝ) :=
  [(200, 0.589, 0.864, -0.729, -0.243), (300, 0.585, 0.922, -0.789, -0.261),
   (400, 0.544, 0.987, -0.910, -0.261), (600, 0.543, 1.09, -1.05, -0.273),
   (800, 0.564, 1.2, -1.2, -0.278), (1200, 0.623, 1.34, -1.26, -0.301),
   (1600, 0.637, 1.5, -1.45, -0.301), (2400, 0.673, 1.68, -1.5, -0.319),
   (3200, 0.702, 1.81, -1.49, -0.336)]

end Halomod.Bias
