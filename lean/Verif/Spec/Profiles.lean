import Verif.Model.Profiles

/-!
# Specification side for density profiles

Textbook quantities, written without any of the model's closed forms.
-/
namespace Halomod.Profiles

open MeasureTheory

noncomputable section

/-- Mass (or number) of a spherically symmetric density inside radius `R`: `∫₀^R 4π r² ρ(r) dr`. -/
def enclosed (ρ : ℝ → ℝ) (R : ℝ) : ℝ := ∫ r in (0 : ℝ)..R, 4 * Real.pi * r ^ 2 * ρ r

/-- Three-dimensional Fourier transform of a spherically symmetric density supported inside `R`:
`∫₀^R 4π r² ρ(r) sin(kr)/(kr) dr`. -/
def fourier (ρ : ℝ → ℝ) (R k : ℝ) : ℝ :=
  ∫ r in (0 : ℝ)..R, 4 * Real.pi * r ^ 2 * ρ r * (Real.sin (k * r) / (k * r))

/-- Dimensionless mass integral `∫₀^c x² f(x) dx`. -/
def massInt (f : ℝ → ℝ) (c : ℝ) : ℝ := ∫ x in (0 : ℝ)..c, x ^ 2 * f x

/-- Dimensionless Fourier integral `(1/K) ∫₀^c x f(x) sin(Kx) dx`. -/
def fourierInt (f : ℝ → ℝ) (K c : ℝ) : ℝ := (1 / K) * ∫ x in (0 : ℝ)..c, x * f x * Real.sin (K * x)

/-- What a caller may assume of the cosmology handed to a profile. -/
structure Env.Good (e : Env) : Prop where
  delta_pos : 0 < e.deltaHalo
  dens_pos : 0 < e.meanDens
  dens0_pos : 0 < e.meanDens0
  cm_pos : ∀ m, 0 < m → 0 < e.cmRel m

/-- Value of a call that is expected to succeed (`0` if it raised). -/
def val (x : Except PyErr ℝ) : ℝ := match x with
  | .ok v => v
  | .error _ => 0

/-- Self-convolution at distance `x` of the spherically symmetric function `f` cut off at radius `c`
(bipolar coordinates): `(2π/x) ∫₀^c s f(s) (∫_{|x-s|}^{min(x+s,c)} t f(t) dt) ds`, where the inner integral
is over the empty set when `|x-s| ≥ c`. -/
def selfConv (f : ℝ → ℝ) (c x : ℝ) : ℝ :=
  2 * Real.pi / x * ∫ s in (0 : ℝ)..c,
    s * f s * (if |x - s| < c then ∫ t in |x - s|..min (x + s) c, t * f t else 0)

/-- Self-convolution at distance `x` of an untruncated spherically symmetric function. -/
def selfConvInf (f : ℝ → ℝ) (x : ℝ) : ℝ :=
  2 * Real.pi / x * ∫ s in Set.Ioi (0 : ℝ), s * f s * ∫ t in |x - s|..(x + s), t * f t

end

end Halomod.Profiles
