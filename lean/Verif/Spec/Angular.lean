import Verif.Model.IntegrateCorr
import Mathlib.MeasureTheory.Integral.IntervalIntegral.Basic

/-! # Vocabulary for C58: Limber's equation as documented (`angular_corr_gal`, Blake et al. 2008 eq. 33) -/
namespace Halomod.IntegrateCorr.Spec

open MeasureTheory

/-- the density actually used: the given one or, when the check is on and its integral is off 1 by more than
the tolerance, the normalised one. -/
noncomputable def normed (check : Bool) (p : ℝ → ℝ) (a b : ℝ) (z : ℝ) : ℝ :=
  if check = true ∧ 0.01 + 1e-8 < |(∫ t in a..b, p t) - 1| then p z / ∫ t in a..b, p t else p z

/-- the correlation seen at angle `theta` by pairs at distance `x`, integrated along the line of sight between
separations `u0` and `u1`. -/
noncomputable def lineOfSight (xi : ℝ → ℝ) (theta u0 u1 x : ℝ) : ℝ :=
  ∫ u in u0..u1, xi (Real.sqrt (u ^ 2 + (theta * x) ^ 2))

/-- a distribution whose own integral method, if any, is right; when the check is on, its integral is neither 0 nor
exactly at the tolerance. -/
structure Checkable (check : Bool) (p : Dist) (a b : ℝ) : Prop where
  method : ∀ I, p.integral = some I → I a b = ∫ t in a..b, p.f t
  ok : check = true → (∫ t in a..b, p.f t) ≠ 0 ∧ |(∫ t in a..b, p.f t) - 1| ≠ 0.01 + 1e-8

end Halomod.IntegrateCorr.Spec
