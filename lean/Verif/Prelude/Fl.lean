import Mathlib.Analysis.SpecialFunctions.Exp
import Mathlib.Analysis.SpecialFunctions.Log.Basic

/-!
# IEEE special values

The part of numpy's float64 semantics that the code's *results* depend on: division by zero,
`inf`/`nan` propagation and overflow of `exp`.  Rounding, underflow and overflow of `*`/`/` are not
modelled (finite results are exact reals); zeros are `+0`.
-/
namespace Halomod

/-- float64 values: finite ones are reals. -/
inductive Fl
  | fin (x : ℝ) | pinf | ninf | nan

namespace Fl
noncomputable section
open Classical

/-- `numpy.multiply` on float64 (special values only). -/
def mul : Fl → Fl → Fl
  | fin a, fin b => fin (a * b)
  | nan, _ => nan
  | _, nan => nan
  | fin a, pinf => if a = 0 then nan else if 0 < a then pinf else ninf
  | pinf, fin a => if a = 0 then nan else if 0 < a then pinf else ninf
  | fin a, ninf => if a = 0 then nan else if 0 < a then ninf else pinf
  | ninf, fin a => if a = 0 then nan else if 0 < a then ninf else pinf
  | pinf, pinf => pinf
  | ninf, ninf => pinf
  | pinf, ninf => ninf
  | ninf, pinf => ninf

/-- `numpy.divide` of two finite float64 (denominator zero taken as `+0`). -/
def divFin (a b : ℝ) : Fl :=
  if b = 0 then (if a = 0 then nan else if 0 < a then pinf else ninf) else fin (a / b)

/-- largest argument for which `np.exp` is finite: `log(2^1024)`. -/
def expMax : ℝ := 1024 * Real.log 2

/-- `numpy.exp` on float64: overflows to `inf` at `expMax`. -/
def exp : Fl → Fl
  | fin x => if x < expMax then fin (Real.exp x) else pinf
  | pinf => pinf
  | ninf => fin 0
  | nan => nan

/-- The value is an ordinary non-negative number. -/
def IsNum (f : Fl) : Prop := ∃ x : ℝ, 0 ≤ x ∧ f = fin x

theorem expMax_pos : 0 < expMax := by
  unfold expMax; have := Real.log_pos (by norm_num : (1:ℝ) < 2); linarith

end
end Fl
end Halomod
