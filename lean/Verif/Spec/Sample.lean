import Mathlib.Probability.Distributions.Gaussian.Multivariate

/-! # Vocabulary for C59: the random numbers one satellite uses -/
namespace Halomod.Spec

open MeasureTheory ProbabilityTheory

/-- a deviate uniform on `[0, 1]` and, independently, three independent standard normals. -/
noncomputable def draws : Measure (ℝ × (Fin 3 → ℝ)) :=
  (volume.restrict (Set.Icc 0 1)).prod (Measure.pi fun _ => gaussianReal 0 1)

instance : IsProbabilityMeasure (volume.restrict (Set.Icc (0:ℝ) 1)) := ⟨by simp⟩

instance : IsProbabilityMeasure draws := by unfold draws; infer_instance

end Halomod.Spec
