import Mathlib.Probability.Distributions.Poisson.Basic

/-!
# Specification: galaxy-count distributions

Independent of the model: expectations of Poisson satellites, 0/1 centrals and their two joint laws.
-/
namespace Halomod.Spec

noncomputable section

open scoped Nat

/-- `E[f N]` for `N ~ Poisson(lam)`. -/
def poissonE (lam : ℝ) (f : ℕ → ℝ) : ℝ := ∑' n : ℕ, Real.exp (-lam) * lam ^ n / (n ! : ℝ) * f n

/-- `E[f B]` for `B` in `{0,1}` with `P(B = 1) = p`. -/
def bernoulliE (p : ℝ) (f : ℕ → ℝ) : ℝ := (1 - p) * f 0 + p * f 1

/-- Centrals and satellites independent: `Nc ~ Bernoulli(p)`, `Ns ~ Poisson(lam)`. -/
def indepE (p lam : ℝ) (f : ℕ → ℕ → ℝ) : ℝ := bernoulliE p fun c => poissonE lam (f c)

/-- Central condition: a halo without a central has no satellite; one with a central has
`Ns ~ Poisson(mu)`. -/
def condE (p mu : ℝ) (f : ℕ → ℕ → ℝ) : ℝ := (1 - p) * f 0 0 + p * poissonE mu (f 1)

end

/-! ## sanity of the specification -/

open scoped Nat

theorem poisson_hasSum_one (lam : ℝ) :
    HasSum (fun n : ℕ => Real.exp (-lam) * lam ^ n / (n ! : ℝ)) 1 := by
  have h := NormedSpace.expSeries_div_hasSum_exp (𝔸 := ℝ) lam
  rw [← Real.exp_eq_exp_ℝ] at h
  have h2 := h.mul_left (Real.exp (-lam))
  rw [← Real.exp_add, neg_add_cancel, Real.exp_zero] at h2
  refine h2.congr_fun ?_
  intro n; ring

/-- `E[N] = lam`. -/
theorem poisson_hasSum_id (lam : ℝ) :
    HasSum (fun n : ℕ => Real.exp (-lam) * lam ^ n / (n ! : ℝ) * n) lam := by
  rw [← hasSum_nat_add_iff' 1]
  simp only [Finset.range_one, Finset.sum_singleton, Nat.cast_zero, mul_zero, sub_zero]
  have h := (poisson_hasSum_one lam).mul_left lam
  rw [mul_one] at h
  refine h.congr_fun ?_
  intro n
  rw [Nat.factorial_succ]
  push_cast
  have h1 : (n ! : ℝ) ≠ 0 := by positivity
  have h2 : (n : ℝ) + 1 ≠ 0 := by positivity
  field_simp
  ring

/-- `E[N(N-1)] = lam²`. -/
theorem poisson_hasSum_pairs (lam : ℝ) :
    HasSum (fun n : ℕ => Real.exp (-lam) * lam ^ n / (n ! : ℝ) * (n * (n - 1))) (lam ^ 2) := by
  rw [← hasSum_nat_add_iff' 1]
  simp only [Finset.range_one, Finset.sum_singleton, Nat.cast_zero, mul_zero, zero_mul, sub_zero]
  have h := (poisson_hasSum_id lam).mul_left lam
  rw [← sq] at h
  refine h.congr_fun ?_
  intro n
  rw [Nat.factorial_succ]
  push_cast
  have h1 : (n ! : ℝ) ≠ 0 := by positivity
  have h2 : (n : ℝ) + 1 ≠ 0 := by positivity
  field_simp
  ring

theorem poissonE_one (lam : ℝ) : poissonE lam (fun _ => 1) = 1 := by
  simpa [poissonE] using (poisson_hasSum_one lam).tsum_eq

theorem poissonE_id (lam : ℝ) : poissonE lam (fun n => n) = lam := (poisson_hasSum_id lam).tsum_eq

theorem poissonE_pairs (lam : ℝ) : poissonE lam (fun n => n * (n - 1)) = lam ^ 2 :=
  (poisson_hasSum_pairs lam).tsum_eq

/-- variance of the Poisson law -/
theorem poissonE_var (lam : ℝ) : poissonE lam (fun n => (n - lam) ^ 2) = lam := by
  have h := ((poisson_hasSum_pairs lam).add ((poisson_hasSum_id lam).mul_left (1 - 2 * lam))).add
    ((poisson_hasSum_one lam).mul_left (lam ^ 2))
  have h2 : lam ^ 2 + (1 - 2 * lam) * lam + lam ^ 2 * 1 = lam := by ring
  rw [h2] at h
  refine Eq.trans ?_ h.tsum_eq
  unfold poissonE
  congr 1; ext n; ring

theorem poissonE_const_mul (lam a : ℝ) (f : ℕ → ℝ) :
    poissonE lam (fun n => a * f n) = a * poissonE lam f := by
  unfold poissonE
  rw [← tsum_mul_left]; congr 1; ext n; ring

theorem poissonE_zero (lam : ℝ) : poissonE lam (fun _ => 0) = 0 := by simp [poissonE]

end Halomod.Spec
