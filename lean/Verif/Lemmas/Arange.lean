import Verif.Lemmas.Converge4
import Verif.Lemmas.Spline2

/-! # Grids that stop short of the end: samples `A + i s`, `i < N`, the last one within a step of `B`

This is what `np.arange(a, b, d)` produces: its end point is excluded. -/
namespace Halomod

open Finset MeasureTheory Filter Topology Halomod.Tools

/-- number of samples of `np.arange(a, b, d)`. -/
noncomputable def arangeN (a b d : ℝ) : ℕ := ⌈(b - a) / d⌉₊

theorem arangeN_last {a b d : ℝ} (hab : a < b) (hd : 0 < d) :
    0 < arangeN a b d ∧ a + ((arangeN a b d - 1 : ℕ):ℝ) * d < b ∧ b - d ≤ a + ((arangeN a b d - 1 : ℕ):ℝ) * d := by
  have hpos : 0 < (b - a) / d := div_pos (by linarith) hd
  have h0 : 0 < arangeN a b d := Nat.ceil_pos.mpr hpos
  have hc : ((arangeN a b d - 1 : ℕ):ℝ) = (arangeN a b d : ℝ) - 1 := by
    rw [Nat.cast_sub h0]; simp
  have h1 : (arangeN a b d : ℝ) < (b - a) / d + 1 := Nat.ceil_lt_add_one hpos.le
  have h2 : (b - a) / d ≤ arangeN a b d := Nat.le_ceil _
  rw [div_le_iff₀ hd] at h2
  have h3 : (arangeN a b d : ℝ) - 1 < (b - a) / d := by linarith
  rw [lt_div_iff₀ hd] at h3
  rw [hc]
  exact ⟨h0, by linarith, by linarith⟩

theorem lin_inc (A : ℝ) {s : ℝ} (hs : 0 < s) (n : ℕ) : ∀ i k : ℕ, i < k → k < n → A + (i:ℝ) * s < A + (k:ℝ) * s := by
  intro i k hik _
  have : (i:ℝ) < k := by exact_mod_cast hik
  nlinarith

theorem five_le {A B s : ℝ} {n : ℕ} (hs : 0 < s) (h5 : 5 * s < B - A) (h1 : B - s ≤ A + ((n - 1 : ℕ):ℝ) * s) : 5 ≤ n := by
  by_contra h
  have : ((n - 1 : ℕ):ℝ) ≤ 4 := by exact_mod_cast (by omega : n - 1 ≤ 4)
  nlinarith

/-- a family of grids, finer and finer, from `A` to within a step of `B`. -/
structure Fills {ι : Type} (l : Filter ι) (A B : ℝ) (N : ι → ℕ) (s : ι → ℝ) : Prop where
  pos : ∀ᶠ k in l, 0 < s k
  zero : Tendsto s l (𝓝 0)
  lo : ∀ᶠ k in l, B - s k ≤ A + ((N k - 1 : ℕ):ℝ) * s k
  hi : ∀ᶠ k in l, A + ((N k - 1 : ℕ):ℝ) * s k ≤ B

theorem Fills.last {ι : Type} {l : Filter ι} {A B : ℝ} {N : ι → ℕ} {s : ι → ℝ} (h : Fills l A B N s) :
    Tendsto (fun k => A + ((N k - 1 : ℕ):ℝ) * s k) l (𝓝 B) := by
  have h1 : Tendsto (fun k => B - s k) l (𝓝 B) := by simpa using (tendsto_const_nhds (x := B)).sub h.zero
  exact tendsto_of_tendsto_of_tendsto_of_le_of_le' h1 tendsto_const_nhds h.lo h.hi

/-- the samples of `np.arange`, times a positive constant, as `d` tends to 0. -/
theorem arange_fills {a b c : ℝ} (hab : a < b) (hc : 0 < c) :
    Fills (𝓝[>] (0:ℝ)) (a * c) (b * c) (fun d => arangeN a b d) (fun d => d * c) := by
  have hp : ∀ᶠ d : ℝ in 𝓝[>] (0:ℝ), 0 < d := eventually_mem_nhdsWithin
  refine ⟨hp.mono fun d hd => mul_pos hd hc, ?_, hp.mono fun d hd => ?_, hp.mono fun d hd => ?_⟩
  · have : Tendsto (fun d : ℝ => d * c) (𝓝 0) (𝓝 (0 * c)) := tendsto_id.mul_const c
    rw [zero_mul] at this
    exact this.mono_left nhdsWithin_le_nhds
  · have := (arangeN_last hab hd).2.2
    nlinarith
  · have := (arangeN_last hab hd).2.1
    nlinarith

end Halomod
