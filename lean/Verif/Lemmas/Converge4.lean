import Verif.Lemmas.Converge2
import Verif.Lemmas.SplInt

/-! # Interpolating splines on refined grids -/
namespace Halomod

open Finset MeasureTheory Filter Topology Halomod.Tools

/-- what is used of an interpolating spline on refined uniform grids: it converges uniformly to the continuous function
it samples (true of the cubic splines of scipy). -/
def SplConv (isp : Spl) : Prop :=
  ∀ (a b : ℝ) (v : ℝ → ℝ), a < b → ContinuousOn v (Set.Icc a b) → ∀ ε > 0, ∀ᶠ n : ℕ in atTop, ∀ t ∈ Set.Icc a b,
    |isp (n + 2) (fun i => a + i * stp a b n) (fun i => v (a + i * stp a b n)) t - v t| ≤ ε

/-- piecewise-linear interpolation. -/
noncomputable def linSpl : Spl := fun n x y t =>
  if n = 0 then 0 else y 0 + ∑ i ∈ range (n - 1), (y (i + 1) - y i) * min 1 (max 0 ((t - x i) / (x (i + 1) - x i)))

theorem linSpl_on (n : ℕ) (x y : ℕ → ℝ) (hx : ∀ i j, i < j → j < n → x i < x j) (j : ℕ) (hj : j + 1 < n) (t : ℝ)
    (h1 : x j ≤ t) (h2 : t ≤ x (j + 1)) :
    linSpl n x y t = y j + (y (j + 1) - y j) * ((t - x j) / (x (j + 1) - x j)) := by
  unfold linSpl
  rw [if_neg (by omega)]
  have key : ∀ k, k ≤ n - 1 → y 0 + ∑ i ∈ range k, (y (i + 1) - y i) * min 1 (max 0 ((t - x i) / (x (i + 1) - x i))) =
      if k ≤ j then y k else y j + (y (j + 1) - y j) * ((t - x j) / (x (j + 1) - x j)) := by
    intro k
    induction k with
    | zero => intro _; simp
    | succ k ih =>
      intro hk
      rw [sum_range_succ, ← add_assoc, ih (by omega)]
      have hd : 0 < x (k + 1) - x k := by linarith [hx k (k + 1) (by omega) (by omega)]
      rcases lt_trichotomy k j with hkj | hkj | hkj
      · rw [if_pos hkj.le, if_pos (by omega)]
        have : x (k + 1) ≤ t := by
          rcases Nat.lt_or_ge (k + 1) j with h | h
          · exact (hx _ _ h (by omega)).le.trans h1
          · rw [show k + 1 = j by omega]; exact h1
        have : 1 ≤ (t - x k) / (x (k + 1) - x k) := by rw [le_div_iff₀ hd]; linarith
        rw [max_eq_right (by linarith), min_eq_left this]; ring
      · subst hkj
        rw [if_pos le_rfl, if_neg (by omega)]
        have e1 : 0 ≤ (t - x k) / (x (k + 1) - x k) := div_nonneg (by linarith) hd.le
        have e2 : (t - x k) / (x (k + 1) - x k) ≤ 1 := by rw [div_le_one hd]; linarith
        rw [max_eq_right e1, min_eq_right e2]
      · rw [if_neg (by omega), if_neg (by omega)]
        have : t ≤ x k := by
          rcases Nat.lt_or_ge (j + 1) k with h | h
          · exact h2.trans (hx _ _ h (by omega)).le
          · rw [show k = j + 1 by omega]; exact h2
        have : (t - x k) / (x (k + 1) - x k) ≤ 0 := div_nonpos_of_nonpos_of_nonneg (by linarith) hd.le
        rw [max_eq_left this]; simp
  rw [key (n - 1) le_rfl, if_neg (by omega)]

theorem linSpl_lin : SplLin linSpl where
  interp := by
    intro n x y hx i hi
    rcases Nat.lt_or_ge (i + 1) n with h | h
    · rw [linSpl_on n x y hx i h _ le_rfl (hx i (i + 1) (by omega) h).le]; simp
    · rcases Nat.eq_zero_or_pos i with rfl | hp
      · unfold linSpl; rw [if_neg (by omega), show n - 1 = 0 by omega]; simp
      · obtain ⟨k, rfl⟩ : ∃ k, i = k + 1 := ⟨i - 1, by omega⟩
        have hlt := hx k (k + 1) (by omega) hi
        rw [linSpl_on n x y hx k hi _ hlt.le le_rfl]
        have : x (k + 1) - x k ≠ 0 := by linarith
        rw [div_self this]; ring
  smul := by
    intro n x y c t
    unfold linSpl
    split_ifs
    · simp
    · rw [mul_add, mul_sum]; congr 1; exact sum_congr rfl fun i _ => by ring
  congr := by
    intro n x x' y y' h
    funext t
    unfold linSpl
    split_ifs with h0
    · rfl
    · rw [(h 0 (by omega)).2]
      congr 1
      refine sum_congr rfl fun i hi => ?_
      have := mem_range.mp hi
      rw [(h i (by omega)).2, (h i (by omega)).1, (h (i + 1) (by omega)).2, (h (i + 1) (by omega)).1]
  add := by
    intro n x y z t
    unfold linSpl
    split_ifs
    · simp
    · rw [show ∀ a b c d : ℝ, (a + b) + (c + d) = (a + c) + (b + d) by intros; ring, ← sum_add_distrib]
      congr 1
      exact sum_congr rfl fun i _ => by ring
  cont := by
    intro n x y _
    unfold linSpl
    split_ifs
    · exact continuous_const
    · fun_prop

/-- the convergence assumed of splines is satisfiable (piecewise-linear interpolation has it). -/
theorem linSpl_conv : SplConv linSpl := by
  intro a b v hab hv ε hε
  have huc := isCompact_Icc.uniformContinuousOn_of_continuous hv
  rw [Metric.uniformContinuousOn_iff] at huc
  obtain ⟨δ, hδ, hu⟩ := huc ε hε
  have h1 : ∀ᶠ n : ℕ in atTop, stp a b n < δ := (stp_tendsto a b).eventually_lt_const hδ
  filter_upwards [h1] with n hn t ht
  have hn1 : (0:ℝ) < (n:ℝ) + 1 := by positivity
  have hh : 0 < stp a b n := div_pos (by linarith) hn1
  have e : stp a b n * ((n:ℝ) + 1) = b - a := by rw [stp]; field_simp
  -- the panel of `t`
  obtain ⟨j, hj, hj1, hj2⟩ : ∃ j : ℕ, j + 1 < n + 2 ∧ a + j * stp a b n ≤ t ∧ t ≤ a + ((j + 1 : ℕ):ℝ) * stp a b n := by
    rcases lt_or_ge t b with htb | htb
    · refine ⟨⌊(t - a) / stp a b n⌋₊, ?_, ?_, ?_⟩
      · have : (t - a) / stp a b n < (n:ℝ) + 1 := by rw [div_lt_iff₀ hh]; linarith
        have h0 : ⌊(t - a) / stp a b n⌋₊ < n + 1 := by
          rw [Nat.floor_lt (div_nonneg (by linarith [ht.1]) hh.le)]; push_cast; exact this
        omega
      · have := Nat.floor_le (div_nonneg (by linarith [ht.1]) hh.le : 0 ≤ (t - a) / stp a b n)
        rw [le_div_iff₀ hh] at this; linarith
      · have := Nat.lt_floor_add_one ((t - a) / stp a b n)
        rw [div_lt_iff₀ hh] at this; push_cast; linarith
    · have htb' : t = b := le_antisymm ht.2 htb
      exact ⟨n, by omega, by nlinarith, by push_cast; nlinarith⟩
  have hinc : ∀ i k : ℕ, i < k → k < n + 2 → a + (i:ℝ) * stp a b n < a + (k:ℝ) * stp a b n := by
    intro i k hik _
    have : (i:ℝ) < k := by exact_mod_cast hik
    nlinarith
  rw [linSpl_on (n + 2) _ _ hinc j hj t hj1 hj2]
  have hden : a + ((j + 1 : ℕ):ℝ) * stp a b n - (a + j * stp a b n) = stp a b n := by push_cast; ring
  rw [hden]
  set lam := (t - (a + j * stp a b n)) / stp a b n with hlam
  have l0 : 0 ≤ lam := div_nonneg (by linarith) hh.le
  have l1 : lam ≤ 1 := by rw [hlam, div_le_one hh]; linarith
  have hjn : ((j + 1 : ℕ):ℝ) ≤ (n:ℝ) + 1 := by exact_mod_cast (by omega : j + 1 ≤ n + 1)
  have hI1 : a + (j:ℝ) * stp a b n ∈ Set.Icc a b := ⟨by nlinarith [Nat.cast_nonneg (α := ℝ) j], hj1.trans ht.2⟩
  have hI2 : a + ((j + 1 : ℕ):ℝ) * stp a b n ∈ Set.Icc a b := ⟨ht.1.trans hj2, by nlinarith⟩
  have d1 := hu _ hI1 t ht (by rw [Real.dist_eq, abs_lt]; constructor <;> linarith)
  have d2 := hu _ hI2 t ht (by rw [Real.dist_eq, abs_lt]; constructor <;> linarith)
  rw [Real.dist_eq] at d1 d2
  generalize v (a + (j:ℝ) * stp a b n) = A at *
  generalize v (a + ((j + 1 : ℕ):ℝ) * stp a b n) = B at *
  rw [abs_lt] at d1 d2
  rw [abs_le]
  constructor <;> nlinarith [d1.1, d1.2, d2.1, d2.2]

/-- the integral of the spline over a fixed part of the interval converges. -/
theorem spl_tendsto {isp : Spl} (hs : SplLin isp) (hc : SplConv isp) {a b c : ℝ} (hab : a < b) (hca : c ∈ Set.Icc a b) {v : ℝ → ℝ}
    (hv : ContinuousOn v (Set.Icc a b)) :
    Tendsto (fun n : ℕ => splIntegral isp (n + 2) (fun i => a + i * stp a b n) (fun i => v (a + i * stp a b n)) c b) atTop
      (𝓝 (∫ t in c..b, v t)) := by
  rw [Metric.tendsto_atTop']
  intro ε hε
  have hba : 0 < b - a := by linarith
  obtain ⟨N, hN⟩ := eventually_atTop.mp (hc a b v hab hv (ε / (2 * (b - a))) (by positivity))
  refine ⟨N, fun n hn => ?_⟩
  have hh : 0 < stp a b n := div_pos (by linarith) (by positivity)
  have hinc : ∀ i k : ℕ, i < k → k < n + 2 → a + (i:ℝ) * stp a b n < a + (k:ℝ) * stp a b n := by
    intro i k hik _
    have : (i:ℝ) < k := by exact_mod_cast hik
    nlinarith
  have hvi : IntervalIntegrable v volume c b := (hv.mono (by rw [Set.uIcc_of_le hca.2]; exact Set.Icc_subset_Icc_left hca.1)).intervalIntegrable
  have hlast : a + ((n + 2 - 1 : ℕ):ℝ) * stp a b n = b := by
    have : (0:ℝ) < (n:ℝ) + 1 := by positivity
    rw [show n + 2 - 1 = n + 1 by omega, stp]; push_cast; field_simp; ring
  have hind : splIntegral isp (n + 2) (fun i => a + i * stp a b n) (fun i => v (a + i * stp a b n)) c b =
      ∫ t in c..b, isp (n + 2) (fun i => a + i * stp a b n) (fun i => v (a + i * stp a b n)) t := by
    unfold splIntegral
    apply intervalIntegral.integral_congr
    intro t ht
    rw [Set.uIcc_of_le hca.2] at ht
    apply Set.indicator_of_mem
    simp only [hlast]
    exact ⟨by simpa using hca.1.trans ht.1, ht.2⟩
  rw [Real.dist_eq, hind]
  rw [← intervalIntegral.integral_sub ((hs.cont (n + 2) _ _ hinc).intervalIntegrable _ _) hvi, ← Real.norm_eq_abs]
  have := intervalIntegral.norm_integral_le_of_norm_le_const (a := c) (b := b) (C := ε / (2 * (b - a)))
    (f := fun t => isp (n + 2) (fun i => a + i * stp a b n) (fun i => v (a + i * stp a b n)) t - v t) (by
    intro t ht
    rw [Set.uIoc_of_le hca.2] at ht
    exact hN n hn.le t ⟨hca.1.trans ht.1.le, ht.2⟩)
  refine lt_of_le_of_lt this ?_
  rw [abs_of_nonneg (by linarith [hca.2])]
  have h2 : ε / (2 * (b - a)) * (b - c) ≤ ε / (2 * (b - a)) * (b - a) := mul_le_mul_of_nonneg_left (by linarith [hca.1]) (by positivity)
  have h3 : ε / (2 * (b - a)) * (b - a) = ε / 2 := by field_simp
  linarith

/-- `spline_integral` in logarithms on refined grids. -/
theorem si_tendsto {isp : Spl} (hs : SplLin isp) (hc : SplConv isp) {M0 M1 : ℝ} (h0 : 0 < M0) (h1 : M0 < M1) (xmin : Option ℝ)
    (hx : ∀ x ∈ xmin, 0 < x ∧ x ≤ M1) {f : ℝ → ℝ} (hf : ContinuousOn f (Set.Icc M0 M1)) :
    Tendsto (fun n : ℕ => splineIntegral isp (n + 2) (fun i => Real.exp (Real.log M0 + i * stp (Real.log M0) (Real.log M1) n))
      (fun i => f (Real.exp (Real.log M0 + i * stp (Real.log M0) (Real.log M1) n))) xmin none true) atTop
      (𝓝 (∫ m in (max M0 (xmin.getD M0))..M1, f m)) := by
  have hl : Real.log M0 < Real.log M1 := Real.log_lt_log h0 h1
  have hfc : ContinuousOn (fun t => f (Real.exp t) * Real.exp t) (Set.Icc (Real.log M0) (Real.log M1)) := by
    refine ContinuousOn.mul (hf.comp Real.continuous_exp.continuousOn fun t ht => ?_) Real.continuous_exp.continuousOn
    exact ⟨(Real.log_le_iff_le_exp h0).mp ht.1, (Real.le_log_iff_exp_le (h0.trans h1)).mp ht.2⟩
  have main : ∀ c, M0 ≤ c → c ≤ M1 → Tendsto (fun n : ℕ => splineIntegral isp (n + 2) (fun i => Real.exp (Real.log M0 + i * stp (Real.log M0) (Real.log M1) n))
      (fun i => f (Real.exp (Real.log M0 + i * stp (Real.log M0) (Real.log M1) n))) (some c) none true) atTop (𝓝 (∫ m in c..M1, f m)) := by
    intro c hc0 hc1
    have hcp : 0 < c := h0.trans_le hc0
    have key := spl_tendsto hs hc hl (c := Real.log c) ⟨Real.log_le_log h0 hc0, Real.log_le_log hcp hc1⟩ hfc
    rw [log_subst f hcp hc1] at key
    refine key.congr fun n => ?_
    unfold splineIntegral
    rw [if_pos rfl]
    have hlast : Real.log M0 + ((n + 2 - 1 : ℕ):ℝ) * stp (Real.log M0) (Real.log M1) n = Real.log M1 := by
      have : (0:ℝ) < (n:ℝ) + 1 := by positivity
      rw [show n + 2 - 1 = n + 1 by omega, stp]; push_cast; field_simp; ring
    simp only [Real.log_exp, Option.elim_none, Option.elim_some, hlast]
    congr 1
    funext i
    ring
  have hgrid : ∀ n : ℕ, Grid (n + 2) (fun i => Real.exp (Real.log M0 + i * stp (Real.log M0) (Real.log M1) n)) := by
    intro n
    have hh : 0 < stp (Real.log M0) (Real.log M1) n := div_pos (by linarith) (by positivity)
    refine ⟨fun i _ => Real.exp_pos _, fun i k hik _ => Real.exp_lt_exp.mpr ?_⟩
    have : (i:ℝ) < k := by exact_mod_cast hik
    nlinarith
  have hfst : ∀ n : ℕ, Real.exp (Real.log M0 + ((0:ℕ):ℝ) * stp (Real.log M0) (Real.log M1) n) = M0 := by
    intro n; rw [Nat.cast_zero, zero_mul, add_zero, Real.exp_log h0]
  cases xmin with
  | none =>
    rw [Option.getD_none, max_self]
    refine (main M0 le_rfl h1.le).congr fun n => ?_
    unfold splineIntegral
    simp only [if_true, Option.elim_none, Option.elim_some, hfst]
  | some x =>
    obtain ⟨hx0, hx1⟩ := hx x rfl
    rw [Option.getD_some]
    rcases le_total M0 x with h | h
    · rw [max_eq_right h]; exact main x h hx1
    · rw [max_eq_left h]
      refine (main M0 le_rfl h1.le).congr fun n => ?_
      rw [si_xmin_low hs (hgrid n) _ x hx0 (by rw [hfst]; exact h) _ fun i _ => rfl]
      unfold splineIntegral
      simp only [if_true, Option.elim_none, Option.elim_some, hfst]

end Halomod
