import Verif.Lemmas.Tame
import Verif.Lemmas.SimpsonX2

/-! # Simpson's rule with sample positions, for functions with countably many jumps -/
namespace Halomod

open Finset Filter Topology MeasureTheory Halomod.Tools

/-- the oscillation of a tame function over four consecutive grid points, summed over the grid, vanishes. -/
theorem osc_tame {ι : Type} {l : Filter ι} [l.IsCountablyGenerated] {A B : ℝ} (hAB : A < B) {v : ℝ → ℝ}
    (hv : Tame v A B) {N : ι → ℕ} {s : ι → ℝ} (hF : Fills l A B N s) :
    ∃ ω : ι → ℕ → ℝ, (∀ k j, 0 ≤ ω k j) ∧ (∀ᶠ k in l, ∀ j, j + 1 < N k → ∀ a, A ≤ a → A + (j - 1) * s k ≤ a → a ≤ A + (j + 2) * s k → a ≤ A + ((N k : ℝ) - 1) * s k →
      ∀ b, A ≤ b → A + (j - 1) * s k ≤ b → b ≤ A + (j + 2) * s k → b ≤ A + ((N k : ℝ) - 1) * s k → |v a - v b| ≤ ω k j) ∧
      Tendsto (fun k => s k * ∑ j ∈ range (N k - 1), ω k j) l (𝓝 0) := by
  classical
  have hv' := hv
  obtain ⟨⟨M, hM⟩, S, hS, hS'⟩ := hv
  have hM0 : 0 ≤ M := (abs_nonneg _).trans (hM A ⟨le_rfl, hAB.le⟩)
  have hAe : ∀ᶠ k in l, A ≤ A + ((N k - 1 : ℕ):ℝ) * s k := by
    filter_upwards [hF.pos] with k hk
    have : 0 ≤ ((N k - 1 : ℕ):ℝ) * s k := by positivity
    linarith
  have hsmall : ∀ᶠ k in l, s k < (B - A) / 5 := hF.zero.eventually_lt_const (by linarith)
  -- the function, zero outside
  set f : ℝ → ℝ := Set.indicator (Set.Icc A B) v with hf
  have hfe : ∀ t ∈ Set.Icc A B, f t = v t := fun t ht => Set.indicator_of_mem ht _
  have hfi : ∀ a b, IntervalIntegrable f volume a b := by
    intro a b
    have : Integrable f volume := (integrable_indicator_iff measurableSet_Icc).mpr hv'.integrableOn
    exact this.intervalIntegrable
  -- oscillation on two panels
  set P : ι → ℕ → Set ℝ := fun k j => Set.Icc (A + (j - 1) * s k) (min (A + (j + 2) * s k) (A + ((N k : ℝ) - 1) * s k)) ∩ Set.Ici A with hP
  set ω : ι → ℕ → ℝ := fun k j => sSup {d | ∃ a ∈ P k j, ∃ b ∈ P k j, d = |f a - f b|} with hω
  have hfb : ∀ t, |f t| ≤ M := by
    intro t
    by_cases ht : t ∈ Set.Icc A B
    · rw [hfe t ht]; exact hM t ht
    · rw [hf, Set.indicator_of_notMem ht, abs_zero]; exact hM0
  have hbdd : ∀ k j, BddAbove {d | ∃ a ∈ P k j, ∃ b ∈ P k j, d = |f a - f b|} := by
    intro k j
    refine ⟨2 * M, ?_⟩
    rintro d ⟨a, -, b, -, rfl⟩
    exact (abs_sub _ _).trans (by linarith [hfb a, hfb b])
  have hωle : ∀ k j, ω k j ≤ 2 * M := by
    intro k j
    apply Real.sSup_le _ (by linarith)
    rintro d ⟨a, -, b, -, rfl⟩
    exact (abs_sub _ _).trans (by linarith [hfb a, hfb b])
  have hω0 : ∀ k j, 0 ≤ ω k j := by
    intro k j
    apply Real.sSup_nonneg
    rintro d ⟨a, -, b, -, rfl⟩
    exact abs_nonneg _
  -- as a step function
  set Ω : ι → ℝ → ℝ := fun k t => if t < A + ((N k - 1 : ℕ):ℝ) * s k then ω k ⌊(t - A) / s k⌋₊ else 0 with hΩ
  have hΩm : ∀ k, Measurable (Ω k) := by
    intro k
    refine Measurable.ite measurableSet_Iio ?_ measurable_const
    exact (measurable_from_nat (f := ω k)).comp ((Nat.measurable_floor (R := ℝ)).comp ((measurable_id.sub_const A).div_const (s k)))
  have hΩb : ∀ k t, |Ω k t| ≤ 2 * M := by
    intro k t
    simp only [hΩ]
    split_ifs
    · rw [abs_of_nonneg (hω0 _ _)]; exact hωle _ _
    · rw [abs_zero]; linarith
  have hΩi : ∀ k a b, IntervalIntegrable (Ω k) volume a b := by
    intro k a b
    refine (intervalIntegrable_const (c := 2 * M)).mono_fun (hΩm k).aestronglyMeasurable ?_
    refine Eventually.of_forall fun t => ?_
    beta_reduce
    rw [Real.norm_eq_abs, Real.norm_eq_abs, abs_of_nonneg (by linarith : 0 ≤ 2 * M)]
    exact hΩb k t
  have hsum : ∀ k, 0 < s k → ∀ m, m ≤ N k - 1 → ∫ t in A..(A + (m:ℝ) * s k), Ω k t = s k * ∑ j ∈ range m, ω k j := by
    intro k k1 m
    induction m with
    | zero => intro _; simp
    | succ m ih =>
      intro hm
      rw [← intervalIntegral.integral_add_adjacent_intervals (hΩi k A (A + (m:ℝ) * s k)) (hΩi k _ _), ih (by omega), sum_range_succ, mul_add]
      congr 1
      have hst : A + ((m + 1 : ℕ):ℝ) * s k = A + (m:ℝ) * s k + s k := by push_cast; ring
      have e : ∫ t in (A + (m:ℝ) * s k)..(A + ((m + 1 : ℕ):ℝ) * s k), Ω k t = ∫ t in (A + (m:ℝ) * s k)..(A + ((m + 1 : ℕ):ℝ) * s k), ω k m := by
        apply intervalIntegral.integral_congr_ae
        have hne : ∀ᵐ t : ℝ, t ≠ A + ((m + 1 : ℕ):ℝ) * s k := by
          have := not_mem_ae (Set.countable_singleton (A + ((m + 1 : ℕ):ℝ) * s k))
          simpa using this
        filter_upwards [hne] with t htn ht
        rw [Set.uIoc_of_le (by linarith)] at ht
        have htl := lt_of_le_of_ne ht.2 htn
        have hm1 : ((m + 1 : ℕ):ℝ) ≤ ((N k - 1 : ℕ):ℝ) := by exact_mod_cast hm
        simp only [hΩ]
        rw [if_pos (by nlinarith)]
        congr 1
        rw [Nat.floor_eq_iff (div_nonneg (by nlinarith [ht.1, Nat.cast_nonneg (α := ℝ) m]) k1.le)]
        rw [le_div_iff₀ k1, div_lt_iff₀ k1]
        push_cast at htl
        exact ⟨by linarith [ht.1], by linarith⟩
      rw [e, intervalIntegral.integral_const, hst, smul_eq_mul]
      ring
  have hosc : Tendsto (fun k => ∫ t in A..B, Ω k t) l (𝓝 0) := by
    have := intervalIntegral.tendsto_integral_filter_of_dominated_convergence (μ := volume) (a := A) (b := B) (l := l) (F := Ω) (f := fun _ => (0:ℝ))
      (fun _ => 2 * M) (Eventually.of_forall fun k => (hΩm k).aestronglyMeasurable)
      (Eventually.of_forall fun k => Eventually.of_forall fun t _ => by rw [Real.norm_eq_abs]; exact hΩb k t) intervalIntegrable_const (by
        filter_upwards [not_mem_ae hS] with t htS ht
        rw [Set.uIoc_of_le hAB.le] at ht
        have htI : t ∈ Set.Icc A B := ⟨ht.1.le, ht.2⟩
        have hcont := hS' t htI htS
        rw [Metric.tendsto_nhds]
        intro ε hε
        rw [Metric.continuousWithinAt_iff] at hcont
        obtain ⟨δ, hδ, hd⟩ := hcont (ε / 3) (by linarith)
        filter_upwards [hF.pos, hsmall, hF.lo, hF.hi, hF.zero.eventually_lt_const (show 0 < δ / 3 by linarith)] with k k1 k2 k3 k4 k5
        have hn := five_le k1 (by linarith) k3
        have hcast : ((N k - 1 : ℕ):ℝ) = (N k : ℝ) - 1 := by rw [Nat.cast_sub (by omega)]; simp
        rw [Real.dist_eq, sub_zero]
        simp only [hΩ]
        split_ifs with hte
        · rw [abs_of_nonneg (hω0 _ _)]
          refine lt_of_le_of_lt (b := 2 * (ε / 3)) ?_ (by linarith)
          apply Real.sSup_le _ (by linarith)
          have hx0 : 0 ≤ (t - A) / s k := div_nonneg (by linarith [ht.1]) k1.le
          have f1 := Nat.floor_le hx0
          have f2 := Nat.lt_floor_add_one ((t - A) / s k)
          rw [le_div_iff₀ k1] at f1
          rw [div_lt_iff₀ k1] at f2
          have near : ∀ a ∈ P k ⌊(t - A) / s k⌋₊, |f a - v t| ≤ ε / 3 := by
            intro a ha
            have ha1 := ha.1.1
            have ha2 := ha.1.2.trans (min_le_left _ _)
            have ha3 := ha.1.2.trans (min_le_right _ _)
            rw [← hcast] at ha3
            have haI : a ∈ Set.Icc A B := ⟨ha.2, by linarith⟩
            rw [hfe a haI]
            have := hd haI (by rw [Real.dist_eq, abs_lt]; constructor <;> linarith)
            rw [Real.dist_eq] at this
            exact this.le
          rintro d ⟨a, ha, b, hb, rfl⟩
          have n1 := abs_le.mp (near a ha)
          have n2 := abs_le.mp (near b hb)
          rw [abs_le]
          constructor <;> linarith [n1.1, n1.2, n2.1, n2.2]
        · rw [abs_zero]; exact hε)
    simpa using this
  refine ⟨ω, hω0, ?_, ?_⟩
  · filter_upwards [hF.pos, hsmall, hF.lo, hF.hi] with k k1 k2 k3 k4
    have hn := five_le k1 (by linarith) k3
    have hcast : ((N k - 1 : ℕ):ℝ) = (N k : ℝ) - 1 := by rw [Nat.cast_sub (by omega)]; simp
    intro j hj a a1 a2 a3 a4 b b1 b2 b3 b4
    rw [← hfe a ⟨a1, by rw [← hcast] at a4; linarith⟩, ← hfe b ⟨b1, by rw [← hcast] at b4; linarith⟩]
    exact le_csSup (hbdd k j) ⟨a, ⟨⟨a2, le_min a3 a4⟩, a1⟩, b, ⟨⟨b2, le_min b3 b4⟩, b1⟩, rfl⟩
  · refine squeeze_zero' ?_ ?_ hosc
    · filter_upwards [hF.pos] with k k1
      exact mul_nonneg k1.le (sum_nonneg fun j _ => hω0 k j)
    · filter_upwards [hF.pos, hF.hi] with k k1 k4
      rw [← hsum k k1 (N k - 1) le_rfl, ← intervalIntegral.integral_add_adjacent_intervals (hΩi k A (A + ((N k - 1 : ℕ):ℝ) * s k)) (hΩi k _ B)]
      have : 0 ≤ ∫ t in (A + ((N k - 1 : ℕ):ℝ) * s k)..B, Ω k t := by
        apply intervalIntegral.integral_nonneg k4
        intro t _
        simp only [hΩ]
        split_ifs
        · exact hω0 _ _
        · exact le_rfl
      linarith

/-- Simpson's rule on a graded grid differs from the sum of the integrals over the intervals by at most three times the sum of lengths times
local oscillations. -/
theorem simpsonX_err_local {n : ℕ} {x y : ℕ → ℝ} (hn : 2 ≤ n) (hx : Graded n x) {I ω : ℕ → ℝ} (hω : ∀ j, 0 ≤ ω j)
    (hI : ∀ j k, j + 1 < n → k < n → k ≤ j + 2 → j ≤ k + 1 → |I j - (x (j + 1) - x j) * y k| ≤ (x (j + 1) - x j) * ω j) :
    |simpsonX n x y - ∑ j ∈ range (n - 1), I j| ≤ 3 * ∑ j ∈ range (n - 1), (x (j + 1) - x j) * ω j := by
  have basic : ∀ b, 2 * b + 1 ≤ n → |basicSimpsonX b x y - ∑ j ∈ range (2 * b), I j| ≤ 3 * ∑ j ∈ range (2 * b), (x (j + 1) - x j) * ω j := by
    intro b
    induction b with
    | zero => intro _; simp [basicSimpsonX]
    | succ b ih =>
      intro hb
      have ih' := ih (by omega)
      have hS : basicSimpsonX (b + 1) x y = basicSimpsonX b x y + simpsonBlock (x (2 * b + 1) - x (2 * b))
          (x (2 * b + 2) - x (2 * b + 1)) (y (2 * b)) (y (2 * b + 1)) (y (2 * b + 2)) := by
        unfold basicSimpsonX; rw [sum_range_succ]
      have hr : ∀ J : ℕ → ℝ, ∑ j ∈ range (2 * (b + 1)), J j = ∑ j ∈ range (2 * b), J j + (J (2 * b) + J (2 * b + 1)) := by
        intro J
        rw [show 2 * (b + 1) = 2 * b + 1 + 1 by ring, sum_range_succ, sum_range_succ]; ring
      have m0 := hx.mono (2 * b) (by omega)
      have m1 := hx.mono (2 * b + 1) (by omega)
      have u := hx.up (2 * b) (by omega)
      have dn := hx.down (2 * b) (by omega)
      have w0 := hω (2 * b)
      have w1 := hω (2 * b + 1)
      have big0 : ∀ {p : ℝ}, p ≤ (x (2 * b + 1) - x (2 * b)) * ω (2 * b) → p ≤ (x (2 * b + 1) - x (2 * b)) * (ω (2 * b) + ω (2 * b + 1)) := fun hp => by nlinarith
      have big1 : ∀ {p : ℝ}, p ≤ (x (2 * b + 2) - x (2 * b + 1)) * ω (2 * b + 1) → p ≤ (x (2 * b + 2) - x (2 * b + 1)) * (ω (2 * b) + ω (2 * b + 1)) := fun hp => by nlinarith
      have blk := simpsonBlock_err (h0 := x (2 * b + 1) - x (2 * b)) (h1 := x (2 * b + 2) - x (2 * b + 1)) (ω := ω (2 * b) + ω (2 * b + 1))
        (by linarith) (by linarith) u dn
        (big0 (hI (2 * b) (2 * b) (by omega) (by omega) (by omega) (by omega)))
        (big0 (hI (2 * b) (2 * b + 1) (by omega) (by omega) (by omega) (by omega)))
        (big0 (hI (2 * b) (2 * b + 2) (by omega) (by omega) (by omega) (by omega)))
        (big1 (hI (2 * b + 1) (2 * b) (by omega) (by omega) (by omega) (by omega)))
        (big1 (hI (2 * b + 1) (2 * b + 1) (by omega) (by omega) (by omega) (by omega)))
        (big1 (hI (2 * b + 1) (2 * b + 2) (by omega) (by omega) (by omega) (by omega)))
      rw [hS, hr, hr]
      rw [show 2 * b + 1 + 1 = 2 * b + 2 from rfl]
      have e : (x (2 * b + 1) - x (2 * b) + (x (2 * b + 2) - x (2 * b + 1))) * (ω (2 * b) + ω (2 * b + 1)) ≤
          3 * ((x (2 * b + 1) - x (2 * b)) * ω (2 * b) + (x (2 * b + 2) - x (2 * b + 1)) * ω (2 * b + 1)) := by
        rw [show 2 * b + 2 = 2 * b + 1 + 1 from rfl] at *
        nlinarith [mul_nonneg (sub_nonneg.2 u) w0, mul_nonneg (sub_nonneg.2 dn) w1]
      rw [abs_le] at *
      constructor <;> linarith [ih'.1, ih'.2, blk.1, blk.2]
  have npos : ∀ m, m + 1 ≤ n → 0 ≤ ∑ j ∈ range m, (x (j + 1) - x j) * ω j := fun m hm => sum_nonneg fun j hj => by
    have := mem_range.mp hj
    exact mul_nonneg (by linarith [hx.mono j (by omega)]) (hω j)
  unfold simpsonX
  split_ifs with h1 h2
  · subst h2
    have e0 := hI 0 0 (by omega) (by omega) (by omega) (by omega)
    have e1 := hI 0 1 (by omega) (by omega) (by omega) (by omega)
    have m0 := hx.mono 0 (by omega)
    simp only [show 2 - 1 = 1 from rfl, sum_range_one, zero_add] at *
    have hp : 0 ≤ (x 1 - x 0) * ω 0 := mul_nonneg (by linarith) (hω 0)
    rw [abs_le] at *
    constructor <;> nlinarith [e0.1, e0.2, e1.1, e1.2]
  · obtain ⟨b, rfl⟩ : ∃ b, n = 2 * b + 4 := ⟨(n - 4) / 2, by omega⟩
    have q1 : (2 * b + 2) / 2 = b + 1 := by omega
    have q2 : 2 * b + 4 - 1 = 2 * b + 3 := by omega
    have q3 : 2 * b + 4 - 2 = 2 * b + 2 := by omega
    have q4 : 2 * b + 4 - 3 = 2 * b + 1 := by omega
    simp only [q1, q2, q3, q4]
    have hb := basic (b + 1) (by omega)
    rw [show 2 * (b + 1) = 2 * b + 2 by ring] at hb
    have m0 := hx.mono (2 * b + 1) (by omega)
    have m1 := hx.mono (2 * b + 2) (by omega)
    have hc := cartwright_err (h0 := x (2 * b + 2) - x (2 * b + 1)) (h1 := x (2 * b + 3) - x (2 * b + 2))
      (by linarith) (by linarith) (hx.up (2 * b + 1) (by omega))
      (hI (2 * b + 2) (2 * b + 1) (by omega) (by omega) (by omega) (by omega))
      (hI (2 * b + 2) (2 * b + 2) (by omega) (by omega) (by omega) (by omega))
      (hI (2 * b + 2) (2 * b + 3) (by omega) (by omega) (by omega) (by omega))
    rw [show range (2 * b + 3) = range (2 * b + 2 + 1) from rfl, sum_range_succ I, sum_range_succ fun j => (x (j + 1) - x j) * ω j]
    have key : ∀ K B S J p q : ℝ, |B - S| ≤ p → |K - J| ≤ q → |B + K - (S + J)| ≤ p + q := by
      intro K B S J p q h1 h2
      rw [abs_le] at *
      constructor <;> linarith [h1.1, h1.2, h2.1, h2.2]
    refine (key _ _ _ _ _ _ hb hc).trans ?_
    rw [mul_add]
  · obtain ⟨b, rfl⟩ : ∃ b, n = 2 * b + 1 := ⟨(n - 1) / 2, by omega⟩
    have q1 : (2 * b + 1 - 1) / 2 = b := by omega
    have hb := basic b le_rfl
    rw [q1, show 2 * b + 1 - 1 = 2 * b by omega]
    exact hb

/-- Simpson's rule over the masses of a logarithmic grid, for a function of the logarithm of mass. -/
theorem simpsonX_exp_tame {ι : Type} {l : Filter ι} [l.IsCountablyGenerated] {A B : ℝ} (hAB : A < B) {v : ℝ → ℝ}
    (hv : Tame v A B) {N : ι → ℕ} {s : ι → ℝ} (hF : Fills l A B N s) :
    Tendsto (fun k => simpsonX (N k) (fun i : ℕ => Real.exp (A + i * s k)) fun i : ℕ => v (A + i * s k)) l (𝓝 (∫ t in A..B, v t * Real.exp t)) := by
  obtain ⟨ω, hω0, hω, hlim⟩ := osc_tame hAB hv hF
  have hsmall : ∀ᶠ k in l, s k < (B - A) / 5 := hF.zero.eventually_lt_const (by linarith)
  have hlog2 : ∀ᶠ k in l, s k < Real.log 2 := hF.zero.eventually_lt_const (Real.log_pos (by norm_num))
  have hve : Tame (fun t => v t * Real.exp t) A B := hv.mul (ContinuousOn.tame Real.continuous_exp.continuousOn)
  have hAe : ∀ᶠ k in l, A ≤ A + ((N k - 1 : ℕ):ℝ) * s k := by
    filter_upwards [hF.pos] with k hk
    have : 0 ≤ ((N k - 1 : ℕ):ℝ) * s k := by positivity
    linarith
  have main := hve.integral_end ⟨le_rfl, hAB.le⟩ hF.last hF.hi hAe
  have hdiff : Tendsto (fun k => (simpsonX (N k) (fun i : ℕ => Real.exp (A + i * s k)) fun i : ℕ => v (A + i * s k)) -
      ∫ t in A..(A + ((N k - 1 : ℕ):ℝ) * s k), v t * Real.exp t) l (𝓝 0) := by
    have h2 : Tendsto (fun k => 3 * Real.exp B * (s k * ∑ j ∈ range (N k - 1), ω k j)) l (𝓝 0) := by simpa using hlim.const_mul (3 * Real.exp B)
    refine squeeze_zero_norm' ?_ h2
    filter_upwards [hF.pos, hsmall, hF.lo, hF.hi, hω, hlog2] with k k1 k2 k3 k4 k5 k6
    have hn := five_le k1 (by linarith) k3
    have hcast : ((N k - 1 : ℕ):ℝ) = (N k : ℝ) - 1 := by rw [Nat.cast_sub (by omega)]; simp
    have hmem : ∀ i < N k, A + (i:ℝ) * s k ∈ Set.Icc A B ∧ A + (i:ℝ) * s k ≤ A + ((N k : ℝ) - 1) * s k := by
      intro i hi
      have h1 : (i:ℝ) ≤ ((N k - 1 : ℕ):ℝ) := by exact_mod_cast (by omega : i ≤ N k - 1)
      rw [← hcast]
      exact ⟨⟨by nlinarith [Nat.cast_nonneg (α := ℝ) i], by nlinarith⟩, by nlinarith⟩
    have step : ∀ i : ℕ, Real.exp (A + (i + 1 : ℕ) * s k) = Real.exp (A + i * s k) * Real.exp (s k) := fun i => by
      rw [← Real.exp_add]; congr 1; push_cast; ring
    have r1 : 1 < Real.exp (s k) := Real.one_lt_exp_iff.mpr k1
    have r2 : Real.exp (s k) < 2 := by rw [← Real.lt_log_iff_exp_lt (by norm_num)]; exact k6
    have hg : Graded (N k) fun i : ℕ => Real.exp (A + i * s k) := by
      refine ⟨fun i _ => ?_, fun i _ => ?_, fun i _ => ?_⟩ <;>
        first | rw [step (i + 1), step i] | rw [step i]
      · nlinarith [Real.exp_pos (A + i * s k)]
      · nlinarith [Real.exp_pos (A + i * s k), mul_pos (Real.exp_pos (A + i * s k)) (sub_pos.2 r1)]
      · nlinarith [Real.exp_pos (A + i * s k), mul_pos (Real.exp_pos (A + i * s k)) (sub_pos.2 r1)]
    have ftc : ∀ p q : ℝ, ∫ t in p..q, Real.exp t = Real.exp q - Real.exp p := fun p q => integral_exp
    have err := simpsonX_err_local (by omega : 2 ≤ N k) hg (y := fun i : ℕ => v (A + i * s k)) (ω := ω k)
      (I := fun j : ℕ => ∫ t in (A + (j:ℝ) * s k)..(A + ((j + 1 : ℕ):ℝ) * s k), v t * Real.exp t) (hω0 k) (by
        intro j i hj hi hij hji
        obtain ⟨⟨a1, a2⟩, a3⟩ := hmem j (by omega)
        obtain ⟨⟨b1, b2⟩, b3⟩ := hmem (j + 1) hj
        obtain ⟨⟨c1, c2⟩, c3⟩ := hmem i hi
        have hjj : A + (j:ℝ) * s k ≤ A + ((j + 1 : ℕ):ℝ) * s k := by push_cast; nlinarith
        have hI1 : IntervalIntegrable (fun t => v t * Real.exp t) volume (A + (j:ℝ) * s k) (A + ((j + 1 : ℕ):ℝ) * s k) := hve.intervalIntegrable ⟨a1, a2⟩ ⟨b1, b2⟩
        have hI2 : IntervalIntegrable (fun t => v (A + (i:ℝ) * s k) * Real.exp t) volume (A + (j:ℝ) * s k) (A + ((j + 1 : ℕ):ℝ) * s k) :=
          Continuous.intervalIntegrable (by fun_prop) _ _
        have e : (∫ t in (A + (j:ℝ) * s k)..(A + ((j + 1 : ℕ):ℝ) * s k), v t * Real.exp t) -
            (Real.exp (A + ((j + 1 : ℕ):ℝ) * s k) - Real.exp (A + (j:ℝ) * s k)) * v (A + (i:ℝ) * s k) =
            ∫ t in (A + (j:ℝ) * s k)..(A + ((j + 1 : ℕ):ℝ) * s k), (v t * Real.exp t - v (A + (i:ℝ) * s k) * Real.exp t) := by
          rw [intervalIntegral.integral_sub hI1 hI2, intervalIntegral.integral_const_mul, ftc]
          ring
        rw [e, ← ftc, mul_comm (∫ t in _.._, Real.exp t), ← intervalIntegral.integral_const_mul]
        have := intervalIntegral.norm_integral_le_of_norm_le (μ := volume) hjj (f := fun t => v t * Real.exp t - v (A + (i:ℝ) * s k) * Real.exp t)
          (g := fun t => ω k j * Real.exp t) (Eventually.of_forall fun t ht => ?_) (Continuous.intervalIntegrable (by fun_prop) _ _)
        · exact this
        · rw [← sub_mul, norm_mul, Real.norm_eq_abs, Real.norm_eq_abs, abs_of_pos (Real.exp_pos t)]
          refine mul_le_mul_of_nonneg_right ?_ (Real.exp_pos t).le
          have i1 : ((i:ℕ):ℝ) ≤ j + 2 := by exact_mod_cast hij
          have i2 : ((j:ℕ):ℝ) ≤ i + 1 := by exact_mod_cast hji
          have t1 := ht.1
          have t2 := ht.2
          push_cast at t2 b3
          refine k5 j hj t (by linarith) (by nlinarith) (by nlinarith) (by linarith) _ c1 ?_ ?_ c3
          · nlinarith
          · nlinarith)
    have hsumI : ∑ j ∈ range (N k - 1), ∫ t in (A + (j:ℝ) * s k)..(A + ((j + 1 : ℕ):ℝ) * s k), v t * Real.exp t =
        ∫ t in A..(A + ((N k - 1 : ℕ):ℝ) * s k), v t * Real.exp t := by
      have := intervalIntegral.sum_integral_adjacent_intervals (μ := volume) (f := fun t => v t * Real.exp t) (a := fun j : ℕ => A + (j:ℝ) * s k) (n := N k - 1)
        fun j hj => hve.intervalIntegrable (hmem j (by omega)).1 (hmem (j + 1) (by omega)).1
      rw [this]
      simp
    rw [hsumI] at err
    rw [Real.norm_eq_abs]
    refine err.trans ?_
    rw [mul_assoc, mul_sum (s := range (N k - 1)) (a := s k), mul_sum (s := range (N k - 1)) (a := Real.exp B)]
    refine mul_le_mul_of_nonneg_left (sum_le_sum fun j hj => ?_) (by norm_num : (0:ℝ) ≤ 3)
    have hj' := mem_range.mp hj
    obtain ⟨⟨b1, b2⟩, b3⟩ := hmem (j + 1) (by omega)
    rw [← mul_assoc]
    refine mul_le_mul_of_nonneg_right ?_ (hω0 k j)
    have e1 : Real.exp (A + (j:ℝ) * s k) = Real.exp (A + ((j + 1 : ℕ):ℝ) * s k) * Real.exp (-s k) := by
      rw [← Real.exp_add]; congr 1; push_cast; ring
    have e2 := Real.add_one_le_exp (-s k)
    have e3 : Real.exp (A + ((j + 1 : ℕ):ℝ) * s k) ≤ Real.exp B := Real.exp_le_exp.mpr b2
    rw [e1]
    calc Real.exp (A + ((j + 1 : ℕ):ℝ) * s k) - Real.exp (A + ((j + 1 : ℕ):ℝ) * s k) * Real.exp (-s k) =
        Real.exp (A + ((j + 1 : ℕ):ℝ) * s k) * (1 - Real.exp (-s k)) := by ring
      _ ≤ Real.exp B * s k := by
        refine mul_le_mul e3 (by linarith) ?_ (Real.exp_pos B).le
        have : Real.exp (-s k) ≤ 1 := Real.exp_le_one_iff.mpr (by linarith)
        linarith
  simpa using hdiff.add main

end Halomod
