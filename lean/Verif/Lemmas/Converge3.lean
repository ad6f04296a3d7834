import Verif.Lemmas.Converge2

/-! # Quadratures cut where a cumulated quadrature crosses a threshold -/
namespace Halomod

open Finset MeasureTheory Filter Topology

theorem stp_pos' {a b : ℝ} (hab : a < b) (n : ℕ) : 0 < stp a b n := div_pos (by linarith) (by positivity)

theorem grid_mem' {a b : ℝ} (hab : a < b) (n i : ℕ) (hi : i < n + 2) : a + (i:ℝ) * stp a b n ∈ Set.Icc a b := by
  have hh := stp_pos' hab n
  have hi' : (i:ℝ) ≤ (n:ℝ) + 1 := by exact_mod_cast (by omega : i ≤ n + 1)
  have e : stp a b n * ((n:ℝ) + 1) = b - a := by rw [stp]; field_simp
  constructor
  · nlinarith [Nat.cast_nonneg (α := ℝ) i]
  · nlinarith

theorem grid_last {a b : ℝ} (n : ℕ) : a + ((n + 1 : ℕ):ℝ) * stp a b n = b := by
  have : (0:ℝ) < (n:ℝ) + 1 := by positivity
  rw [stp]; push_cast; field_simp; ring

/-- the cumulated trapezoid converges uniformly to the primitive. -/
theorem cum_uniform {a b : ℝ} (hab : a < b) {v : ℝ → ℝ} (hv : Continuous v) (ε : ℝ) (hε : 0 < ε) :
    ∀ᶠ n : ℕ in atTop, ∀ i < n + 2, |cumtrapz0 (stp a b n) (fun i => v (a + i * stp a b n)) i - ∫ t in a..(a + i * stp a b n), v t| ≤ ε := by
  have huc := isCompact_Icc.uniformContinuousOn_of_continuous (s := Set.Icc a b) hv.continuousOn
  rw [Metric.uniformContinuousOn_iff] at huc
  have hba : 0 < b - a := by linarith
  obtain ⟨δ, hδ, hu⟩ := huc (ε / (2 * (b - a))) (by positivity)
  have h1 : ∀ᶠ n : ℕ in atTop, stp a b n < δ / 2 := (stp_tendsto a b).eventually_lt_const (by positivity)
  filter_upwards [h1] with n hn i hi
  have hh := stp_pos' hab n
  rcases Nat.eq_zero_or_pos i with rfl | hip
  · simp [cumtrapz0, hε.le]
  have key := trapz_rule.err v a (stp a b n) (i + 1) (fun _ => ε / (2 * (b - a))) (by omega) hh (fun s t => hv.intervalIntegrable s t) (by
    intro j hj s hs t ht
    have e1 : (((i + 1 : ℕ):ℝ) - 1) = i := by push_cast; ring
    rw [e1] at hs ht
    have hib := (grid_mem' hab n i hi).2
    have ha : a ≤ a + j * stp a b n := by nlinarith [Nat.cast_nonneg (α := ℝ) j]
    have hsI : s ∈ Set.Icc a b := ⟨ha.trans hs.1, hs.2.trans ((min_le_right _ _).trans hib)⟩
    have htI : t ∈ Set.Icc a b := ⟨ha.trans ht.1, ht.2.trans ((min_le_right _ _).trans hib)⟩
    have hs2 := hs.2.trans (min_le_left _ _)
    have ht2 := ht.2.trans (min_le_left _ _)
    have := hu s hsI t htI (by
      rw [Real.dist_eq]
      have : |s - t| ≤ 2 * stp a b n := by rw [abs_le]; constructor <;> nlinarith [hs.1, ht.1]
      linarith)
    rw [Real.dist_eq] at this
    exact this.le)
  have e1 : (((i + 1 : ℕ):ℝ) - 1) = i := by push_cast; ring
  rw [e1] at key
  have e2 : trapzDx (i + 1) (stp a b n) (fun i => v (a + i * stp a b n)) = cumtrapz0 (stp a b n) (fun i => v (a + i * stp a b n)) i := by
    unfold trapzDx cumtrapz0; rw [Nat.add_sub_cancel]
  rw [e2] at key
  refine key.trans ?_
  rw [Nat.add_sub_cancel, sum_const, card_range, nsmul_eq_mul]
  have hib := (grid_mem' hab n i hi).2
  have : (i:ℝ) * stp a b n ≤ b - a := by linarith
  have e3 : 2 * stp a b n * (i * (ε / (2 * (b - a)))) = (i * stp a b n) * (ε / (b - a)) := by field_simp
  rw [e3]
  have h4 := mul_le_mul_of_nonneg_right this (by positivity : 0 ≤ ε / (b - a))
  have e5 : (b - a) * (ε / (b - a)) = ε := by field_simp
  linarith

open Classical in
/-- a quadrature restricted to the points up to which a cumulated trapezoid stays below a threshold. -/
theorem threshold_tendsto {Q : ℕ → ℝ → (ℕ → ℝ) → ℝ} (hQ : RuleOk Q) {a b : ℝ} (hab : a < b) {u v : ℝ → ℝ} (hu : Continuous u)
    (hv : Continuous v) (hpos : ∀ t, 0 < v t) (L : ℕ → ℝ) (L0 : ℝ) (hL : Tendsto L atTop (𝓝 L0)) (hLn : ∀ n, 0 ≤ L n) :
    Tendsto (fun n : ℕ => Q (n + 2) (stp a b n) fun i =>
      if cumtrapz0 (stp a b n) (fun i => v (a + i * stp a b n)) i ≤ L n then u (a + i * stp a b n) else 0) atTop
      (𝓝 (∫ t in a..b, if (∫ s in a..t, v s) ≤ L0 then u t else 0)) := by
  set F : ℝ → ℝ := fun t => ∫ s in a..t, v s with hF
  have hFc : Continuous F := intervalIntegral.continuous_primitive (fun s t => hv.intervalIntegrable s t) a
  have hFd : ∀ s t, F t - F s = ∫ x in s..t, v x := fun s t => by
    rw [hF]
    have := intervalIntegral.integral_add_adjacent_intervals (hv.intervalIntegrable a s) (hv.intervalIntegrable s t) (μ := volume)
    simp only; linarith
  obtain ⟨x0, hx0, hmin⟩ := isCompact_Icc.exists_isMinOn ⟨a, le_rfl, hab.le⟩ (hv.continuousOn (s := Set.Icc a b))
  obtain ⟨x1, hx1, hmax⟩ := isCompact_Icc.exists_isMaxOn ⟨a, le_rfl, hab.le⟩ (hv.continuousOn (s := Set.Icc a b))
  have hm := hpos x0
  have hM := hpos x1
  have hlow : ∀ s ∈ Set.Icc a b, ∀ t ∈ Set.Icc a b, s ≤ t → v x0 * (t - s) ≤ F t - F s := by
    intro s hs t ht hst
    rw [hFd]
    have := intervalIntegral.integral_mono_on (μ := volume) (a := s) (b := t) (f := fun _ => v x0) (g := v) hst intervalIntegrable_const (hv.intervalIntegrable s t)
      (fun x hx => hmin ⟨hs.1.trans hx.1, hx.2.trans ht.2⟩)
    rw [intervalIntegral.integral_const, smul_eq_mul] at this
    linarith
  have hup : ∀ s ∈ Set.Icc a b, ∀ t ∈ Set.Icc a b, s ≤ t → F t - F s ≤ v x1 * (t - s) := by
    intro s hs t ht hst
    rw [hFd]
    have := intervalIntegral.integral_mono_on (μ := volume) (a := s) (b := t) (g := fun _ => v x1) (f := v) hst (hv.intervalIntegrable s t) intervalIntegrable_const
      (fun x hx => hmax ⟨hs.1.trans hx.1, hx.2.trans ht.2⟩)
    rw [intervalIntegral.integral_const, smul_eq_mul] at this
    linarith
  have hle : ∀ s ∈ Set.Icc a b, ∀ t ∈ Set.Icc a b, (F s ≤ F t ↔ s ≤ t) := by
    intro s hs t ht
    constructor
    · intro h
      by_contra h'
      have := hlow t ht s hs (not_le.mp h').le
      nlinarith [not_le.mp h']
    · intro h
      have := hlow s hs t ht h
      nlinarith
  have hFa : F a = 0 := by simp [hF]
  have hL0 : 0 ≤ L0 := ge_of_tendsto' hL hLn
  have haI : a ∈ Set.Icc a b := ⟨le_rfl, hab.le⟩
  have hbI : b ∈ Set.Icc a b := ⟨hab.le, le_rfl⟩
  have hFab : F a ≤ F b := (hle a haI b hbI).mpr hab.le
  obtain ⟨c, hcI, hFcc⟩ : ∃ c ∈ Set.Icc a b, F c = min L0 (F b) := by
    have := intermediate_value_Icc hab.le hFc.continuousOn
    exact this ⟨by rw [hFa]; exact le_min hL0 (hFa ▸ hFab), min_le_right _ _⟩
  -- the last kept point
  set kept : ℕ → ℕ → Prop := fun n i => cumtrapz0 (stp a b n) (fun i => v (a + i * stp a b n)) i ≤ L n with hkept
  set K : ℕ → ℕ := fun n => Nat.findGreatest (kept n) (n + 1) with hK
  have hk0 : ∀ n, kept n 0 := fun n => by simp [hkept, cumtrapz0, hLn n]
  have hKs : ∀ n, kept n (K n) := fun n => Nat.findGreatest_spec (Nat.zero_le _) (hk0 n)
  have hKle : ∀ n, K n ≤ n + 1 := fun n => Nat.findGreatest_le _
  have hmono : ∀ n, Monotone (cumtrapz0 (stp a b n) (fun i => v (a + i * stp a b n))) := fun n =>
    cumtrapz0_mono (stp_pos' hab n).le fun i => (hpos _).le
  have hpre : ∀ n, ∀ i < n + 2, (kept n i ↔ i ≤ K n) := by
    intro n i hi
    constructor
    · intro h; exact Nat.le_findGreatest (by omega) h
    · intro h; exact (hmono n h).trans (hKs n)
  set c' : ℕ → ℝ := fun n => a + K n * stp a b n with hc'
  have hc'I : ∀ n, c' n ∈ Set.Icc a b := fun n => grid_mem' hab n _ (by have := hKle n; omega)
  have hct : Tendsto c' atTop (𝓝 c) := by
    rw [Metric.tendsto_atTop']
    intro ε hε
    have hs1 : ∀ᶠ n : ℕ in atTop, stp a b n < v x0 * ε / (4 * v x1) := (stp_tendsto a b).eventually_lt_const (by positivity)
    have hs2 := cum_uniform hab hv (v x0 * ε / 4) (by positivity)
    have hs3 : ∀ᶠ n in atTop, |L n - L0| < v x0 * ε / 4 := by
      have := (Metric.tendsto_nhds.mp hL) (v x0 * ε / 4) (by positivity)
      simpa [Real.dist_eq] using this
    obtain ⟨N, hN⟩ := eventually_atTop.mp (hs1.and (hs2.and hs3))
    refine ⟨N, fun n hn => ?_⟩
    obtain ⟨g1, g2, g3⟩ := hN n hn.le
    rw [abs_lt] at g3
    have hup1 : F (c' n) ≤ F c + v x0 * ε / 2 := by
      have w := g2 (K n) (by have := hKle n; omega)
      rw [abs_le] at w
      have w2 := hKs n
      have w3 : F (c' n) ≤ L0 + v x0 * ε / 2 := by
        have : F (c' n) = ∫ t in a..a + (K n) * stp a b n, v t := rfl
        rw [this]; simp only [hkept] at w2; linarith [w.1, w.2, g3.1, g3.2]
      have w4 : F (c' n) ≤ F b := (hle _ (hc'I n) _ hbI).mpr (hc'I n).2
      rw [hFcc]
      rcases le_total L0 (F b) with h | h
      · rw [min_eq_left h]; exact w3
      · rw [min_eq_right h]; linarith [mul_pos hm hε]
    have hlo1 : F c - 3 * (v x0 * ε / 4) < F (c' n) := by
      rcases Nat.lt_or_ge (K n) (n + 1) with hlt | hge
      · have hnk : ¬ kept n (K n + 1) := by
          rw [hpre n _ (by omega)]; omega
        have w := g2 (K n + 1) (by omega)
        rw [abs_le] at w
        have hnext := grid_mem' hab n (K n + 1) (by omega)
        have hd := hup (c' n) (hc'I n) _ hnext (by
          simp only [hc']; push_cast; nlinarith [stp_pos' hab n])
        have e : a + ((K n + 1 : ℕ):ℝ) * stp a b n - c' n = stp a b n := by simp only [hc']; push_cast; ring
        rw [e] at hd
        have : v x1 * stp a b n < v x0 * ε / 4 := by
          rw [lt_div_iff₀ (by positivity)] at g1; linarith
        have w5 : F (a + ((K n + 1 : ℕ):ℝ) * stp a b n) = ∫ t in a..a + ((K n + 1 : ℕ):ℝ) * stp a b n, v t := rfl
        simp only [hkept, not_le] at hnk
        have w6 : F c ≤ L0 := by rw [hFcc]; exact min_le_left _ _
        rw [w5] at hd
        linarith [w.1, w.2, g3.1, g3.2]
      · have : K n = n + 1 := le_antisymm (hKle n) hge
        have e : c' n = b := by simp only [hc', this]; exact grid_last n
        rw [e, hFcc]
        have := min_le_right L0 (F b)
        have := mul_pos hm hε
        linarith
    rw [Real.dist_eq, abs_lt]
    constructor
    · by_contra h
      push Not at h
      have h1 := hlow (c' n) (hc'I n) c hcI (by linarith)
      have : v x0 * ε ≤ v x0 * (c - c' n) := mul_le_mul_of_nonneg_left (by linarith) hm.le
      nlinarith [mul_pos hm hε]
    · by_contra h
      push Not at h
      have h1 := hlow c hcI (c' n) (hc'I n) (by linarith)
      have : v x0 * ε ≤ v x0 * (c' n - c) := mul_le_mul_of_nonneg_left (by linarith) hm.le
      nlinarith [mul_pos hm hε]
  have hcutint : ∀ s ∈ Set.Icc a b, ∫ t in a..b, (if t ≤ s then u t else 0) = ∫ t in a..s, u t := by
    intro s hs
    have hint : ∀ x y, IntervalIntegrable (fun t => if t ≤ s then u t else 0) volume x y := by
      intro x y
      have : (fun t => if t ≤ s then u t else 0) = Set.indicator (Set.Iic s) u := by
        funext t; simp [Set.indicator, Set.mem_Iic]
      rw [this, intervalIntegrable_iff]
      exact ((hu.intervalIntegrable x y).def').indicator measurableSet_Iic
    rw [← intervalIntegral.integral_add_adjacent_intervals (hint a s) (hint s b)]
    have e1 : ∫ t in a..s, (if t ≤ s then u t else 0) = ∫ t in a..s, u t := by
      apply intervalIntegral.integral_congr
      intro t ht
      rw [Set.uIcc_of_le hs.1] at ht
      simp only [if_pos ht.2]
    have e2 : ∫ t in s..b, (if t ≤ s then u t else 0) = 0 := by
      rw [intervalIntegral.integral_of_le hs.2]
      rw [setIntegral_congr_fun (g := fun _ => (0:ℝ)) measurableSet_Ioc (fun t ht => if_neg (not_le.mpr ht.1))]
      simp
    rw [e1, e2, add_zero]
  have hlim : ∫ t in a..b, (if F t ≤ L0 then u t else 0) = ∫ t in a..c, u t := by
    rw [← hcutint c hcI]
    apply intervalIntegral.integral_congr
    intro t ht
    rw [Set.uIcc_of_le hab.le] at ht
    have : F t ≤ L0 ↔ t ≤ c := by
      rw [← hle t ht c hcI, hFcc, le_min_iff]
      exact ⟨fun h => ⟨h, (hle t ht b hbI).mpr ht.2⟩, fun h => h.1⟩
    simp only [this]
  have hU : Continuous fun x => ∫ t in a..x, u t := intervalIntegral.continuous_primitive (fun s t => hu.intervalIntegrable s t) a
  have hA : Tendsto (fun n => ∫ t in a..(c' n), u t) atTop (𝓝 (∫ t in a..c, u t)) := (hU.tendsto c).comp hct
  have hB : Tendsto (fun n : ℕ => (Q (n + 2) (stp a b n) fun i => if kept n i then u (a + i * stp a b n) else 0) - ∫ t in a..(c' n), u t) atTop (𝓝 0) := by
    rw [Metric.tendsto_atTop']
    intro ε hε
    obtain ⟨N, hN⟩ := eventually_atTop.mp (inner_uniform hQ hab (g := fun _ t => u t) (p := fun s t => t ≤ s)
      ⟨hu.comp continuous_snd, fun s _ => ⟨s, fun t _ => Iff.rfl⟩⟩ (ε / 2) (by linarith))
    refine ⟨N, fun n hn => ?_⟩
    have h1 := hN n hn.le (c' n) (hc'I n)
    rw [hcutint _ (hc'I n)] at h1
    have hd := hQ.diff (stp a b n) 0 (n + 2) (fun i => if kept n i then u (a + i * stp a b n) else 0)
      (fun i => if a + i * stp a b n ≤ c' n then u (a + i * stp a b n) else 0) (by omega) (stp_pos' hab n) (by
        intro i hi
        have : kept n i ↔ a + i * stp a b n ≤ c' n := by
          rw [hpre n i hi]
          simp only [hc']
          have hh := stp_pos' hab n
          constructor
          · intro h
            have : (i:ℝ) ≤ K n := by exact_mod_cast h
            nlinarith
          · intro h
            have : (i:ℝ) ≤ K n := by
              by_contra h'
              nlinarith [not_le.mp h']
            exact_mod_cast this
        simp only [this, sub_self, abs_zero, le_refl])
    rw [mul_zero] at hd
    rw [sub_eq_zero.mp (abs_nonpos_iff.mp hd), Real.dist_eq, sub_zero]
    linarith
  have := hB.add hA
  simp only [sub_add_cancel, zero_add] at this
  rw [hlim]
  exact this

end Halomod
