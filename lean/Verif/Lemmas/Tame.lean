import Verif.Lemmas.SplTrap
import Mathlib.MeasureTheory.Integral.DominatedConvergence
import Mathlib.MeasureTheory.Function.Floor

/-! # Integrating functions with jumps -/
namespace Halomod

open Finset MeasureTheory Filter Topology Halomod.Tools

/-- bounded on `[a, b]`, and continuous there except at countably many points: continuous functions, step functions, ... -/
def Tame (f : ℝ → ℝ) (a b : ℝ) : Prop :=
  (∃ M, ∀ m ∈ Set.Icc a b, |f m| ≤ M) ∧ ∃ s : Set ℝ, s.Countable ∧ ∀ m ∈ Set.Icc a b, m ∉ s → ContinuousWithinAt f (Set.Icc a b) m

theorem ContinuousOn.tame {f : ℝ → ℝ} {a b : ℝ} (h : ContinuousOn f (Set.Icc a b)) : Tame f a b := by
  refine ⟨?_, ∅, Set.countable_empty, fun m hm _ => h m hm⟩
  obtain ⟨M, hM⟩ := isCompact_Icc.exists_bound_of_continuousOn h
  exact ⟨M, fun m hm => hM m hm⟩

theorem Tame.mul {f g : ℝ → ℝ} {a b : ℝ} (hf : Tame f a b) (hg : Tame g a b) : Tame (fun m => f m * g m) a b := by
  obtain ⟨⟨M, hM⟩, s, hs, hs'⟩ := hf
  obtain ⟨⟨N, hN⟩, t, ht, ht'⟩ := hg
  refine ⟨⟨M * N, fun m hm => ?_⟩, s ∪ t, hs.union ht, fun m hm hn => ?_⟩
  · rw [abs_mul]
    exact mul_le_mul (hM m hm) (hN m hm) (abs_nonneg _) ((abs_nonneg _).trans (hM m hm))
  · rw [Set.mem_union, not_or] at hn
    exact (hs' m hm hn.1).mul (ht' m hm hn.2)

theorem Tame.add {f g : ℝ → ℝ} {a b : ℝ} (hf : Tame f a b) (hg : Tame g a b) : Tame (fun m => f m + g m) a b := by
  obtain ⟨⟨M, hM⟩, s, hs, hs'⟩ := hf
  obtain ⟨⟨N, hN⟩, t, ht, ht'⟩ := hg
  refine ⟨⟨M + N, fun m hm => ?_⟩, s ∪ t, hs.union ht, fun m hm hn => ?_⟩
  · exact (abs_add_le _ _).trans (add_le_add (hM m hm) (hN m hm))
  · rw [Set.mem_union, not_or] at hn
    exact (hs' m hm hn.1).add (ht' m hm hn.2)

theorem tame_const (c a b : ℝ) : Tame (fun _ => c) a b := ContinuousOn.tame continuousOn_const

theorem tame_id (a b : ℝ) : Tame (fun m => m) a b := ContinuousOn.tame continuousOn_id

theorem Tame.pow_two {f : ℝ → ℝ} {a b : ℝ} (hf : Tame f a b) : Tame (fun m => f m ^ 2) a b := by
  have := hf.mul hf
  simpa only [sq] using this

/-- a step at `c`. -/
theorem tame_step {f g : ℝ → ℝ} {a b c : ℝ} (hf : Tame f a b) (hg : Tame g a b) : Tame (fun m => if m < c then f m else g m) a b := by
  obtain ⟨⟨M, hM⟩, s, hs, hs'⟩ := hf
  obtain ⟨⟨N, hN⟩, t, ht, ht'⟩ := hg
  refine ⟨⟨max M N, fun m hm => ?_⟩, (s ∪ t) ∪ {c}, (hs.union ht).union (Set.countable_singleton c), fun m hm hn => ?_⟩
  · beta_reduce
    split_ifs
    · exact (hM m hm).trans (le_max_left _ _)
    · exact (hN m hm).trans (le_max_right _ _)
  · rw [Set.mem_union, Set.mem_union, not_or, not_or, Set.mem_singleton_iff] at hn
    rcases lt_or_gt_of_ne hn.2 with h | h
    · refine (hs' m hm hn.1.1).congr_of_eventuallyEq ?_ (if_pos h)
      exact mem_nhdsWithin_of_mem_nhds (Filter.mem_of_superset (Iio_mem_nhds h) fun x hx => if_pos hx)
    · refine (ht' m hm hn.1.2).congr_of_eventuallyEq ?_ (if_neg (not_lt.mpr h.le))
      exact mem_nhdsWithin_of_mem_nhds (Filter.mem_of_superset (Ioi_mem_nhds h) fun x hx => if_neg (not_lt.mpr (le_of_lt hx)))

theorem Tame.congr {f g : ℝ → ℝ} {a b : ℝ} (hf : Tame f a b) (h : ∀ m ∈ Set.Icc a b, g m = f m) : Tame g a b := by
  obtain ⟨⟨M, hM⟩, s, hs, hs'⟩ := hf
  exact ⟨⟨M, fun m hm => by rw [h m hm]; exact hM m hm⟩, s, hs, fun m hm hn => (hs' m hm hn).congr h (h m hm)⟩

/-- in logarithms. -/
theorem Tame.log {f : ℝ → ℝ} {a b : ℝ} (ha : 0 < a) (hab : a ≤ b) (hf : Tame f a b) :
    Tame (fun t => f (Real.exp t) * Real.exp t) (Real.log a) (Real.log b) := by
  have hmem : ∀ t ∈ Set.Icc (Real.log a) (Real.log b), Real.exp t ∈ Set.Icc a b := fun t ht =>
    ⟨(Real.log_le_iff_le_exp ha).mp ht.1, (Real.le_log_iff_exp_le (ha.trans_le hab)).mp ht.2⟩
  refine Tame.mul ?_ (ContinuousOn.tame Real.continuous_exp.continuousOn)
  obtain ⟨⟨M, hM⟩, s, hs, hs'⟩ := hf
  refine ⟨⟨M, fun t ht => hM _ (hmem t ht)⟩, Real.exp ⁻¹' s, hs.preimage Real.exp_injective, fun t ht hn => ?_⟩
  exact (hs' _ (hmem t ht) hn).comp Real.continuous_exp.continuousWithinAt hmem

theorem Tame.integrableOn {f : ℝ → ℝ} {a b : ℝ} (hf : Tame f a b) : IntegrableOn f (Set.Icc a b) := by
  obtain ⟨⟨M, hM⟩, s, hs, hs'⟩ := hf
  have hc : ContinuousOn f (Set.Icc a b \ s) := fun m hm => (hs' m hm.1 hm.2).mono Set.sdiff_subset
  have hmeas : MeasurableSet (Set.Icc a b \ s) := measurableSet_Icc.diff hs.measurableSet
  have h1 : AEStronglyMeasurable f (volume.restrict (Set.Icc a b \ s)) := hc.aestronglyMeasurable hmeas
  have h2 : (Set.Icc a b \ s : Set ℝ) =ᵐ[volume] Set.Icc a b := sdiff_null_ae_eq_self (hs.measure_zero volume)
  rw [Measure.restrict_congr_set h2] at h1
  refine Integrable.of_bound h1 M ?_
  filter_upwards [ae_restrict_mem measurableSet_Icc] with t ht using hM t ht

theorem Tame.intervalIntegrable {f : ℝ → ℝ} {a b c d : ℝ} (hf : Tame f a b) (hc : c ∈ Set.Icc a b) (hd : d ∈ Set.Icc a b) :
    IntervalIntegrable f volume c d :=
  (hf.integrableOn.mono_set (Set.uIcc_subset_Icc hc hd)).intervalIntegrable

/-- integrals up to a moving end. -/
theorem Tame.integral_end {ι : Type} {l : Filter ι} {A B c : ℝ} (hc : c ∈ Set.Icc A B) {v : ℝ → ℝ} (hv : Tame v A B)
    {e : ι → ℝ} (he : Tendsto e l (𝓝 B)) (hle : ∀ᶠ k in l, e k ≤ B) (hge : ∀ᶠ k in l, c ≤ e k) :
    Tendsto (fun k => ∫ t in c..e k, v t) l (𝓝 (∫ t in c..B, v t)) := by
  have hi : IntegrableOn v (Set.uIcc c B) := by
    rw [Set.uIcc_of_le hc.2]
    exact hv.integrableOn.mono_set (Set.Icc_subset_Icc_left hc.1)
  have h1 : ContinuousWithinAt (fun x => ∫ t in c..x, v t) (Set.uIcc c B) B :=
    intervalIntegral.continuousOn_primitive_interval hi B (Set.right_mem_uIcc)
  have h2 : Tendsto e l (𝓝[Set.uIcc c B] B) := by
    refine tendsto_nhdsWithin_iff.mpr ⟨he, ?_⟩
    filter_upwards [hle, hge] with k h3 h4
    rw [Set.uIcc_of_le hc.2]
    exact ⟨h4, h3⟩
  exact h1.tendsto.comp h2

theorem not_mem_ae {s : Set ℝ} (hs : s.Countable) : ∀ᵐ t : ℝ, t ∉ s := by
  rw [ae_iff]
  simpa using hs.measure_zero volume

/-- the polygon lies between its data. -/
theorem linSpl_between {n : ℕ} {A s : ℝ} (hs : 0 < s) (hn : 2 ≤ n) (y : ℕ → ℝ) {t : ℝ} (h0 : A ≤ t) (h1 : t ≤ A + ((n - 1 : ℕ):ℝ) * s) :
    ∃ j : ℕ, j + 1 < n ∧ A + (j:ℝ) * s ≤ t ∧ t ≤ A + ((j + 1 : ℕ):ℝ) * s ∧ ∃ lam : ℝ, 0 ≤ lam ∧ lam ≤ 1 ∧
      linSpl n (fun i : ℕ => A + i * s) y t = (1 - lam) * y j + lam * y (j + 1) := by
  obtain ⟨j, hj, hj1, hj2⟩ := inc_panel (n := n) hn (x := fun i : ℕ => A + i * s) (t := t) (by simpa using h0) h1
  refine ⟨j, hj, hj1, hj2, (t - (A + j * s)) / s, div_nonneg (by linarith) hs.le, ?_, ?_⟩
  · rw [div_le_one hs]
    push_cast at hj2
    linarith
  · rw [linSpl_on n _ _ (lin_inc A hs n) j hj t hj1 hj2]
    have hden : A + ((j + 1 : ℕ):ℝ) * s - (A + j * s) = s := by push_cast; ring
    rw [hden]
    ring

/-- the polygons through the samples of a tame function: their integrals converge. -/
theorem lin_tame {ι : Type} {l : Filter ι} [l.IsCountablyGenerated] {A B c : ℝ} (hAB : A < B) (hca : c ∈ Set.Ico A B)
    {v : ℝ → ℝ} (hv : Tame v A B) {N : ι → ℕ} {s : ι → ℝ} (hF : Fills l A B N s) :
    Tendsto (fun k => splIntegral linSpl (N k) (fun i : ℕ => A + i * s k) (fun i => v (A + i * s k)) c (A + ((N k - 1 : ℕ):ℝ) * s k)) l
      (𝓝 (∫ t in c..B, v t)) := by
  have hv' := hv
  obtain ⟨⟨M, hM⟩, S, hS, hS'⟩ := hv
  have hM0 : 0 ≤ M := (abs_nonneg _).trans (hM A ⟨le_rfl, hAB.le⟩)
  set F : ι → ℝ → ℝ := fun k => Set.indicator (Set.Iic (A + ((N k - 1 : ℕ):ℝ) * s k)) (linSpl (N k) (fun i : ℕ => A + i * s k) (fun i => v (A + i * s k))) with hFdef
  have hce : ∀ᶠ k in l, c ≤ A + ((N k - 1 : ℕ):ℝ) * s k := by
    filter_upwards [hF.last.eventually (lt_mem_nhds hca.2)] with k hk using hk.le
  have hsmall : ∀ᶠ k in l, s k < (B - A) / 5 := hF.zero.eventually_lt_const (by linarith)
  have hmemN : ∀ k, 0 < s k → A + ((N k - 1 : ℕ):ℝ) * s k ≤ B → ∀ i < N k, A + (i:ℝ) * s k ∈ Set.Icc A B := by
    intro k k1 k4 i hi
    have h1 : (i:ℝ) ≤ ((N k - 1 : ℕ):ℝ) := by exact_mod_cast (by omega : i ≤ N k - 1)
    exact ⟨by nlinarith [Nat.cast_nonneg (α := ℝ) i], by nlinarith⟩
  have main : Tendsto (fun k => ∫ t in c..B, F k t) l (𝓝 (∫ t in c..B, v t)) := by
    refine intervalIntegral.tendsto_integral_filter_of_dominated_convergence (fun _ => M) ?_ ?_ intervalIntegrable_const ?_
    · filter_upwards [hF.pos] with k k1
      exact ((linSpl_lin.cont (N k) _ _ (lin_inc A k1 (N k))).aestronglyMeasurable.indicator measurableSet_Iic)
    · filter_upwards [hF.pos, hsmall, hF.lo, hF.hi] with k k1 k2 k3 k4
      refine Eventually.of_forall fun t ht => ?_
      rw [Set.uIoc_of_le hca.2.le] at ht
      have hn := five_le k1 (by linarith) k3
      by_cases hte : t ≤ A + ((N k - 1 : ℕ):ℝ) * s k
      · simp only [hFdef]
        rw [Set.indicator_of_mem (by exact hte)]
        obtain ⟨j, hj, -, -, lam, l0, l1, e⟩ := linSpl_between k1 (by omega) (fun i => v (A + i * s k)) (hca.1.trans ht.1.le) hte
        rw [e, Real.norm_eq_abs]
        have b1 := abs_le.mp (hM _ (hmemN k k1 k4 j (by omega)))
        have b2 := abs_le.mp (hM _ (hmemN k k1 k4 (j + 1) hj))
        rw [abs_le]
        constructor <;> nlinarith [b1.1, b1.2, b2.1, b2.2]
      · simp only [hFdef]
        rw [Set.indicator_of_notMem (by exact hte), norm_zero]
        exact hM0
    · have hB : ∀ᵐ t : ℝ, t ≠ B := by
        have := not_mem_ae (Set.countable_singleton B)
        simpa using this
      filter_upwards [not_mem_ae hS, hB] with t htS htB ht
      rw [Set.uIoc_of_le hca.2.le] at ht
      have htI : t ∈ Set.Icc A B := ⟨hca.1.trans ht.1.le, ht.2⟩
      have htl : t < B := lt_of_le_of_ne ht.2 htB
      have hcont := hS' t htI htS
      rw [Metric.tendsto_nhds]
      intro ε hε
      rw [Metric.continuousWithinAt_iff] at hcont
      obtain ⟨δ, hδ, hd⟩ := hcont ε hε
      filter_upwards [hF.pos, hsmall, hF.lo, hF.hi, hF.zero.eventually_lt_const hδ, hF.last.eventually (lt_mem_nhds htl)] with k k1 k2 k3 k4 k5 k6
      have hn := five_le k1 (by linarith) k3
      simp only [hFdef]
      rw [Set.indicator_of_mem (by exact k6.le)]
      obtain ⟨j, hj, hj1, hj2, lam, l0, l1, e⟩ := linSpl_between k1 (by omega) (fun i => v (A + i * s k)) htI.1 k6.le
      have hst : A + ((j + 1 : ℕ):ℝ) * s k = A + (j:ℝ) * s k + s k := by push_cast; ring
      have d1 := hd (hmemN k k1 k4 j (by omega)) (by rw [Real.dist_eq, abs_lt]; constructor <;> linarith)
      have d2 := hd (hmemN k k1 k4 (j + 1) hj) (by rw [Real.dist_eq, abs_lt]; constructor <;> linarith)
      rw [e, Real.dist_eq]
      rw [Real.dist_eq, abs_lt] at d1 d2
      generalize v (A + (j:ℝ) * s k) = P at *
      generalize v (A + ((j + 1 : ℕ):ℝ) * s k) = Q at *
      rw [abs_lt]
      constructor
      · rcases eq_or_lt_of_le l0 with h | h
        · rw [← h]; linarith [d1.1]
        · nlinarith [d1.1, d2.1]
      · rcases eq_or_lt_of_le l0 with h | h
        · rw [← h]; linarith [d1.2]
        · nlinarith [d1.2, d2.2]
  refine main.congr' ?_
  filter_upwards [hF.pos, hF.hi, hce] with k k1 k4 k5
  rw [splIntegral_inside k5 hca.1 le_rfl]
  have hFi : ∀ a b, IntervalIntegrable (F k) volume a b := by
    intro a b
    have := (linSpl_lin.cont (N k) _ (fun i => v (A + i * s k)) (lin_inc A k1 (N k))).intervalIntegrable (μ := volume) a b
    rw [intervalIntegrable_iff] at this ⊢
    exact this.indicator measurableSet_Iic
  rw [← intervalIntegral.integral_add_adjacent_intervals (hFi c (A + ((N k - 1 : ℕ):ℝ) * s k)) (hFi _ _)]
  have z : ∫ t in (A + ((N k - 1 : ℕ):ℝ) * s k)..B, F k t = 0 := by
    rw [intervalIntegral.integral_of_le k4]
    apply setIntegral_eq_zero_of_forall_eq_zero
    intro t ht
    exact Set.indicator_of_notMem (by simpa using ht.1) _
  rw [z, add_zero]
  apply intervalIntegral.integral_congr
  intro t ht
  rw [Set.uIcc_of_le k5] at ht
  exact Set.indicator_of_mem (by exact ht.2) _

/-- splines through the samples of a tame function: their integrals converge. -/
theorem spl_tame {ι : Type} {l : Filter ι} [l.IsCountablyGenerated] {isp : Spl} (hq : SplQuad isp) {A B c : ℝ} (hAB : A < B) (hca : c ∈ Set.Ico A B)
    {v : ℝ → ℝ} (hv : Tame v A B) {N : ι → ℕ} {s : ι → ℝ} (hF : Fills l A B N s) :
    Tendsto (fun k => splIntegral isp (N k) (fun i : ℕ => A + i * s k) (fun i => v (A + i * s k)) c (A + ((N k - 1 : ℕ):ℝ) * s k)) l
      (𝓝 (∫ t in c..B, v t)) := by
  have main := lin_tame hAB hca hv hF
  obtain ⟨K, hK, hq⟩ := hq
  obtain ⟨⟨M, hM⟩, -⟩ := hv
  have h0 : Tendsto (fun k => K * M * s k) l (𝓝 0) := by simpa using hF.zero.const_mul (K * M)
  have hdiff : Tendsto (fun k => splIntegral isp (N k) (fun i : ℕ => A + i * s k) (fun i => v (A + i * s k)) c (A + ((N k - 1 : ℕ):ℝ) * s k) -
      splIntegral linSpl (N k) (fun i : ℕ => A + i * s k) (fun i => v (A + i * s k)) c (A + ((N k - 1 : ℕ):ℝ) * s k)) l (𝓝 0) := by
    refine squeeze_zero_norm' ?_ h0
    filter_upwards [hF.pos, hF.zero.eventually_lt_const (show 0 < (B - A) / 5 by linarith), hF.lo, hF.hi, hF.last.eventually (lt_mem_nhds hca.2)] with k k1 k2 k3 k4 k5
    have hn := five_le k1 (by linarith) k3
    refine hq (N k) A (s k) _ M c hn k1 (fun i hi => hM _ ?_) ⟨hca.1, k5.le⟩
    have h1 : (i:ℝ) ≤ ((N k - 1 : ℕ):ℝ) := by exact_mod_cast (by omega : i ≤ N k - 1)
    exact ⟨by nlinarith [Nat.cast_nonneg (α := ℝ) i], by nlinarith⟩
  simpa using hdiff.add main

/-- a rule of integration converges for tame functions. -/
theorem rule_tame {ι : Type} {l : Filter ι} [l.IsCountablyGenerated] {Q : ℕ → ℝ → (ℕ → ℝ) → ℝ} (hQ : RuleOk Q) {A B : ℝ} (hAB : A < B) {v : ℝ → ℝ}
    (hv : Tame v A B) {N : ι → ℕ} {s : ι → ℝ} (hF : Fills l A B N s) :
    Tendsto (fun k => Q (N k) (s k) fun i : ℕ => v (A + i * s k)) l (𝓝 (∫ t in A..B, v t)) := by
  classical
  have hv' := hv
  obtain ⟨⟨M, hM⟩, S, hS, hS'⟩ := hv
  have hM0 : 0 ≤ M := (abs_nonneg _).trans (hM A ⟨le_rfl, hAB.le⟩)
  have hAe : ∀ᶠ k in l, A ≤ A + ((N k - 1 : ℕ):ℝ) * s k := by
    filter_upwards [hF.pos] with k hk
    have : 0 ≤ ((N k - 1 : ℕ):ℝ) * s k := by positivity
    linarith
  have hsmall : ∀ᶠ k in l, s k < (B - A) / 5 := hF.zero.eventually_lt_const (by linarith)
  have main := hv'.integral_end ⟨le_rfl, hAB.le⟩ hF.last hF.hi hAe
  -- the function, zero outside
  set f : ℝ → ℝ := Set.indicator (Set.Icc A B) v with hf
  have hfe : ∀ t ∈ Set.Icc A B, f t = v t := fun t ht => Set.indicator_of_mem ht _
  have hfi : ∀ a b, IntervalIntegrable f volume a b := by
    intro a b
    have : Integrable f volume := (integrable_indicator_iff measurableSet_Icc).mpr hv'.integrableOn
    exact this.intervalIntegrable
  -- oscillation on two panels
  set P : ι → ℕ → Set ℝ := fun k j => Set.Icc (A + j * s k) (min (A + (j + 2) * s k) (A + ((N k : ℝ) - 1) * s k)) with hP
  set ω : ι → ℕ → ℝ := fun k j => sSup {d | ∃ a ∈ P k j, ∃ b ∈ P k j, d = |f a - f b|} with hω
  have hfb : ∀ t, |f t| ≤ M := by
    intro t
    by_cases ht : t ∈ Set.Icc A B
    · rw [hfe t ht]; exact hM t ht
    · rw [hf, Set.indicator_of_notMem ht, abs_zero]; exact hM0
  have hbdd : ∀ k j, BddAbove {d | ∃ a ∈ P k j, ∃ b ∈ P k j, d = |f a - f b|} := by
    intro k j
    refine ⟨2 * M, ?_⟩
    rintro d ⟨a, -, b, -, rfl⟩
    exact (abs_sub _ _).trans (by linarith [hfb a, hfb b])
  have hωle : ∀ k j, ω k j ≤ 2 * M := by
    intro k j
    apply Real.sSup_le _ (by linarith)
    rintro d ⟨a, -, b, -, rfl⟩
    exact (abs_sub _ _).trans (by linarith [hfb a, hfb b])
  have hω0 : ∀ k j, 0 ≤ ω k j := by
    intro k j
    apply Real.sSup_nonneg
    rintro d ⟨a, -, b, -, rfl⟩
    exact abs_nonneg _
  -- as a step function
  set Ω : ι → ℝ → ℝ := fun k t => if t < A + ((N k - 1 : ℕ):ℝ) * s k then ω k ⌊(t - A) / s k⌋₊ else 0 with hΩ
  have hΩm : ∀ k, Measurable (Ω k) := by
    intro k
    refine Measurable.ite measurableSet_Iio ?_ measurable_const
    exact (measurable_from_nat (f := ω k)).comp ((Nat.measurable_floor (R := ℝ)).comp ((measurable_id.sub_const A).div_const (s k)))
  have hΩb : ∀ k t, |Ω k t| ≤ 2 * M := by
    intro k t
    simp only [hΩ]
    split_ifs
    · rw [abs_of_nonneg (hω0 _ _)]; exact hωle _ _
    · rw [abs_zero]; linarith
  have hΩi : ∀ k a b, IntervalIntegrable (Ω k) volume a b := by
    intro k a b
    refine (intervalIntegrable_const (c := 2 * M)).mono_fun (hΩm k).aestronglyMeasurable ?_
    refine Eventually.of_forall fun t => ?_
    beta_reduce
    rw [Real.norm_eq_abs, Real.norm_eq_abs, abs_of_nonneg (by linarith : 0 ≤ 2 * M)]
    exact hΩb k t
  have hsum : ∀ k, 0 < s k → ∀ m, m ≤ N k - 1 → ∫ t in A..(A + (m:ℝ) * s k), Ω k t = s k * ∑ j ∈ range m, ω k j := by
    intro k k1 m
    induction m with
    | zero => intro _; simp
    | succ m ih =>
      intro hm
      rw [← intervalIntegral.integral_add_adjacent_intervals (hΩi k A (A + (m:ℝ) * s k)) (hΩi k _ _), ih (by omega), sum_range_succ, mul_add]
      congr 1
      have hst : A + ((m + 1 : ℕ):ℝ) * s k = A + (m:ℝ) * s k + s k := by push_cast; ring
      have e : ∫ t in (A + (m:ℝ) * s k)..(A + ((m + 1 : ℕ):ℝ) * s k), Ω k t = ∫ t in (A + (m:ℝ) * s k)..(A + ((m + 1 : ℕ):ℝ) * s k), ω k m := by
        apply intervalIntegral.integral_congr_ae
        have hne : ∀ᵐ t : ℝ, t ≠ A + ((m + 1 : ℕ):ℝ) * s k := by
          have := not_mem_ae (Set.countable_singleton (A + ((m + 1 : ℕ):ℝ) * s k))
          simpa using this
        filter_upwards [hne] with t htn ht
        rw [Set.uIoc_of_le (by linarith)] at ht
        have htl := lt_of_le_of_ne ht.2 htn
        have hm1 : ((m + 1 : ℕ):ℝ) ≤ ((N k - 1 : ℕ):ℝ) := by exact_mod_cast hm
        simp only [hΩ]
        rw [if_pos (by nlinarith)]
        congr 1
        rw [Nat.floor_eq_iff (div_nonneg (by nlinarith [ht.1, Nat.cast_nonneg (α := ℝ) m]) k1.le)]
        rw [le_div_iff₀ k1, div_lt_iff₀ k1]
        push_cast at htl
        exact ⟨by linarith [ht.1], by linarith⟩
      rw [e, intervalIntegral.integral_const, hst, smul_eq_mul]
      ring
  have hosc : Tendsto (fun k => ∫ t in A..B, Ω k t) l (𝓝 0) := by
    have := intervalIntegral.tendsto_integral_filter_of_dominated_convergence (μ := volume) (a := A) (b := B) (l := l) (F := Ω) (f := fun _ => (0:ℝ))
      (fun _ => 2 * M) (Eventually.of_forall fun k => (hΩm k).aestronglyMeasurable)
      (Eventually.of_forall fun k => Eventually.of_forall fun t _ => by rw [Real.norm_eq_abs]; exact hΩb k t) intervalIntegrable_const (by
        filter_upwards [not_mem_ae hS] with t htS ht
        rw [Set.uIoc_of_le hAB.le] at ht
        have htI : t ∈ Set.Icc A B := ⟨ht.1.le, ht.2⟩
        have hcont := hS' t htI htS
        rw [Metric.tendsto_nhds]
        intro ε hε
        rw [Metric.continuousWithinAt_iff] at hcont
        obtain ⟨δ, hδ, hd⟩ := hcont (ε / 3) (by linarith)
        filter_upwards [hF.pos, hsmall, hF.lo, hF.hi, hF.zero.eventually_lt_const (show 0 < δ / 3 by linarith)] with k k1 k2 k3 k4 k5
        have hn := five_le k1 (by linarith) k3
        have hcast : ((N k - 1 : ℕ):ℝ) = (N k : ℝ) - 1 := by rw [Nat.cast_sub (by omega)]; simp
        rw [Real.dist_eq, sub_zero]
        simp only [hΩ]
        split_ifs with hte
        · rw [abs_of_nonneg (hω0 _ _)]
          refine lt_of_le_of_lt (b := 2 * (ε / 3)) ?_ (by linarith)
          apply Real.sSup_le _ (by linarith)
          have hx0 : 0 ≤ (t - A) / s k := div_nonneg (by linarith [ht.1]) k1.le
          have f1 := Nat.floor_le hx0
          have f2 := Nat.lt_floor_add_one ((t - A) / s k)
          rw [le_div_iff₀ k1] at f1
          rw [div_lt_iff₀ k1] at f2
          have near : ∀ a ∈ P k ⌊(t - A) / s k⌋₊, |f a - v t| ≤ ε / 3 := by
            intro a ha
            have ha1 := ha.1
            have ha2 := ha.2.trans (min_le_left _ _)
            have ha3 := ha.2.trans (min_le_right _ _)
            rw [← hcast] at ha3
            have haI : a ∈ Set.Icc A B := ⟨by nlinarith [Nat.cast_nonneg (α := ℝ) ⌊(t - A) / s k⌋₊], by linarith⟩
            rw [hfe a haI]
            have := hd haI (by rw [Real.dist_eq, abs_lt]; constructor <;> linarith)
            rw [Real.dist_eq] at this
            exact this.le
          rintro d ⟨a, ha, b, hb, rfl⟩
          have n1 := abs_le.mp (near a ha)
          have n2 := abs_le.mp (near b hb)
          rw [abs_le]
          constructor <;> linarith [n1.1, n1.2, n2.1, n2.2]
        · rw [abs_zero]; exact hε)
    simpa using this
  have hdiff : Tendsto (fun k => (Q (N k) (s k) fun i : ℕ => v (A + i * s k)) - ∫ t in A..(A + ((N k - 1 : ℕ):ℝ) * s k), v t) l (𝓝 0) := by
    have h2 : Tendsto (fun k => 2 * ∫ t in A..B, Ω k t) l (𝓝 0) := by simpa using hosc.const_mul 2
    refine squeeze_zero_norm' ?_ h2
    filter_upwards [hF.pos, hsmall, hF.lo, hF.hi] with k k1 k2 k3 k4
    have hn := five_le k1 (by linarith) k3
    have hcast : ((N k - 1 : ℕ):ℝ) = (N k : ℝ) - 1 := by rw [Nat.cast_sub (by omega)]; simp
    have hmem : ∀ i < N k, A + (i:ℝ) * s k ∈ Set.Icc A B := by
      intro i hi
      have h1 : (i:ℝ) ≤ ((N k - 1 : ℕ):ℝ) := by exact_mod_cast (by omega : i ≤ N k - 1)
      exact ⟨by nlinarith [Nat.cast_nonneg (α := ℝ) i], by nlinarith⟩
    have e1 := hQ.err f A (s k) (N k) (ω k) (by omega) k1 hfi (by
      intro j hj p hp q hq
      exact le_csSup (hbdd k j) ⟨p, hp, q, hq, rfl⟩)
    have e2 := hQ.diff (s k) 0 (N k) (fun i => v (A + i * s k)) (fun i => f (A + i * s k)) (by omega) k1 (by
      intro i hi
      rw [hfe _ (hmem i hi)]; simp)
    rw [mul_zero] at e2
    have e3 := sub_eq_zero.mp (abs_nonpos_iff.mp e2)
    have hle0 : 0 ≤ ((N k - 1 : ℕ):ℝ) * s k := by positivity
    have e4 : ∫ t in A..(A + ((N k - 1 : ℕ):ℝ) * s k), v t = ∫ t in A..(A + ((N k : ℝ) - 1) * s k), f t := by
      rw [hcast]
      apply intervalIntegral.integral_congr
      intro t ht
      rw [← hcast, Set.uIcc_of_le (by linarith)] at ht
      exact (hfe t ⟨ht.1, ht.2.trans k4⟩).symm
    rw [Real.norm_eq_abs, e3, e4]
    refine e1.trans ?_
    rw [mul_assoc, ← hsum k k1 (N k - 1) le_rfl]
    refine mul_le_mul_of_nonneg_left ?_ (by norm_num)
    rw [← intervalIntegral.integral_add_adjacent_intervals (hΩi k A (A + ((N k - 1 : ℕ):ℝ) * s k)) (hΩi k _ B)]
    have : 0 ≤ ∫ t in (A + ((N k - 1 : ℕ):ℝ) * s k)..B, Ω k t := by
      apply intervalIntegral.integral_nonneg k4
      intro t _
      simp only [hΩ]
      split_ifs
      · exact hω0 _ _
      · exact le_rfl
    linarith
  simpa using hdiff.add main

end Halomod
