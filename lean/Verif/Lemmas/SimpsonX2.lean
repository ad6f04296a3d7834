import Verif.Lemmas.SimpsonX
import Verif.Lemmas.Converge2
import Mathlib.MeasureTheory.Integral.IntervalIntegral.FundThmCalculus

/-!
# Simpson's rule on the image of a refined uniform grid converges
-/
namespace Halomod

open Finset MeasureTheory Filter Topology

/-- a change of variables with continuous positive derivative on `[a, b]`. -/
structure Change (a b : ℝ) (φ φ' : ℝ → ℝ) : Prop where
  der : ∀ t ∈ Set.Icc a b, HasDerivAt φ (φ' t) t
  cont : ContinuousOn φ' (Set.Icc a b)
  pos : ∀ t ∈ Set.Icc a b, 0 < φ' t

variable {a b : ℝ} {φ φ' : ℝ → ℝ}

theorem Change.ftc (h : Change a b φ φ') {s t : ℝ} (hs : s ∈ Set.Icc a b) (ht : t ∈ Set.Icc a b) (hst : s ≤ t) :
    IntervalIntegrable φ' volume s t ∧ ∫ u in s..t, φ' u = φ t - φ s := by
  have hsub : Set.uIcc s t ⊆ Set.Icc a b := by
    rw [Set.uIcc_of_le hst]; exact Set.Icc_subset_Icc hs.1 ht.2
  have hi : IntervalIntegrable φ' volume s t := (h.cont.mono hsub).intervalIntegrable
  exact ⟨hi, intervalIntegral.integral_eq_sub_of_hasDerivAt (fun u hu => h.der u (hsub hu)) hi⟩

theorem uc_step {f : ℝ → ℝ} (hf : ContinuousOn f (Set.Icc a b)) {ε : ℝ} (hε : 0 < ε) :
    ∀ᶠ n : ℕ in atTop, ∀ s ∈ Set.Icc a b, ∀ t ∈ Set.Icc a b, |s - t| ≤ 2 * stp a b n → |f s - f t| ≤ ε := by
  have huc := isCompact_Icc.uniformContinuousOn_of_continuous hf
  rw [Metric.uniformContinuousOn_iff] at huc
  obtain ⟨δ, hδ, h⟩ := huc ε hε
  have hlim : Tendsto (fun n : ℕ => 2 * stp a b n) atTop (𝓝 0) := by
    have h1 : Tendsto (fun n : ℕ => (b - a) / ((n:ℝ) + 1)) atTop (𝓝 0) :=
      Tendsto.div_atTop tendsto_const_nhds (tendsto_atTop_add_const_right _ _ tendsto_natCast_atTop_atTop)
    have := h1.const_mul 2
    simpa [stp] using this
  filter_upwards [hlim.eventually (gt_mem_nhds hδ)] with n hn s hs t ht hst
  have := h s hs t ht (by rw [Real.dist_eq]; linarith)
  rw [Real.dist_eq] at this
  exact this.le

theorem gmem (hab : a < b) (n i : ℕ) (hi : i < n + 2) : a + (i:ℝ) * stp a b n ∈ Set.Icc a b := by
  have hn1 : (0:ℝ) < (n:ℝ) + 1 := by positivity
  have hh : 0 < stp a b n := div_pos (by linarith) hn1
  have hi' : (i:ℝ) ≤ (n:ℝ) + 1 := by exact_mod_cast (by omega : i ≤ n + 1)
  have e : stp a b n * ((n:ℝ) + 1) = b - a := by rw [stp]; field_simp
  constructor
  · nlinarith [Nat.cast_nonneg (α := ℝ) i]
  · nlinarith

theorem gpos (hab : a < b) (n : ℕ) : 0 < stp a b n := div_pos (by linarith) (by positivity)

theorem glast (n : ℕ) : a + ((n + 1 : ℕ) : ℝ) * stp a b n = b := by
  have hn1 : (0:ℝ) < (n:ℝ) + 1 := by positivity
  rw [stp]; push_cast; field_simp; ring

/-- the image of a fine grid is graded. -/
theorem Change.graded (h : Change a b φ φ') (hab : a < b) :
    ∀ᶠ n : ℕ in atTop, Graded (n + 2) (fun i => φ (a + i * stp a b n)) := by
  obtain ⟨t₀, ht₀, hmin⟩ := isCompact_Icc.exists_isMinOn (Set.nonempty_Icc.2 hab.le) h.cont
  have hm : 0 < φ' t₀ := h.pos t₀ ht₀
  have hmin' : ∀ t ∈ Set.Icc a b, φ' t₀ ≤ φ' t := fun t ht => hmin ht
  filter_upwards [uc_step h.cont (ε := φ' t₀ / 3) (by linarith)] with n hn
  have hp := gpos hab n
  have step : ∀ i k, i + 1 < n + 2 → k < n + 2 → (k = i ∨ k = i + 1 ∨ k + 1 = i) →
      |stp a b n * φ' (a + k * stp a b n) - (φ (a + ((i + 1 : ℕ) : ℝ) * stp a b n) - φ (a + i * stp a b n))| ≤
        stp a b n * (φ' t₀ / 3) := by
    intro i k hi hk hik
    have m0 := gmem hab n i (by omega)
    have m1 := gmem hab n (i + 1) hi
    have hle : a + (i:ℝ) * stp a b n ≤ a + ((i + 1 : ℕ) : ℝ) * stp a b n := by push_cast; nlinarith
    obtain ⟨hint, hftc⟩ := h.ftc m0 m1 hle
    have := avg_err φ' _ _ (φ' (a + k * stp a b n)) (φ' t₀ / 3) hle hint (by
      intro t ht
      refine hn _ (gmem hab n k hk) t ⟨m0.1.trans ht.1, ht.2.trans m1.2⟩ ?_
      have h1 := ht.1
      have h2 := ht.2
      push_cast at h2
      rw [abs_le]
      rcases hik with rfl | rfl | rfl
      · constructor <;> nlinarith
      · push_cast; constructor <;> nlinarith
      · push_cast at h1 h2; constructor <;> nlinarith)
    rw [hftc] at this
    have e : a + ((i + 1 : ℕ) : ℝ) * stp a b n - (a + i * stp a b n) = stp a b n := by push_cast; ring
    rwa [e] at this
  constructor
  · intro i hi
    have := step i i hi (by omega) (.inl rfl)
    have hv := hmin' _ (gmem hab n i (by omega))
    rw [abs_le] at this
    nlinarith [this.1, this.2]
  · intro i hi
    have s1 := step (i + 1) (i + 1) (by omega) (by omega) (.inl rfl)
    have s0 := step i (i + 1) (by omega) (by omega) (.inr (.inl rfl))
    have hv := hmin' _ (gmem hab n (i + 1) (by omega))
    simp only [show i + 1 + 1 = i + 2 from rfl] at s1
    rw [abs_le] at s0 s1
    nlinarith [s0.1, s0.2, s1.1, s1.2]
  · intro i hi
    have s1 := step (i + 1) (i + 1) (by omega) (by omega) (.inl rfl)
    have s0 := step i (i + 1) (by omega) (by omega) (.inr (.inl rfl))
    have hv := hmin' _ (gmem hab n (i + 1) (by omega))
    simp only [show i + 1 + 1 = i + 2 from rfl] at s1
    rw [abs_le] at s0 s1
    nlinarith [s0.1, s0.2, s1.1, s1.2]

/-- convergence, uniformly in a parameter. -/
theorem Change.tendsto_unif (h : Change a b φ φ') (hab : a < b) {c d : ℝ} {H : ℝ → ℝ → ℝ}
    (hH : ContinuousOn (Function.uncurry H) (Set.Icc c d ×ˢ Set.Icc a b)) {ε : ℝ} (hε : 0 < ε) :
    ∀ᶠ n : ℕ in atTop, ∀ p ∈ Set.Icc c d,
      |simpsonX (n + 2) (fun i => φ (a + i * stp a b n)) (fun i => H p (a + i * stp a b n)) - ∫ t in a..b, H p t * φ' t| ≤ ε := by
  have hfab : φ a ≤ φ b := by
    have h1 := h.ftc (Set.left_mem_Icc.2 hab.le) (Set.right_mem_Icc.2 hab.le) hab.le
    have : 0 ≤ ∫ u in a..b, φ' u := intervalIntegral.integral_nonneg hab.le fun t ht => (h.pos t ht).le
    linarith [h1.2]
  set L := φ b - φ a + 1 with hL
  have hLpos : 0 < L := by linarith
  have huc := (isCompact_Icc.prod isCompact_Icc).uniformContinuousOn_of_continuous hH
  rw [Metric.uniformContinuousOn_iff] at huc
  obtain ⟨δ, hδ, hu⟩ := huc (ε / (3 * L)) (by positivity)
  have hlim : Tendsto (fun n : ℕ => 3 * stp a b n) atTop (𝓝 0) := by
    have h1 : Tendsto (fun n : ℕ => (b - a) / ((n:ℝ) + 1)) atTop (𝓝 0) :=
      Tendsto.div_atTop tendsto_const_nhds (tendsto_atTop_add_const_right _ _ tendsto_natCast_atTop_atTop)
    have := h1.const_mul 3
    simpa [stp] using this
  filter_upwards [h.graded hab, hlim.eventually (gt_mem_nhds hδ)] with n hg hn p hp
  have hs := gpos hab n
  have hsub : ∀ s t, s ∈ Set.Icc a b → t ∈ Set.Icc a b → Set.uIcc s t ⊆ Set.Icc a b := fun s t hs ht => by
    rcases le_total s t with hst | hst
    · rw [Set.uIcc_of_le hst]; exact Set.Icc_subset_Icc hs.1 ht.2
    · rw [Set.uIcc_of_ge hst]; exact Set.Icc_subset_Icc ht.1 hs.2
  have hHp : ContinuousOn (fun t => H p t * φ' t) (Set.Icc a b) := by
    refine ContinuousOn.mul ?_ h.cont
    have : ContinuousOn (fun t => Function.uncurry H (p, t)) (Set.Icc a b) :=
      hH.comp (by fun_prop) fun t ht => ⟨hp, ht⟩
    exact this
  have hint : ∀ s t, s ∈ Set.Icc a b → t ∈ Set.Icc a b → IntervalIntegrable (fun t => H p t * φ' t) volume s t :=
    fun s t hs ht => (hHp.mono (hsub s t hs ht)).intervalIntegrable
  have key := simpsonX_err (y := fun i => H p (a + i * stp a b n)) (by omega) hg
    (I := fun j => ∫ t in (a + (j:ℝ) * stp a b n)..(a + ((j + 1 : ℕ) : ℝ) * stp a b n), H p t * φ' t) (ω := ε / (3 * L)) (by
      intro j k hj hk hkj hjk
      have m0 := gmem hab n j (by omega)
      have m1 := gmem hab n (j + 1) hj
      have mk := gmem hab n k hk
      have hle : a + (j:ℝ) * stp a b n ≤ a + ((j + 1 : ℕ) : ℝ) * stp a b n := by push_cast; nlinarith
      obtain ⟨hi, hftc⟩ := h.ftc m0 m1 hle
      rw [← hftc, ← intervalIntegral.integral_mul_const, ← intervalIntegral.integral_mul_const,
        ← intervalIntegral.integral_sub (hint _ _ m0 m1) (hi.mul_const _), ← Real.norm_eq_abs]
      refine intervalIntegral.norm_integral_le_of_norm_le hle ?_ (hi.mul_const _)
      refine Filter.Eventually.of_forall fun t ht => ?_
      have ht' : t ∈ Set.Icc a b := ⟨m0.1.trans ht.1.le, ht.2.trans m1.2⟩
      have hpos := h.pos t ht'
      have hd : dist (p, t) (p, a + (k:ℝ) * stp a b n) < δ := by
        rw [Prod.dist_eq, dist_self, max_eq_right dist_nonneg, Real.dist_eq]
        refine lt_of_le_of_lt ?_ hn
        have h1 := ht.1
        have h2 := ht.2
        have k1 : (k:ℝ) ≤ j + 2 := by exact_mod_cast hkj
        have k2 : (j:ℝ) ≤ k + 1 := by exact_mod_cast hjk
        push_cast at h2
        rw [abs_le]
        constructor <;> nlinarith
      have hb := (hu (p, t) ⟨hp, ht'⟩ (p, a + (k:ℝ) * stp a b n) ⟨hp, mk⟩ hd).le
      rw [Real.dist_eq] at hb
      simp only [Function.uncurry] at hb
      rw [Real.norm_eq_abs, show H p t * φ' t - φ' t * H p (a + (k:ℝ) * stp a b n) = φ' t * (H p t - H p (a + (k:ℝ) * stp a b n)) by ring,
        abs_mul, abs_of_pos hpos]
      exact mul_le_mul_of_nonneg_left hb hpos.le)
  have hsum : ∑ j ∈ range (n + 2 - 1), (∫ t in (a + (j:ℝ) * stp a b n)..(a + ((j + 1 : ℕ) : ℝ) * stp a b n), H p t * φ' t) =
      ∫ t in a..b, H p t * φ' t := by
    have := intervalIntegral.sum_integral_adjacent_intervals (f := fun t => H p t * φ' t) (μ := volume)
      (a := fun j : ℕ => a + (j:ℝ) * stp a b n) (n := n + 1) (fun k hk => hint _ _ (gmem hab n k (by omega)) (gmem hab n (k + 1) (by omega)))
    simp only [Nat.cast_zero, zero_mul, add_zero] at this
    rw [glast] at this
    exact this
  rw [hsum] at key
  refine key.trans ?_
  simp only [show n + 2 - 1 = n + 1 by omega, glast, Nat.cast_zero, zero_mul, add_zero]
  have : 3 * ((φ b - φ a) * (ε / (3 * L))) = ε * ((φ b - φ a) / L) := by field_simp
  rw [this]
  have h1 : (φ b - φ a) / L ≤ 1 := by rw [div_le_one hLpos]; linarith
  nlinarith

/-- Simpson's rule on the image of finer and finer grids converges to the integral. -/
theorem Change.tendsto (h : Change a b φ φ') (hab : a < b) {G : ℝ → ℝ} (hG : ContinuousOn G (Set.Icc a b)) :
    Tendsto (fun n : ℕ => simpsonX (n + 2) (fun i => φ (a + i * stp a b n)) (fun i => G (a + i * stp a b n))) atTop
      (𝓝 (∫ t in a..b, G t * φ' t)) := by
  rw [Metric.tendsto_atTop']
  intro ε hε
  have hH : ContinuousOn (Function.uncurry fun _ t => G t) (Set.Icc (0:ℝ) 0 ×ˢ Set.Icc a b) :=
    hG.comp continuous_snd.continuousOn fun p hp => hp.2
  obtain ⟨N, hN⟩ := eventually_atTop.mp (h.tendsto_unif hab hH (ε := ε / 2) (by linarith))
  refine ⟨N, fun n hn => ?_⟩
  rw [Real.dist_eq]
  have := hN n hn.le 0 (by simp)
  linarith

end Halomod
