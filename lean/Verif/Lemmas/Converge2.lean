import Verif.Lemmas.Converge
import Verif.Spec.Exclusion
import Mathlib.MeasureTheory.Integral.DominatedConvergence
import Mathlib.MeasureTheory.Function.JacobianOneDim
import Mathlib.Topology.UniformSpace.HeineCantor
import Mathlib.Topology.MetricSpace.ProperSpace

/-! # Single and double integrals on refined grids -/
namespace Halomod

open Finset MeasureTheory Filter Topology

theorem simpsonTrap_rule : RuleOk Spec.simpsonTrap where
  err := by
    intro f a h n ω hn hh hf hω
    rcases Nat.mod_two_eq_zero_or_one n with he | ho
    · have hnn : ∀ j < n - 1, 0 ≤ ω j := by
        intro j hj
        have hjm : (j:ℝ) + 1 ≤ n := by exact_mod_cast (by omega : j + 1 ≤ n)
        have := hω j (by omega) (a + j * h) ⟨le_rfl, le_min (by nlinarith) (by nlinarith)⟩ (a + j * h) ⟨le_rfl, le_min (by nlinarith) (by nlinarith)⟩
        simpa using this
      unfold Spec.simpsonTrap
      rw [if_neg (by omega)]
      obtain ⟨b, rfl⟩ : ∃ b, n = 2 * b + 2 := ⟨(n - 2) / 2, by omega⟩
      rw [show (2 * b + 2 - 2) / 2 = b by omega, show 2 * b + 2 - 1 = 2 * b + 1 by omega, show 2 * b + 2 - 2 = 2 * b by omega]
      have hc : ((2 * b + 2 : ℕ) : ℝ) - 1 = (2 * b + 1 : ℕ) := by push_cast; ring
      rw [hc] at hω ⊢
      have hB := basicSimpson_err f a h hh hf ω b (by
        intro i hi
        have w := hω (2 * i) (by omega)
        have hib : (i:ℝ) + 1 ≤ b := by exact_mod_cast hi
        rw [min_eq_left (by push_cast; nlinarith)] at w
        have e : a + (((2 * i : ℕ) : ℝ) + 2) * h = a + ((2 * i + 2 : ℕ) : ℝ) * h := by push_cast; ring
        rw [e] at w
        exact w)
      have hi : ∫ t in a..(a + ((2 * b + 1 : ℕ) : ℝ) * h), f t = (∫ t in a..(a + (2 * b : ℕ) * h), f t) + ∫ t in (a + (2 * b : ℕ) * h)..(a + ((2 * b + 1 : ℕ) : ℝ) * h), f t :=
        (intervalIntegral.integral_add_adjacent_intervals (hf _ _) (hf _ _)).symm
      have w := hω (2 * b) (by omega)
      rw [min_eq_right (by push_cast; nlinarith)] at w
      have hp := avg_err f (a + (2 * b : ℕ) * h) (a + (2 * b + 1 : ℕ) * h)
        ((f (a + (2 * b : ℕ) * h) + f (a + (2 * b + 1 : ℕ) * h)) / 2) (ω (2 * b))
        (by push_cast; nlinarith) (hf _ _) (by
          intro t ht
          have w1 := w (a + (2 * b : ℕ) * h) ⟨le_rfl, by push_cast; nlinarith⟩ t ht
          have w2 := w (a + (2 * b + 1 : ℕ) * h) ⟨by push_cast; nlinarith, le_rfl⟩ t ht
          rw [abs_le] at *
          constructor <;> linarith [w1.1, w1.2, w2.1, w2.2])
      have hlen : a + ((2 * b + 1 : ℕ) : ℝ) * h - (a + (2 * b : ℕ) * h) = h := by push_cast; ring
      rw [hlen] at hp
      rw [hi]
      have hsum : ∑ i ∈ range b, ω (2 * i) + ω (2 * b) ≤ ∑ j ∈ range (2 * b + 1), ω j := by
        rw [← sum_range_succ (fun i => ω (2 * i))]
        have hsub : (range (b + 1)).image (fun i => 2 * i) ⊆ range (2 * b + 1) := by
          intro j hj
          simp only [mem_image, mem_range] at hj ⊢
          rcases hj with ⟨i, hi, rfl⟩; omega
        have h1 := sum_le_sum_of_subset_of_nonneg hsub (f := ω) fun j hj _ => hnn j (by have := mem_range.mp hj; omega)
        rw [sum_image (by intro i _ j _ hij; simpa using hij)] at h1
        exact h1
      have hw := hnn (2 * b) (by omega)
      have hpos : 0 ≤ h * ω (2 * b) := mul_nonneg hh.le hw
      have hsum' := mul_le_mul_of_nonneg_left hsum hh.le
      rw [mul_add] at hsum'
      rw [abs_le] at *
      constructor <;> nlinarith [hp.1, hp.2, hB.1, hB.2]
    · have := simpson_rule.err f a h n ω hn hh hf hω
      unfold simpsonDx at this
      unfold Spec.simpsonTrap
      rw [if_neg (by omega)] at this
      rw [if_pos ho]
      exact this
  diff := by
    intro h η n y z hn hh hyz
    rcases Nat.mod_two_eq_zero_or_one n with he | ho
    · have hη : 0 ≤ η := (abs_nonneg _).trans (hyz 0 (by omega))
      unfold Spec.simpsonTrap
      rw [if_neg (by omega), if_neg (by omega)]
      obtain ⟨b, rfl⟩ : ∃ b, n = 2 * b + 2 := ⟨(n - 2) / 2, by omega⟩
      rw [show (2 * b + 2 - 2) / 2 = b by omega, show 2 * b + 2 - 1 = 2 * b + 1 by omega, show 2 * b + 2 - 2 = 2 * b by omega]
      have hB := basicSimpson_diff h η b y z hh fun i hi => hyz i (by omega)
      have e1 := hyz (2 * b) (by omega)
      have e2 := hyz (2 * b + 1) (by omega)
      push_cast at hB ⊢
      have hbη : 0 ≤ (b:ℝ) * h * η := by positivity
      have hhη := mul_nonneg hh.le hη
      rw [abs_le] at *
      constructor <;> nlinarith [hB.1, hB.2, e1.1, e1.2, e2.1, e2.2]
    · have := simpson_rule.diff h η n y z hn hh hyz
      unfold simpsonDx at this
      unfold Spec.simpsonTrap
      rw [if_neg (by omega), if_neg (by omega)] at this
      rw [if_pos ho, if_pos ho]
      exact this

/-- step of the grid with `n + 2` samples. -/
noncomputable def stp (a b : ℝ) (n : ℕ) : ℝ := (b - a) / ((n:ℝ) + 1)

/-- at most three panels contain a given point. -/
theorem card_panels (a h c : ℝ) (hh : 0 < h) (N : ℕ) :
    ((range N).filter fun j : ℕ => a + j * h ≤ c ∧ c ≤ a + (j + 2) * h).card ≤ 3 := by
  set x := (c - a) / h with hx
  have hsub : ((range N).filter fun j : ℕ => a + j * h ≤ c ∧ c ≤ a + (j + 2) * h) ⊆ Icc ⌈x - 2⌉₊ (⌈x - 2⌉₊ + 2) := by
    intro j hj
    rw [mem_filter] at hj
    obtain ⟨-, h1, h2⟩ := hj
    have e1 : (j:ℝ) ≤ x := by rw [hx, le_div_iff₀ hh]; linarith
    have e2 : x ≤ j + 2 := by rw [hx, div_le_iff₀ hh]; linarith
    rw [mem_Icc]
    constructor
    · rw [Nat.ceil_le]; linarith
    · have := Nat.le_ceil (x - 2)
      have : (j:ℝ) ≤ (⌈x - 2⌉₊ : ℝ) + 2 := by linarith
      exact_mod_cast this
  refine (card_le_card hsub).trans ?_
  rw [Nat.card_Icc]; omega

open Classical in
/-- error of a rule for a continuous function cut at a point. -/
theorem cut_err {Q : ℕ → ℝ → (ℕ → ℝ) → ℝ} (hQ : RuleOk Q) (g : ℝ → ℝ) (hg : Continuous g) (a b c : ℝ) (hab : a < b) (n : ℕ)
    (M ω : ℝ) (hM : ∀ t ∈ Set.Icc a b, |g t| ≤ M) (hω0 : 0 ≤ ω)
    (hω : ∀ s ∈ Set.Icc a b, ∀ t ∈ Set.Icc a b, |s - t| ≤ 2 * stp a b n → |g s - g t| ≤ ω) :
    |Q (n + 2) (stp a b n) (fun i => if a + i * stp a b n ≤ c then g (a + i * stp a b n) else 0) - ∫ t in a..b, if t ≤ c then g t else 0| ≤
      2 * (b - a) * ω + 6 * stp a b n * M := by
  set h := stp a b n with hhdef
  have hn1 : (0:ℝ) < (n:ℝ) + 1 := by positivity
  have hh : 0 < h := div_pos (by linarith) hn1
  have hbh : a + (((n + 2 : ℕ) : ℝ) - 1) * h = b := by
    rw [hhdef, stp]; push_cast; field_simp; ring
  have hM0 : 0 ≤ M := (abs_nonneg _).trans (hM a ⟨le_rfl, hab.le⟩)
  have hint : ∀ s t, IntervalIntegrable (fun t => if t ≤ c then g t else 0) volume s t := by
    intro s t
    have : (fun t => if t ≤ c then g t else 0) = Set.indicator (Set.Iic c) g := by
      funext t; simp [Set.indicator, Set.mem_Iic]
    rw [this, intervalIntegrable_iff]
    exact ((hg.intervalIntegrable s t).def').indicator measurableSet_Iic
  have key := hQ.err (fun t => if t ≤ c then g t else 0) a h (n + 2)
    (fun j => ω + if a + (j:ℝ) * h ≤ c ∧ c ≤ a + ((j:ℝ) + 2) * h then M else 0) (by omega) hh hint (by
      intro j hj s hs t ht
      rw [hbh] at hs ht
      have ha : a ≤ a + j * h := by nlinarith [Nat.cast_nonneg (α := ℝ) j]
      have hsI : s ∈ Set.Icc a b := ⟨ha.trans hs.1, hs.2.trans (min_le_right _ _)⟩
      have htI : t ∈ Set.Icc a b := ⟨ha.trans ht.1, ht.2.trans (min_le_right _ _)⟩
      have hs2 := hs.2.trans (min_le_left _ _)
      have ht2 := ht.2.trans (min_le_left _ _)
      have hst : |s - t| ≤ 2 * h := by
        rw [abs_le]; constructor <;> nlinarith [hs.1, ht.1]
      have hpn : 0 ≤ (if a + (j:ℝ) * h ≤ c ∧ c ≤ a + ((j:ℝ) + 2) * h then M else 0) := by split_ifs; exacts [hM0, le_rfl]
      by_cases h1 : s ≤ c <;> by_cases h2 : t ≤ c
      · simp only [h1, h2, if_true]
        linarith [hω s hsI t htI hst]
      · simp only [h1, h2, if_true, if_false, sub_zero]
        rw [if_pos ⟨hs.1.trans h1, (not_le.mp h2).le.trans ht2⟩]
        linarith [hM s hsI]
      · simp only [h1, h2, if_true, if_false, zero_sub, abs_neg]
        rw [if_pos ⟨ht.1.trans h2, (not_le.mp h1).le.trans hs2⟩]
        linarith [hM t htI]
      · simp only [h1, h2, if_false, sub_zero, abs_zero]
        linarith)
  rw [hbh] at key
  refine key.trans ?_
  simp only [show n + 2 - 1 = n + 1 by omega]
  rw [sum_add_distrib, sum_const, card_range, ← sum_filter, sum_const, nsmul_eq_mul, nsmul_eq_mul]
  have hc := card_panels a h c hh (n + 1)
  have hc' : (((range (n + 1)).filter fun j : ℕ => a + j * h ≤ c ∧ c ≤ a + (j + 2) * h).card : ℝ) ≤ 3 := by exact_mod_cast hc
  have e : h * ((n:ℝ) + 1) = b - a := by rw [hhdef, stp]; field_simp
  have e2 := mul_le_mul_of_nonneg_right hc' hM0
  push_cast
  nlinarith

theorem stp_tendsto (a b : ℝ) : Tendsto (fun n : ℕ => stp a b n) atTop (𝓝 0) := by
  unfold stp
  have h1 : Tendsto (fun n : ℕ => (n:ℝ) + 1) atTop atTop := tendsto_atTop_add_const_right _ _ tendsto_natCast_atTop_atTop
  exact Tendsto.div_atTop tendsto_const_nhds h1

/-- the data of an inner integral: a jointly continuous function, cut in the second variable. -/
structure CutOk (a b : ℝ) (g : ℝ → ℝ → ℝ) (p : ℝ → ℝ → Prop) : Prop where
  cont : Continuous fun x : ℝ × ℝ => g x.1 x.2
  cut : ∀ s ∈ Set.Icc a b, ∃ c, ∀ t ∈ Set.Icc a b, p s t ↔ t ≤ c

open Classical in
theorem inner_uniform {Q : ℕ → ℝ → (ℕ → ℝ) → ℝ} (hQ : RuleOk Q) {a b : ℝ} (hab : a < b) {g : ℝ → ℝ → ℝ} {p : ℝ → ℝ → Prop}
    (hc : CutOk a b g p) (ε : ℝ) (hε : 0 < ε) :
    ∀ᶠ n : ℕ in atTop, ∀ s ∈ Set.Icc a b,
      |Q (n + 2) (stp a b n) (fun i => if p s (a + i * stp a b n) then g s (a + i * stp a b n) else 0) -
        ∫ t in a..b, if p s t then g s t else 0| ≤ ε := by
  have hK : IsCompact (Set.Icc a b ×ˢ Set.Icc a b) := isCompact_Icc.prod isCompact_Icc
  obtain ⟨M, hM⟩ := hK.exists_bound_of_continuousOn hc.cont.continuousOn
  have huc := hK.uniformContinuousOn_of_continuous hc.cont.continuousOn
  rw [Metric.uniformContinuousOn_iff] at huc
  set ω := ε / (4 * (b - a)) with hωd
  have hba : 0 < b - a := by linarith
  have hω : 0 < ω := by positivity
  obtain ⟨δ, hδ, hu⟩ := huc ω hω
  have hM0 : 0 ≤ M := (norm_nonneg _).trans (hM (a, a) ⟨⟨le_rfl, hab.le⟩, ⟨le_rfl, hab.le⟩⟩)
  have h1 : ∀ᶠ n : ℕ in atTop, stp a b n < min (δ / 2) (ε / (12 * (M + 1))) :=
    (stp_tendsto a b).eventually_lt_const (by positivity)
  filter_upwards [h1] with n hn s hs
  have hn1 : (0:ℝ) < (n:ℝ) + 1 := by positivity
  have hh : 0 < stp a b n := div_pos (by linarith) hn1
  obtain ⟨c, hcs⟩ := hc.cut s hs
  have hmem : ∀ i < n + 2, a + (i:ℝ) * stp a b n ∈ Set.Icc a b := by
    intro i hi
    have hi' : (i:ℝ) ≤ (n:ℝ) + 1 := by exact_mod_cast (by omega : i ≤ n + 1)
    have e : stp a b n * ((n:ℝ) + 1) = b - a := by rw [stp]; field_simp
    constructor
    · nlinarith [Nat.cast_nonneg (α := ℝ) i]
    · nlinarith
  have e1 : ∫ t in a..b, (if p s t then g s t else 0) = ∫ t in a..b, if t ≤ c then g s t else 0 := by
    apply intervalIntegral.integral_congr
    intro t ht
    rw [Set.uIcc_of_le hab.le] at ht
    simp only [hcs t ht]
  have hcg : Continuous fun t => g s t := hc.cont.comp (Continuous.prodMk_right s)
  have key := cut_err hQ (fun t => g s t) hcg a b c hab n M ω (fun t ht => by simpa using hM (s, t) ⟨hs, ht⟩) hω.le (by
    intro u hu' t ht hd
    have := hu (s, u) ⟨hs, hu'⟩ (s, t) ⟨hs, ht⟩ (by
      rw [Prod.dist_eq]; simp only [dist_self, Real.dist_eq]
      rw [max_eq_right (abs_nonneg _)]
      have := hn.trans_le (min_le_left _ _)
      linarith)
    rw [Real.dist_eq] at this
    exact this.le)
  have e2 : |Q (n + 2) (stp a b n) (fun i => if p s (a + i * stp a b n) then g s (a + i * stp a b n) else 0) -
      Q (n + 2) (stp a b n) (fun i => if a + i * stp a b n ≤ c then g s (a + i * stp a b n) else 0)| ≤ 2 * (((n + 2 : ℕ) - 1) * stp a b n) * 0 := by
    apply hQ.diff _ _ _ _ _ (by omega) hh
    intro i hi
    simp only [hcs _ (hmem i hi), sub_self, abs_zero, le_refl]
  rw [mul_zero] at e2
  have e3 := sub_eq_zero.mp (abs_nonpos_iff.mp e2)
  rw [e1, e3]
  refine key.trans ?_
  have hsm := hn.trans_le (min_le_right _ _)
  have b1 : 2 * (b - a) * ω = ε / 2 := by rw [hωd]; field_simp; ring
  have b2 : 6 * stp a b n * M ≤ ε / 2 := by
    have : stp a b n * (12 * (M + 1)) < ε := by rwa [lt_div_iff₀ (by positivity)] at hsm
    nlinarith
  linarith

/-- a rule converges for continuous functions. -/
theorem rule_tendsto {Q : ℕ → ℝ → (ℕ → ℝ) → ℝ} (hQ : RuleOk Q) {a b : ℝ} (hab : a < b) {f : ℝ → ℝ} (hf : ContinuousOn f (Set.Icc a b)) :
    Tendsto (fun n : ℕ => Q (n + 2) (stp a b n) fun i => f (a + i * stp a b n)) atTop (𝓝 (∫ t in a..b, f t)) := by
  classical
  set f' : ℝ → ℝ := Set.IccExtend hab.le (Set.domRestrict (Set.Icc a b) f) with hf'
  have hf'c : Continuous f' := (continuousOn_iff_continuous_domRestrict.mp hf).Icc_extend'
  have hff : ∀ t ∈ Set.Icc a b, f' t = f t := fun t ht => by rw [hf', Set.IccExtend_of_mem _ _ ht]; rfl
  rw [Metric.tendsto_atTop']
  intro ε hε
  have := inner_uniform hQ hab (g := fun _ t => f' t) (p := fun _ _ => True) ⟨hf'c.comp continuous_snd, fun s _ => ⟨b, fun t ht => ⟨fun _ => ht.2, fun _ => trivial⟩⟩⟩ (ε / 2) (by linarith)
  obtain ⟨N, hN⟩ := eventually_atTop.mp this
  refine ⟨N, fun n hn => ?_⟩
  have h1 := hN n hn.le a ⟨le_rfl, hab.le⟩
  simp only [if_true] at h1
  have hn1 : (0:ℝ) < (n:ℝ) + 1 := by positivity
  have hh : 0 < stp a b n := div_pos (by linarith) hn1
  have e2 := hQ.diff (stp a b n) 0 (n + 2) (fun i => f (a + i * stp a b n)) (fun i => f' (a + i * stp a b n)) (by omega) hh (by
    intro i hi
    rw [hff _ ?_]
    · simp
    have hi' : (i:ℝ) ≤ (n:ℝ) + 1 := by exact_mod_cast (by omega : i ≤ n + 1)
    have e : stp a b n * ((n:ℝ) + 1) = b - a := by rw [stp]; field_simp
    constructor
    · nlinarith [Nat.cast_nonneg (α := ℝ) i]
    · nlinarith)
  rw [mul_zero] at e2
  have e3 := sub_eq_zero.mp (abs_nonpos_iff.mp e2)
  have e4 : ∫ t in a..b, f t = ∫ t in a..b, f' t := by
    apply intervalIntegral.integral_congr
    intro t ht
    rw [Set.uIcc_of_le hab.le] at ht
    exact (hff t ht).symm
  rw [Real.dist_eq, e3, e4]
  linarith

open Classical in
/-- a rule applied twice converges to the double integral. -/
theorem double_tendsto {Q : ℕ → ℝ → (ℕ → ℝ) → ℝ} (hQ : RuleOk Q) {a b : ℝ} (hab : a < b) {g : ℝ → ℝ → ℝ} {p : ℝ → ℝ → Prop}
    (hc : CutOk a b g p) (hF : ContinuousOn (fun s => ∫ t in a..b, if p s t then g s t else 0) (Set.Icc a b)) :
    Tendsto (fun n : ℕ => Q (n + 2) (stp a b n) fun i => Q (n + 2) (stp a b n) fun j =>
      if p (a + i * stp a b n) (a + j * stp a b n) then g (a + i * stp a b n) (a + j * stp a b n) else 0) atTop
      (𝓝 (∫ s in a..b, ∫ t in a..b, if p s t then g s t else 0)) := by
  have h1 := rule_tendsto hQ hab hF
  have h2 : Tendsto (fun n : ℕ => (Q (n + 2) (stp a b n) fun i => Q (n + 2) (stp a b n) fun j =>
      if p (a + i * stp a b n) (a + j * stp a b n) then g (a + i * stp a b n) (a + j * stp a b n) else 0) -
      Q (n + 2) (stp a b n) fun i => ∫ t in a..b, if p (a + i * stp a b n) t then g (a + i * stp a b n) t else 0) atTop (𝓝 0) := by
    rw [Metric.tendsto_atTop']
    intro ε hε
    have hba : 0 < b - a := by linarith
    obtain ⟨N, hN⟩ := eventually_atTop.mp (inner_uniform hQ hab hc (ε / (4 * (b - a))) (by positivity))
    refine ⟨N, fun n hn => ?_⟩
    have hn1 : (0:ℝ) < (n:ℝ) + 1 := by positivity
    have hh : 0 < stp a b n := div_pos (by linarith) hn1
    have e : stp a b n * ((n:ℝ) + 1) = b - a := by rw [stp]; field_simp
    rw [Real.dist_eq, sub_zero]
    have := hQ.diff (stp a b n) (ε / (4 * (b - a))) (n + 2) _ _ (by omega) hh (fun i hi => hN n hn.le (a + i * stp a b n) (by
      have hi' : (i:ℝ) ≤ (n:ℝ) + 1 := by exact_mod_cast (by omega : i ≤ n + 1)
      constructor
      · nlinarith [Nat.cast_nonneg (α := ℝ) i]
      · nlinarith))
    refine lt_of_le_of_lt this ?_
    have e2 : (((n + 2 : ℕ) : ℝ) - 1) * stp a b n = b - a := by push_cast; linarith
    rw [e2]
    have : 2 * (b - a) * (ε / (4 * (b - a))) = ε / 2 := by field_simp; ring
    linarith
  have h3 := h2.add h1
  simp only [sub_add_cancel, zero_add] at h3
  exact h3

/-- change of variable to the logarithm, for any integrand. -/
theorem log_subst (φ : ℝ → ℝ) {A B : ℝ} (hA : 0 < A) (hAB : A ≤ B) :
    ∫ t in Real.log A..Real.log B, φ (Real.exp t) * Real.exp t = ∫ m in A..B, φ m := by
  have hB : 0 < B := hA.trans_le hAB
  rw [intervalIntegral.integral_of_le hAB, intervalIntegral.integral_of_le (Real.log_le_log hA hAB)]
  have him : Real.exp '' Set.Ioc (Real.log A) (Real.log B) = Set.Ioc A B := by
    ext m
    constructor
    · rintro ⟨t, ht, rfl⟩
      exact ⟨(Real.log_lt_iff_lt_exp hA).mp ht.1, (Real.le_log_iff_exp_le hB).mp ht.2⟩
    · intro hm
      have hm0 : 0 < m := hA.trans hm.1
      exact ⟨Real.log m, ⟨Real.log_lt_log hA hm.1, Real.log_le_log hm0 hm.2⟩, Real.exp_log hm0⟩
  rw [← him, integral_image_eq_integral_abs_deriv_smul measurableSet_Ioc (fun x _ => (Real.hasDerivAt_exp x).hasDerivWithinAt) Real.exp_injective.injOn]
  apply setIntegral_congr_fun measurableSet_Ioc
  intro t _
  simp only [smul_eq_mul, abs_of_pos (Real.exp_pos t)]
  ring

open Classical in
/-- the inner integral over pairs whose radii add up to at most `r` depends continuously on the first halo. -/
theorem cut_continuous (a b r : ℝ) (hab : a < b) (R : ℝ → ℝ) (hR : Continuous R) (hmono : StrictMono R) (g : ℝ → ℝ → ℝ)
    (hg : Continuous fun x : ℝ × ℝ => g x.1 x.2) :
    Continuous fun s => ∫ t in a..b, if R s + R t ≤ r then g s t else 0 := by
  rw [continuous_iff_continuousAt]
  intro s0
  have hK : IsCompact (Set.Icc (s0 - 1) (s0 + 1) ×ˢ Set.Icc a b) := isCompact_Icc.prod isCompact_Icc
  obtain ⟨M, hM⟩ := hK.exists_bound_of_continuousOn hg.continuousOn
  have hnear : ∀ᶠ s in 𝓝 s0, s ∈ Set.Icc (s0 - 1) (s0 + 1) := Icc_mem_nhds (by linarith) (by linarith)
  have hM0 : 0 ≤ M := (norm_nonneg _).trans (hM (s0, a) ⟨⟨by linarith, by linarith⟩, ⟨le_rfl, hab.le⟩⟩)
  apply intervalIntegral.continuousAt_of_dominated_interval (bound := fun _ => M)
  · filter_upwards with s
    apply Measurable.aestronglyMeasurable
    have hc : Continuous fun t => g s t := hg.comp (Continuous.prodMk_right s)
    apply Measurable.ite _ hc.measurable measurable_const
    exact measurableSet_le (continuous_const.add hR).measurable measurable_const
  · filter_upwards [hnear] with s hs
    filter_upwards with t ht
    rw [Set.uIoc_of_le hab.le] at ht
    split_ifs
    · exact hM (s, t) ⟨hs, ⟨ht.1.le, ht.2⟩⟩
    · simpa using hM0
  · exact intervalIntegrable_const
  · have hsub : {t : ℝ | R s0 + R t = r}.Subsingleton := by
      intro t ht t' ht'
      apply hmono.injective
      simp only [Set.mem_ofPred_eq] at ht ht'
      linarith
    have hz : volume {t : ℝ | R s0 + R t = r} = 0 := hsub.measure_zero _
    have hae : ∀ᵐ t : ℝ, ¬ (R s0 + R t = r) := by
      rw [ae_iff]; simpa using hz
    filter_upwards [hae] with t ht _
    have hgc : ContinuousAt (fun s => g s t) s0 := (hg.comp (Continuous.prodMk_left t)).continuousAt
    rcases lt_or_gt_of_ne ht with hlt | hgt
    · have : ∀ᶠ s in 𝓝 s0, R s + R t < r := (hR.continuousAt.add continuousAt_const).eventually_lt continuousAt_const hlt
      apply hgc.congr
      filter_upwards [this] with s hs
      rw [if_pos hs.le]
    · have : ∀ᶠ s in 𝓝 s0, r < R s + R t := continuousAt_const.eventually_lt (hR.continuousAt.add continuousAt_const) hgt
      apply (continuousAt_const (y := (0:ℝ))).congr
      filter_upwards [this] with s hs
      rw [if_neg (not_le.mpr hs)]

end Halomod
