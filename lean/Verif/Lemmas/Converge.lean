import Verif.Prelude.Quad
import Mathlib.MeasureTheory.Integral.IntervalIntegral.Basic
import Mathlib.Tactic

/-!
# Convergence of the quadrature rules on refined uniform grids
-/
namespace Halomod

open Finset MeasureTheory

/-- A quadrature rule on uniform grids whose error is bounded by the oscillation of the function on two consecutive
intervals, and which is stable. -/
structure RuleOk (Q : ℕ → ℝ → (ℕ → ℝ) → ℝ) : Prop where
  err : ∀ (f : ℝ → ℝ) (a h : ℝ) (n : ℕ) (ω : ℕ → ℝ), 2 ≤ n → 0 < h →
    (∀ s t, IntervalIntegrable f volume s t) →
    (∀ j, j + 1 < n → ∀ s ∈ Set.Icc (a + j * h) (min (a + (j + 2) * h) (a + (n - 1) * h)),
      ∀ t ∈ Set.Icc (a + j * h) (min (a + (j + 2) * h) (a + (n - 1) * h)), |f s - f t| ≤ ω j) →
    |Q n h (fun i => f (a + i * h)) - ∫ t in a..(a + (n - 1) * h), f t| ≤ 2 * h * ∑ j ∈ range (n - 1), ω j
  diff : ∀ (h η : ℝ) (n : ℕ) (y z : ℕ → ℝ), 2 ≤ n → 0 < h → (∀ i < n, |y i - z i| ≤ η) →
    |Q n h y - Q n h z| ≤ 2 * ((n - 1) * h) * η

/-- average minus integral on an interval. -/
theorem avg_err (f : ℝ → ℝ) (p q A ε : ℝ) (hpq : p ≤ q) (hf : IntervalIntegrable f volume p q)
    (h : ∀ t ∈ Set.Icc p q, |A - f t| ≤ ε) : |(q - p) * A - ∫ t in p..q, f t| ≤ (q - p) * ε := by
  have e : (q - p) * A - ∫ t in p..q, f t = ∫ t in p..q, (A - f t) := by
    rw [intervalIntegral.integral_sub intervalIntegrable_const hf, intervalIntegral.integral_const]
    simp
  rw [e, ← Real.norm_eq_abs]
  have := intervalIntegral.norm_integral_le_of_norm_le_const (a := p) (b := q) (C := ε) (f := fun t => A - f t) (by
    intro t ht
    rw [Set.uIoc_of_le hpq] at ht
    exact h t ⟨ht.1.le, ht.2⟩)
  rw [abs_of_nonneg (by linarith)] at this
  linarith

section trapz

theorem trapz_rule : RuleOk trapzDx where
  err := by
    intro f a h n ω hn hh hf hω
    obtain ⟨m, rfl⟩ : ∃ m, n = m + 1 := ⟨n - 1, by omega⟩
    have hc : ((m + 1 : ℕ) : ℝ) - 1 = m := by push_cast; ring
    rw [hc] at hω ⊢
    simp only [Nat.add_sub_cancel]
    have hnn : ∀ j < m, 0 ≤ ω j := by
      intro j hj
      have hjm : (j:ℝ) ≤ m := by exact_mod_cast hj.le
      have := hω j (by omega) (a + j * h) ⟨le_rfl, le_min (by nlinarith) (by nlinarith)⟩ (a + j * h) ⟨le_rfl, le_min (by nlinarith) (by nlinarith)⟩
      simpa using this
    have key : ∀ k ≤ m, |∑ i ∈ range k, h * (f (a + (i:ℕ) * h) + f (a + ((i + 1 : ℕ)) * h)) / 2 - ∫ t in a..(a + k * h), f t| ≤ 2 * h * ∑ j ∈ range k, ω j := by
      intro k
      induction k with
      | zero => intro _; simp
      | succ k ih =>
        intro hk
        have ih' := ih (by omega)
        have hkm : (k:ℝ) + 1 ≤ m := by exact_mod_cast hk
        have hi : ∫ t in a..(a + ((k + 1 : ℕ) : ℝ) * h), f t = (∫ t in a..(a + k * h), f t) + ∫ t in (a + k * h)..(a + ((k + 1 : ℕ) : ℝ) * h), f t :=
          (intervalIntegral.integral_add_adjacent_intervals (hf _ _) (hf _ _)).symm
        rw [sum_range_succ, sum_range_succ, hi]
        have hp := avg_err f (a + k * h) (a + ((k + 1 : ℕ) : ℝ) * h) ((f (a + k * h) + f (a + ((k + 1 : ℕ) : ℝ) * h)) / 2) (ω k)
          (by push_cast; nlinarith) (hf _ _) (by
            intro t ht
            have hmem : ∀ u ∈ Set.Icc (a + k * h) (a + ((k + 1 : ℕ) : ℝ) * h), u ∈ Set.Icc (a + k * h) (min (a + (k + 2) * h) (a + m * h)) := by
              intro u hu
              refine ⟨hu.1, le_min (hu.2.trans ?_) (hu.2.trans ?_)⟩
              · push_cast; nlinarith
              · push_cast; nlinarith
            have e1 := hω k (by omega) (a + k * h) (hmem _ ⟨le_rfl, by push_cast; nlinarith⟩) t (hmem _ ht)
            have e2 := hω k (by omega) (a + ((k + 1 : ℕ) : ℝ) * h) (hmem _ ⟨by push_cast; nlinarith, le_rfl⟩) t (hmem _ ht)
            rw [abs_le] at *
            constructor <;> linarith [e1.1, e1.2, e2.1, e2.2])
        have hlen : a + ((k + 1 : ℕ) : ℝ) * h - (a + k * h) = h := by push_cast; ring
        rw [hlen] at hp
        have hw := hnn k (by omega)
        rw [abs_le] at *
        have hpos : 0 ≤ h * ω k := mul_nonneg hh.le hw
        have := sum_nonneg (s := range k) (f := ω) fun j hj => hnn j (by have := mem_range.mp hj; omega)
        constructor <;> nlinarith [ih'.1, ih'.2, hp.1, hp.2]
    have := key m le_rfl
    unfold trapzDx
    simpa using this
  diff := by
    intro h η n y z hn hh hyz
    unfold trapzDx
    rw [← sum_sub_distrib]
    refine (abs_sum_le_sum_abs _ _).trans ?_
    have : ∀ i ∈ range (n - 1), |h * (y i + y (i + 1)) / 2 - h * (z i + z (i + 1)) / 2| ≤ h * η := by
      intro i hi
      have hi' := mem_range.mp hi
      have e1 := hyz i (by omega)
      have e2 := hyz (i + 1) (by omega)
      rw [abs_le] at *
      constructor <;> nlinarith [e1.1, e1.2, e2.1, e2.2]
    refine (sum_le_card_nsmul _ _ _ this).trans ?_
    simp only [card_range, nsmul_eq_mul]
    have hη : 0 ≤ η := (abs_nonneg _).trans (hyz 0 (by omega))
    rw [Nat.cast_sub (by omega)]
    have h1 : (1:ℝ) ≤ n := by exact_mod_cast (by omega : 1 ≤ n)
    push_cast
    nlinarith [mul_nonneg (mul_nonneg (sub_nonneg.mpr h1) hh.le) hη]

end trapz

section simpson

theorem basicSimpson_err (f : ℝ → ℝ) (a h : ℝ) (hh : 0 < h) (hf : ∀ s t, IntervalIntegrable f volume s t) (ω : ℕ → ℝ) (b : ℕ)
    (hω : ∀ i < b, ∀ s ∈ Set.Icc (a + (2 * i : ℕ) * h) (a + (2 * i + 2 : ℕ) * h), ∀ t ∈ Set.Icc (a + (2 * i : ℕ) * h) (a + (2 * i + 2 : ℕ) * h), |f s - f t| ≤ ω (2 * i)) :
    |basicSimpson b h (fun i => f (a + i * h)) - ∫ t in a..(a + (2 * b : ℕ) * h), f t| ≤ 2 * h * ∑ i ∈ range b, ω (2 * i) := by
  induction b with
  | zero => simp [basicSimpson]
  | succ b ih =>
    have ih' := ih fun i hi => hω i (by omega)
    have hi : ∫ t in a..(a + ((2 * (b + 1) : ℕ) : ℝ) * h), f t = (∫ t in a..(a + (2 * b : ℕ) * h), f t) + ∫ t in (a + (2 * b : ℕ) * h)..(a + ((2 * (b + 1) : ℕ) : ℝ) * h), f t :=
      (intervalIntegral.integral_add_adjacent_intervals (hf _ _) (hf _ _)).symm
    have hS : basicSimpson (b + 1) h (fun i => f (a + i * h)) = basicSimpson b h (fun i => f (a + i * h)) +
        h / 3 * (f (a + (2 * b : ℕ) * h) + 4 * f (a + (2 * b + 1 : ℕ) * h) + f (a + (2 * b + 2 : ℕ) * h)) := by
      unfold basicSimpson; rw [sum_range_succ, mul_add]
    rw [hS, hi, sum_range_succ]
    have hle : a + ((2 * b : ℕ) : ℝ) * h ≤ a + ((2 * (b + 1) : ℕ) : ℝ) * h := by push_cast; nlinarith
    have hp := avg_err f (a + (2 * b : ℕ) * h) (a + (2 * (b + 1) : ℕ) * h)
      ((f (a + (2 * b : ℕ) * h) + 4 * f (a + (2 * b + 1 : ℕ) * h) + f (a + (2 * b + 2 : ℕ) * h)) / 6) (ω (2 * b)) hle (hf _ _) (by
        intro t ht
        have w := hω b (by omega)
        have e1 := w (a + (2 * b : ℕ) * h) ⟨le_rfl, by push_cast; nlinarith⟩ t ht
        have e2 := w (a + (2 * b + 1 : ℕ) * h) ⟨by push_cast; nlinarith, by push_cast; nlinarith⟩ t ht
        have e3 := w (a + (2 * b + 2 : ℕ) * h) ⟨by push_cast; nlinarith, le_rfl⟩ t ht
        rw [abs_le] at *
        constructor <;> linarith [e1.1, e1.2, e2.1, e2.2, e3.1, e3.2])
    have hlen : a + ((2 * (b + 1) : ℕ) : ℝ) * h - (a + (2 * b : ℕ) * h) = 2 * h := by push_cast; ring
    rw [hlen] at hp
    rw [abs_le] at *
    constructor <;> nlinarith [ih'.1, ih'.2, hp.1, hp.2]

theorem basicSimpson_diff (h η : ℝ) (b : ℕ) (y z : ℕ → ℝ) (hh : 0 < h) (hyz : ∀ i < 2 * b + 1, |y i - z i| ≤ η) :
    |basicSimpson b h y - basicSimpson b h z| ≤ 2 * (b * h) * η := by
  unfold basicSimpson
  rw [← mul_sub, ← sum_sub_distrib, abs_mul, abs_of_pos (by positivity)]
  have : ∀ i ∈ range b, |y (2 * i) + 4 * y (2 * i + 1) + y (2 * i + 2) - (z (2 * i) + 4 * z (2 * i + 1) + z (2 * i + 2))| ≤ 6 * η := by
    intro i hi
    have hi' := mem_range.mp hi
    have e1 := hyz (2 * i) (by omega)
    have e2 := hyz (2 * i + 1) (by omega)
    have e3 := hyz (2 * i + 2) (by omega)
    rw [abs_le] at *
    constructor <;> linarith [e1.1, e1.2, e2.1, e2.2, e3.1, e3.2]
  have := (abs_sum_le_sum_abs _ _).trans (sum_le_card_nsmul _ _ _ this)
  simp only [card_range, nsmul_eq_mul] at this
  calc h / 3 * _ ≤ h / 3 * (b * (6 * η)) := mul_le_mul_of_nonneg_left this (by positivity)
    _ = 2 * (b * h) * η := by ring

theorem simpson_rule : RuleOk simpsonDx where
  err := by
    intro f a h n ω hn hh hf hω
    have hnn : ∀ j < n - 1, 0 ≤ ω j := by
      intro j hj
      have hjm : (j:ℝ) + 1 ≤ n := by exact_mod_cast (by omega : j + 1 ≤ n)
      have := hω j (by omega) (a + j * h) ⟨le_rfl, le_min (by nlinarith) (by nlinarith)⟩ (a + j * h) ⟨le_rfl, le_min (by nlinarith) (by nlinarith)⟩
      simpa using this
    unfold simpsonDx
    rcases Nat.mod_two_eq_zero_or_one n with he | ho
    · rw [if_pos he]
      by_cases h2 : n = 2
      · subst h2
        rw [if_pos rfl]
        have e1 : ((2:ℕ):ℝ) - 1 = 1 := by norm_num
        rw [e1] at hω ⊢
        have hp := avg_err f a (a + 1 * h) ((f (a + (1:ℕ) * h) + f (a + (0:ℕ) * h)) / 2) (ω 0) (by linarith) (hf _ _) (by
          intro t ht
          have w := hω 0 (by omega)
          have hm : min (a + ((0:ℕ) + 2) * h) (a + 1 * h) = a + 1 * h := min_eq_right (by push_cast; nlinarith)
          rw [hm] at w
          have w1 := w (a + (1:ℕ) * h) ⟨by push_cast; nlinarith, by push_cast; nlinarith⟩ t ⟨by push_cast; linarith [ht.1], ht.2⟩
          have w2 := w (a + (0:ℕ) * h) ⟨by push_cast; nlinarith, by push_cast; nlinarith⟩ t ⟨by push_cast; linarith [ht.1], ht.2⟩
          generalize f (a + (1:ℕ) * h) = A at *
          generalize f (a + (0:ℕ) * h) = B at *
          generalize f t = T at *
          rw [abs_le] at *
          constructor <;> linarith [w1.1, w1.2, w2.1, w2.2])
        have hw := hnn 0 (by omega)
        have hpos : 0 ≤ h * ω 0 := mul_nonneg hh.le hw
        simp only [show 2 - 1 = 1 from rfl, sum_range_one]
        rw [abs_le] at *
        constructor <;> nlinarith [hp.1, hp.2]
      · rw [if_neg h2]
        obtain ⟨b, rfl⟩ : ∃ b, n = 2 * b + 4 := ⟨(n - 4) / 2, by omega⟩
        rw [show (2 * b + 4 - 2) / 2 = b + 1 by omega, show 2 * b + 4 - 1 = 2 * b + 3 by omega, show 2 * b + 4 - 2 = 2 * b + 2 by omega, show 2 * b + 4 - 3 = 2 * b + 1 by omega]
        have hc : ((2 * b + 4 : ℕ) : ℝ) - 1 = (2 * b + 3 : ℕ) := by push_cast; ring
        rw [hc] at hω ⊢
        have hB := basicSimpson_err f a h hh hf ω (b + 1) (by
          intro i hi
          have w := hω (2 * i) (by omega)
          have hib : (i:ℝ) ≤ b := by exact_mod_cast (by omega : i ≤ b)
          rw [min_eq_left (by push_cast; nlinarith)] at w
          have e : a + (((2 * i : ℕ) : ℝ) + 2) * h = a + ((2 * i + 2 : ℕ) : ℝ) * h := by push_cast; ring
          rw [e] at w
          exact w)
        rw [show 2 * (b + 1) = 2 * b + 2 by ring] at hB
        have hi : ∫ t in a..(a + ((2 * b + 3 : ℕ) : ℝ) * h), f t = (∫ t in a..(a + (2 * b + 2 : ℕ) * h), f t) + ∫ t in (a + (2 * b + 2 : ℕ) * h)..(a + ((2 * b + 3 : ℕ) : ℝ) * h), f t :=
          (intervalIntegral.integral_add_adjacent_intervals (hf _ _) (hf _ _)).symm
        have w := hω (2 * b + 1) (by omega)
        rw [min_eq_right (by push_cast; nlinarith)] at w
        have hp := avg_err f (a + (2 * b + 2 : ℕ) * h) (a + (2 * b + 3 : ℕ) * h)
          (5 / 12 * f (a + (2 * b + 3 : ℕ) * h) + 2 / 3 * f (a + (2 * b + 2 : ℕ) * h) - 1 / 12 * f (a + (2 * b + 1 : ℕ) * h)) (7 / 6 * ω (2 * b + 1))
          (by push_cast; nlinarith) (hf _ _) (by
            intro t ht
            have ht' : t ∈ Set.Icc (a + (2 * b + 1 : ℕ) * h) (a + (2 * b + 3 : ℕ) * h) := ⟨le_trans (by push_cast; nlinarith) ht.1, ht.2⟩
            have w1 := w (a + (2 * b + 3 : ℕ) * h) ⟨by push_cast; nlinarith, le_rfl⟩ t ht'
            have w2 := w (a + (2 * b + 2 : ℕ) * h) ⟨by push_cast; nlinarith, by push_cast; nlinarith⟩ t ht'
            have w3 := w (a + (2 * b + 1 : ℕ) * h) ⟨le_rfl, by push_cast; nlinarith⟩ t ht'
            rw [abs_le] at *
            constructor <;> linarith [w1.1, w1.2, w2.1, w2.2, w3.1, w3.2])
        have hlen : a + ((2 * b + 3 : ℕ) : ℝ) * h - (a + (2 * b + 2 : ℕ) * h) = h := by push_cast; ring
        rw [hlen] at hp
        have hcoef : (2 * h ^ 2 + 3 * h * h) / (6 * (h + h)) * f (a + (2 * b + 3 : ℕ) * h) + (h ^ 2 + 3 * h * h) / (6 * h) * f (a + (2 * b + 2 : ℕ) * h)
            - h ^ 3 / (6 * h * (h + h)) * f (a + (2 * b + 1 : ℕ) * h) = h * (5 / 12 * f (a + (2 * b + 3 : ℕ) * h) + 2 / 3 * f (a + (2 * b + 2 : ℕ) * h) - 1 / 12 * f (a + (2 * b + 1 : ℕ) * h)) := by
          field_simp; ring
        rw [hcoef, hi]
        have hsum : ∑ i ∈ range (b + 1), ω (2 * i) + ω (2 * b + 1) ≤ ∑ j ∈ range (2 * b + 3), ω j := by
          have hsub : (range (b + 1)).image (fun i => 2 * i) ∪ {2 * b + 1} ⊆ range (2 * b + 3) := by
            intro j hj
            simp only [mem_union, mem_image, mem_range, mem_singleton] at hj ⊢
            rcases hj with ⟨i, hi, rfl⟩ | rfl <;> omega
          have h1 := sum_le_sum_of_subset_of_nonneg hsub (f := ω) fun j hj _ => hnn j (by have := mem_range.mp hj; omega)
          rw [sum_union (by
            rw [disjoint_singleton_right]; simp only [mem_image, mem_range, not_exists, not_and]; intro i _; omega), sum_image (by intro i _ j _ hij; simpa using hij), sum_singleton] at h1
          exact h1
        have hw := hnn (2 * b + 1) (by omega)
        have hpos : 0 ≤ h * ω (2 * b + 1) := mul_nonneg hh.le hw
        have hsum' := mul_le_mul_of_nonneg_left hsum hh.le
        rw [mul_add] at hsum'
        rw [abs_le] at *
        constructor <;> nlinarith [hp.1, hp.2, hB.1, hB.2]
    · rw [if_neg (by omega)]
      obtain ⟨b, rfl⟩ : ∃ b, n = 2 * b + 1 := ⟨(n - 1) / 2, by omega⟩
      rw [show (2 * b + 1 - 1) / 2 = b by omega, show 2 * b + 1 - 1 = 2 * b by omega]
      have hc : ((2 * b + 1 : ℕ) : ℝ) - 1 = (2 * b : ℕ) := by push_cast; ring
      rw [hc] at hω ⊢
      have hB := basicSimpson_err f a h hh hf ω b (by
        intro i hi
        have w := hω (2 * i) (by omega)
        have hib : (i:ℝ) + 1 ≤ b := by exact_mod_cast hi
        rw [min_eq_left (by push_cast; nlinarith)] at w
        have e : a + (((2 * i : ℕ) : ℝ) + 2) * h = a + ((2 * i + 2 : ℕ) : ℝ) * h := by push_cast; ring
        rw [e] at w
        exact w)
      refine hB.trans (mul_le_mul_of_nonneg_left ?_ (by positivity))
      have hsub : (range b).image (fun i => 2 * i) ⊆ range (2 * b) := by
        intro j hj
        simp only [mem_image, mem_range] at hj ⊢
        rcases hj with ⟨i, hi, rfl⟩; omega
      have h1 := sum_le_sum_of_subset_of_nonneg hsub (f := ω) fun j hj _ => hnn j (by have := mem_range.mp hj; omega)
      rw [sum_image (by intro i _ j _ hij; simpa using hij)] at h1
      exact h1
  diff := by
    intro h η n y z hn hh hyz
    have hη : 0 ≤ η := (abs_nonneg _).trans (hyz 0 (by omega))
    unfold simpsonDx
    rcases Nat.mod_two_eq_zero_or_one n with he | ho
    · rw [if_pos he, if_pos he]
      by_cases h2 : n = 2
      · subst h2
        rw [if_pos rfl, if_pos rfl]
        have e1 := hyz 0 (by omega)
        have e2 := hyz 1 (by omega)
        have := mul_nonneg hh.le hη
        push_cast
        rw [abs_le] at *
        constructor <;> nlinarith [e1.1, e1.2, e2.1, e2.2]
      · rw [if_neg h2, if_neg h2]
        obtain ⟨b, rfl⟩ : ∃ b, n = 2 * b + 4 := ⟨(n - 4) / 2, by omega⟩
        rw [show (2 * b + 4 - 2) / 2 = b + 1 by omega, show 2 * b + 4 - 1 = 2 * b + 3 by omega, show 2 * b + 4 - 2 = 2 * b + 2 by omega, show 2 * b + 4 - 3 = 2 * b + 1 by omega]
        have hB := basicSimpson_diff h η (b + 1) y z hh fun i hi => hyz i (by omega)
        have e1 := hyz (2 * b + 1) (by omega)
        have e2 := hyz (2 * b + 2) (by omega)
        have e3 := hyz (2 * b + 3) (by omega)
        have c1 : (2 * h ^ 2 + 3 * h * h) / (6 * (h + h)) = h * (5 / 12) := by field_simp; ring
        have c2 : (h ^ 2 + 3 * h * h) / (6 * h) = h * (2 / 3) := by field_simp; ring
        have c3 : h ^ 3 / (6 * h * (h + h)) = h * (1 / 12) := by field_simp; ring
        rw [c1, c2, c3]
        push_cast at hB ⊢
        have hbη : 0 ≤ (b:ℝ) * h * η := by positivity
        have hhη := mul_nonneg hh.le hη
        rw [abs_le] at *
        constructor <;> nlinarith [hB.1, hB.2, e1.1, e1.2, e2.1, e2.2, e3.1, e3.2]
    · rw [if_neg (by omega), if_neg (by omega)]
      obtain ⟨b, rfl⟩ : ∃ b, n = 2 * b + 1 := ⟨(n - 1) / 2, by omega⟩
      rw [show (2 * b + 1 - 1) / 2 = b by omega]
      have hB := basicSimpson_diff h η b y z hh fun i hi => hyz i (by omega)
      refine hB.trans ?_
      push_cast
      have : 0 ≤ (b:ℝ) * h * η := by positivity
      nlinarith

end simpson
end Halomod
