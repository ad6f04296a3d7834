import Verif.Lemmas.Spline2
import Mathlib.Analysis.Calculus.MeanValue

/-! # The cubic spline on arbitrary grids: local second-order accuracy -/
namespace Halomod.Tools

open Finset Halomod.Spec

/-- `c` solves the moment equations of the not-a-knot spline: bound by the second differences, for any steps; `ρ` bounds the ratio of the outermost step
to its neighbour. -/
theorem moments_local {n : ℕ} (hn : 5 ≤ n) {c e h : ℕ → ℝ} {K ρ : ℝ} (hpos : ∀ i, i + 1 < n → 0 < h i) (hK : ∀ i, i + 2 < n → |e i| ≤ K * (h i + h (i + 1)))
    (hr1 : h 0 ≤ ρ * h 1) (hr2 : h (n - 2) ≤ ρ * h (n - 3))
    (heq : ∀ i, i + 2 < n → h i * c i + 2 * (h i + h (i + 1)) * c (i + 1) + h (i + 1) * c (i + 2) = 3 * e i)
    (h1 : (c 2 - c 1) * h 0 = (c 1 - c 0) * h 1)
    (h2 : (c (n - 1) - c (n - 2)) * h (n - 3) = (c (n - 2) - c (n - 3)) * h (n - 2)) :
    ∀ i < n, |c i| ≤ 3 * K * (1 + 2 * ρ) := by
  have hK0 : 0 ≤ K := by
    have := (abs_nonneg _).trans (hK 0 (by omega))
    exact nonneg_of_mul_nonneg_left this (add_pos (hpos 0 (by omega)) (hpos 1 (by omega)))
  have hρ0 : 0 ≤ ρ := by
    have := (hpos 0 (by omega)).le.trans hr1
    exact nonneg_of_mul_nonneg_left this (hpos 1 (by omega))
  have fin1 : ∀ g g' p u w ee : ℝ, 0 < g → 0 < g' → |ee| ≤ K * (g + g') → |w| ≤ |u| → g * p + 2 * (g + g') * u + g' * w = 3 * ee →
      (w - u) * g = (u - p) * g' → |u| ≤ 3 * K := by
    intro g g' p u w ee g0 g0' hee hw h3 h4
    have e3 : (g + g') * ((2 * g' + g) * u + (g' - g) * w) = g' * (3 * ee) := by
      rw [← h3]; linear_combination -g * h4
    have e4 : |(g + g') * ((2 * g' + g) * u)| ≤ g' * (3 * (K * (g + g'))) + (g + g') * (|g' - g| * |u|) := by
      rw [show (g + g') * ((2 * g' + g) * u) = g' * (3 * ee) - (g + g') * ((g' - g) * w) by linarith]
      refine (abs_sub _ _).trans ?_
      rw [abs_mul, abs_mul, abs_mul, abs_mul, abs_of_pos g0', abs_of_pos (by linarith : 0 < g + g'), abs_of_pos (by norm_num : (0:ℝ) < 3)]
      gcongr
    rw [abs_mul, abs_mul, abs_of_pos (by linarith : 0 < g + g'), abs_of_pos (by linarith : 0 < 2 * g' + g)] at e4
    have e5 : g' ≤ 2 * g' + g - |g' - g| := by
      rcases abs_cases (g' - g) with ⟨h, _⟩ | ⟨h, _⟩ <;> rw [h] <;> linarith
    have e6 : (g + g') * (g' * |u|) ≤ g' * (3 * (K * (g + g'))) := by
      have : (g + g') * (g' * |u|) ≤ (g + g') * ((2 * g' + g - |g' - g|) * |u|) := by gcongr
      nlinarith
    have e7 : (g' * (g + g')) * |u| ≤ (g' * (g + g')) * (3 * K) := by nlinarith
    exact le_of_mul_le_mul_left e7 (by positivity)
  have inner : ∀ i, 1 ≤ i → i ≤ n - 2 → |c i| ≤ 3 * K := by
    obtain ⟨m, hm, hmax⟩ := (Icc 1 (n - 2)).exists_max_image (fun i => |c i|) ⟨1, by simp only [mem_Icc]; omega⟩
    rw [mem_Icc] at hm
    have hb : |c m| ≤ 3 * K := by
      by_cases e1 : m = 1
      · subst e1
        exact fin1 (h 0) (h 1) (c 0) (c 1) (c 2) (e 0) (hpos 0 (by omega)) (hpos 1 (by omega)) (hK 0 (by omega))
          (hmax 2 (by rw [mem_Icc]; omega)) (heq 0 (by omega)) h1
      by_cases e2 : m = n - 2
      · subst e2
        have h3 := heq (n - 3) (by omega)
        rw [show n - 3 + 1 = n - 2 by omega, show n - 3 + 2 = n - 1 by omega] at h3
        have h5 := hK (n - 3) (by omega)
        rw [show n - 3 + 1 = n - 2 by omega] at h5
        exact fin1 (h (n - 2)) (h (n - 3)) (c (n - 1)) (c (n - 2)) (c (n - 3)) (e (n - 3)) (hpos _ (by omega)) (hpos _ (by omega))
          (by linarith) (hmax (n - 3) (by rw [mem_Icc]; omega)) (by linarith) (by linarith)
      have h3 := heq (m - 1) (by omega)
      rw [show m - 1 + 1 = m by omega, show m - 1 + 2 = m + 1 by omega] at h3
      have h4 := hmax (m - 1) (by rw [mem_Icc]; omega)
      have h5 := hmax (m + 1) (by rw [mem_Icc]; omega)
      have h6 := hK (m - 1) (by omega)
      rw [show m - 1 + 1 = m by omega] at h6
      have g0 := hpos (m - 1) (by omega)
      have g0' := hpos m (by omega)
      generalize h (m - 1) = g at *
      generalize h m = g' at *
      have h7 : |2 * (g + g') * c m| ≤ 3 * (K * (g + g')) + g * |c m| + g' * |c m| := by
        rw [show 2 * (g + g') * c m = 3 * e (m - 1) - g * c (m - 1) - g' * c (m + 1) by linarith]
        have t1 := abs_sub (3 * e (m - 1) - g * c (m - 1)) (g' * c (m + 1))
        have t2 := abs_sub (3 * e (m - 1)) (g * c (m - 1))
        rw [abs_mul, abs_of_pos g0'] at t1
        rw [abs_mul 3, abs_of_pos (by norm_num : (0:ℝ) < 3), abs_mul g, abs_of_pos g0] at t2
        have t3 := mul_le_mul_of_nonneg_left h4 g0.le
        have t4 := mul_le_mul_of_nonneg_left h5 g0'.le
        linarith
      rw [abs_mul, abs_of_pos (by linarith : 0 < 2 * (g + g'))] at h7
      have : (g + g') * |c m| ≤ (g + g') * (3 * K) := by nlinarith
      exact le_of_mul_le_mul_left this (by linarith)
    intro i hi1 hi2
    exact (hmax i (by rw [mem_Icc]; exact ⟨hi1, hi2⟩)).trans hb
  have fin2 : ∀ g g' p u w : ℝ, 0 < g' → 0 < g → g ≤ ρ * g' → |u| ≤ 3 * K → |w| ≤ 3 * K →
      (w - u) * g = (u - p) * g' → |p| ≤ 3 * K * (1 + 2 * ρ) := by
    intro g g' p u w g0' g0 hgi hu hw h4
    have e1 : p = u - (w - u) * (g / g') := by field_simp; linarith
    have e2 : g / g' ≤ ρ := by rwa [div_le_iff₀ g0']
    have e3 : 0 ≤ g / g' := by positivity
    rw [e1]
    have e4 : |w - u| ≤ 2 * (3 * K) := (abs_sub _ _).trans (by linarith)
    have e5 : |(w - u) * (g / g')| ≤ 2 * (3 * K) * ρ := by
      rw [abs_mul, abs_of_nonneg e3]
      exact mul_le_mul e4 e2 e3 (by linarith)
    have e6 := abs_sub u ((w - u) * (g / g'))
    nlinarith
  intro i hi'
  by_cases i0 : i = 0
  · subst i0
    exact fin2 (h 0) (h 1) (c 0) (c 1) (c 2) (hpos 1 (by omega)) (hpos 0 (by omega)) hr1
      (inner 1 (by omega) (by omega)) (inner 2 (by omega) (by omega)) h1
  by_cases il : i = n - 1
  · subst il
    exact fin2 (h (n - 2)) (h (n - 3)) (c (n - 1)) (c (n - 2)) (c (n - 3)) (hpos _ (by omega)) (hpos _ (by omega))
      hr2 (inner _ (by omega) (by omega)) (inner _ (by omega) (by omega)) (by linarith)
  have := inner i (by omega) (by omega)
  nlinarith [mul_nonneg hK0 hρ0]

/-- the spline stays near the polygon through the data, locally: within `3/4 K (1 + 2ρ) h²` on an interval of length `h`, where `K` bounds the second
divided differences of the data and `ρ` the ratio of the outermost steps to their neighbours. -/
theorem spline_near_polygon_local {n : ℕ} (hn : 5 ≤ n) {x y : ℕ → ℝ} {S : ℝ → ℝ} {p : ℕ → Cub} (hS : IsSpline n x y S p) {K ρ : ℝ}
    (hx : ∀ i, i + 1 < n → x i < x (i + 1)) (hr1 : x 1 - x 0 ≤ ρ * (x 2 - x 1)) (hr2 : x (n - 1) - x (n - 2) ≤ ρ * (x (n - 2) - x (n - 3)))
    (hK : ∀ i, i + 2 < n → |(y (i + 2) - y (i + 1)) / (x (i + 2) - x (i + 1)) - (y (i + 1) - y i) / (x (i + 1) - x i)| ≤ K * (x (i + 2) - x i))
    {j : ℕ} (hj : j + 1 < n) {t : ℝ} (h1 : x j ≤ t) (h2 : t ≤ x (j + 1)) :
    |S t - (y j + (y (j + 1) - y j) * ((t - x j) / (x (j + 1) - x j)))| ≤ 3 / 4 * K * (1 + 2 * ρ) * (x (j + 1) - x j) ^ 2 := by
  set h : ℕ → ℝ := fun i => x (i + 1) - x i with hdef
  have hpos : ∀ i, i + 1 < n → 0 < h i := fun i hi => by have := hx i hi; simp only [hdef]; linarith
  have ha : ∀ j, j + 1 < n → (p j).a = y j := by
    intro j hj
    have := hS.on j hj (x j) le_rfl (by have := hpos j hj; simp only [hdef] at this; linarith)
    rw [hS.through j (by omega)] at this
    simpa [Cub.eval] using this.symm
  have hv : ∀ j, j + 1 < n → y j + (p j).b * h j + (p j).c * h j ^ 2 + (p j).d * h j ^ 3 = y (j + 1) := by
    intro j hj
    have := hS.on j hj (x (j + 1)) (by have := hpos j hj; simp only [hdef] at this; linarith) le_rfl
    rw [hS.through (j + 1) hj, Cub.eval, ha j hj] at this
    linarith
  have hs : ∀ j, j + 2 < n → (p (j + 1)).b = (p j).b + 2 * (p j).c * h j + 3 * (p j).d * h j ^ 2 := by
    intro j hj
    have := hS.pieces.slope j hj
    simpa [Cub.slope] using this
  have hc : ∀ j, j + 2 < n → (p (j + 1)).c = (p j).c + 3 * (p j).d * h j := by
    intro j hj
    have := hS.pieces.curv j hj
    simp only [Cub.curv] at this
    linarith
  set c : ℕ → ℝ := fun i => if i + 1 < n then (p i).c else (p (n - 2)).c + 3 * (p (n - 2)).d * h (n - 2) with hcdef
  have cp : ∀ i, i + 1 < n → c i = (p i).c := fun i hi => if_pos hi
  have cs : ∀ j, j + 1 < n → c (j + 1) = (p j).c + 3 * (p j).d * h j := by
    intro j hj
    by_cases h3 : j + 2 < n
    · rw [cp (j + 1) h3, hc j h3]
    · rw [hcdef]
      simp only
      rw [if_neg (by omega), show n - 2 = j by omega]
  have hd : ∀ j, j + 1 < n → (p j).d = (c (j + 1) - c j) / (3 * h j) := by
    intro j hj
    have := (hpos j hj).ne'
    rw [cs j hj, cp j hj]; field_simp; ring
  have hb : ∀ j, j + 1 < n → (p j).b = (y (j + 1) - y j) / h j - h j * (2 * c j + c (j + 1)) / 3 := by
    intro j hj
    have h0 := (hpos j hj).ne'
    have := hv j hj
    rw [hd j hj, ← cp j hj] at this
    field_simp
    field_simp at this
    linarith
  have mom : ∀ i, i + 2 < n → h i * c i + 2 * (h i + h (i + 1)) * c (i + 1) + h (i + 1) * c (i + 2) =
      3 * ((y (i + 2) - y (i + 1)) / h (i + 1) - (y (i + 1) - y i) / h i) := by
    intro i hi
    have h0 := (hpos i (by omega)).ne'
    have h3 := hs i hi
    rw [hb i (by omega), hb (i + 1) (by omega), hd i (by omega), ← cp i (by omega)] at h3
    have e : 3 * ((c (i + 1) - c i) / (3 * h i)) * h i ^ 2 = (c (i + 1) - c i) * h i := by field_simp
    rw [e, show i + 1 + 1 = i + 2 by ring] at h3
    linarith
  have f1 : (c 2 - c 1) * h 0 = (c 1 - c 0) * h 1 := by
    have g0 := hpos 0 (by omega)
    have g1 := hpos 1 (by omega)
    have := hS.pieces.first
    rw [hd 1 (by omega), hd 0 (by omega), div_eq_div_iff (by positivity) (by positivity)] at this
    norm_num at this
    linarith
  have f2 : (c (n - 1) - c (n - 2)) * h (n - 3) = (c (n - 2) - c (n - 3)) * h (n - 2) := by
    have g0 := hpos (n - 2) (by omega)
    have g1 := hpos (n - 3) (by omega)
    have := hS.pieces.last
    rw [hd (n - 2) (by omega), hd (n - 3) (by omega), div_eq_div_iff (by positivity) (by positivity), show n - 2 + 1 = n - 1 by omega,
      show n - 3 + 1 = n - 2 by omega] at this
    linarith
  have hB := moments_local hn (K := K) (ρ := ρ) hpos (fun i hi => (hK i hi).trans_eq (by simp only [hdef]; ring)) hr1
    (by simp only [hdef]; rw [show n - 2 + 1 = n - 1 by omega, show n - 3 + 1 = n - 2 by omega]; exact hr2) mom f1 f2
  have hB1 := hB j (by omega)
  have hB2 := hB (j + 1) hj
  have hj0 := hpos j hj
  rw [hS.on j hj t h1 h2, Cub.eval, ha j hj, hb j hj, hd j hj, ← cp j hj]
  have u0 : 0 ≤ t - x j := by linarith
  have u1 : t - x j ≤ h j := by simp only [hdef]; linarith
  rw [show x (j + 1) - x j = h j from rfl]
  generalize c j = c0 at *
  generalize c (j + 1) = c1 at *
  generalize h j = g at *
  obtain ⟨r, hr⟩ : ∃ r, t - x j = r * g := ⟨(t - x j) / g, by field_simp⟩
  simp only [hr]
  rw [hr] at u0 u1
  have r0 : 0 ≤ r := nonneg_of_mul_nonneg_left u0 hj0
  have r1 : r ≤ 1 := by nlinarith
  have e : y j + ((y (j + 1) - y j) / g - g * (2 * c0 + c1) / 3) * (r * g) + c0 * (r * g) ^ 2 + (c1 - c0) / (3 * g) * (r * g) ^ 3 -
      (y j + (y (j + 1) - y j) * (r * g / g)) = -(g ^ 2 * (c0 * (r * (1 - r) * (2 - r) / 3) + c1 * (r * (1 - r) * (1 + r) / 3))) := by
    field_simp
    ring
  rw [e, abs_neg, abs_mul, abs_of_pos (by positivity : 0 < g ^ 2)]
  set M := 3 * K * (1 + 2 * ρ) with hM
  have hM0 : 0 ≤ M := (abs_nonneg _).trans hB1
  have q0 : 0 ≤ r * (1 - r) := mul_nonneg r0 (by linarith)
  have q1 : 0 ≤ r * (1 - r) * (2 - r) / 3 := by have := mul_nonneg q0 (by linarith : 0 ≤ 2 - r); linarith
  have q2 : 0 ≤ r * (1 - r) * (1 + r) / 3 := by have := mul_nonneg q0 (by linarith : 0 ≤ 1 + r); linarith
  have q3 : r * (1 - r) ≤ 1 / 4 := by nlinarith [sq_nonneg (r - 1 / 2)]
  have hsum : |c0 * (r * (1 - r) * (2 - r) / 3) + c1 * (r * (1 - r) * (1 + r) / 3)| ≤ M / 4 := by
    refine (abs_add_le _ _).trans ?_
    rw [abs_mul, abs_mul, abs_of_nonneg q1, abs_of_nonneg q2]
    have g1 := mul_le_mul_of_nonneg_right hB1 q1
    have g2 := mul_le_mul_of_nonneg_right hB2 q2
    nlinarith
  calc g ^ 2 * _ ≤ g ^ 2 * (M / 4) := by gcongr
    _ = 3 / 4 * K * (1 + 2 * ρ) * g ^ 2 := by rw [hM]; ring

/-- Taylor's estimate for a function whose second derivative is bounded. -/
theorem taylor_two {f f' f'' : ℝ → ℝ} {a b B : ℝ} (h1 : ∀ t ∈ Set.Icc a b, HasDerivWithinAt f (f' t) (Set.Icc a b) t)
    (h2 : ∀ t ∈ Set.Icc a b, HasDerivWithinAt f' (f'' t) (Set.Icc a b) t) (hB : ∀ t ∈ Set.Icc a b, |f'' t| ≤ B) {s t : ℝ}
    (hs : s ∈ Set.Icc a b) (ht : t ∈ Set.Icc a b) : |f t - f s - f' s * (t - s)| ≤ B / 2 * (t - s) ^ 2 := by
  have hlip : ∀ u ∈ Set.Icc a b, |f' u - f' s| ≤ B * |u - s| := by
    intro u hu
    have := (convex_Icc a b).norm_image_sub_le_of_norm_hasDerivWithin_le h2 (fun t ht => hB t ht) hs hu
    simpa using this
  have hB0 : 0 ≤ B := (abs_nonneg _).trans (hB s hs)
  -- along the segment
  have key : ∀ σ : ℝ, (σ = 1 ∨ σ = -1) → σ * (f t - f s - f' s * (t - s)) ≤ B / 2 * (t - s) ^ 2 := by
    intro σ hσ
    set G : ℝ → ℝ := fun r => σ * (f (s + r * (t - s)) - f s - f' s * (r * (t - s))) - B / 2 * (r * (t - s)) ^ 2 with hG
    have hmem : ∀ r ∈ Set.Icc (0:ℝ) 1, s + r * (t - s) ∈ Set.Icc a b := by
      intro r hr
      have := (convex_Icc a b) hs ht (by linarith [hr.2] : 0 ≤ 1 - r) hr.1 (by ring)
      simp only [smul_eq_mul] at this
      rwa [show (1 - r) * s + r * t = s + r * (t - s) by ring] at this
    have hder : ∀ r ∈ Set.Icc (0:ℝ) 1, HasDerivWithinAt G (σ * (f' (s + r * (t - s)) * (t - s) - f' s * (t - s)) - B * (r * (t - s)) * (t - s)) (Set.Icc 0 1) r := by
      intro r hr
      have d0 : HasDerivWithinAt (fun r : ℝ => r * (t - s)) (t - s) (Set.Icc 0 1) r := by
        simpa using (hasDerivWithinAt_id r (Set.Icc (0:ℝ) 1)).mul_const (t - s)
      have d1 : HasDerivWithinAt (fun r : ℝ => s + r * (t - s)) (t - s) (Set.Icc 0 1) r := d0.const_add s
      have d2 : HasDerivWithinAt (fun r : ℝ => f (s + r * (t - s))) (f' (s + r * (t - s)) * (t - s)) (Set.Icc 0 1) r :=
        (h1 _ (hmem r hr)).comp r d1 (fun q hq => hmem q hq)
      have d3 := ((d2.sub_const (f s)).sub (d0.const_mul (f' s))).const_mul σ
      have d4 := (d0.pow 2).const_mul (B / 2)
      refine (d3.sub d4).congr_deriv ?_
      simp only [Nat.cast_ofNat]
      ring
    have hanti : AntitoneOn G (Set.Icc 0 1) := by
      refine antitoneOn_of_deriv_nonpos (convex_Icc 0 1) (fun r hr => (hder r hr).continuousWithinAt) (fun r hr => ?_) (fun r hr => ?_)
      · rw [interior_Icc] at hr ⊢
        exact ((hder r ⟨hr.1.le, hr.2.le⟩).mono Set.Ioo_subset_Icc_self).differentiableWithinAt
      · rw [interior_Icc] at hr
        have hr' : r ∈ Set.Icc (0:ℝ) 1 := ⟨hr.1.le, hr.2.le⟩
        rw [((hder r hr').hasDerivAt (Icc_mem_nhds hr.1 hr.2)).deriv]
        have := hlip _ (hmem r hr')
        rw [show s + r * (t - s) - s = r * (t - s) by ring, abs_mul, abs_of_nonneg hr.1.le] at this
        have e1 : σ * (f' (s + r * (t - s)) * (t - s) - f' s * (t - s)) ≤ |f' (s + r * (t - s)) - f' s| * |t - s| := by
          rw [← abs_mul]
          rcases hσ with rfl | rfl
          · exact (le_abs_self _).trans_eq' (by ring)
          · exact (neg_le_abs _).trans_eq' (by ring)
        have e2 : |f' (s + r * (t - s)) - f' s| * |t - s| ≤ B * (r * |t - s|) * |t - s| := mul_le_mul_of_nonneg_right this (abs_nonneg _)
        have e3 : B * (r * |t - s|) * |t - s| = B * (r * (t - s)) * (t - s) := by
          rw [show B * (r * |t - s|) * |t - s| = B * r * (|t - s| * |t - s|) by ring, abs_mul_abs_self]; ring
        linarith
    have := hanti (Set.left_mem_Icc.mpr zero_le_one) (Set.right_mem_Icc.mpr zero_le_one) zero_le_one
    simp only [hG, one_mul, zero_mul, mul_zero, add_zero, sub_self] at this
    rw [show s + (t - s) = t by ring] at this
    norm_num at this
    linarith
  rw [abs_le]
  have k1 := key 1 (Or.inl rfl)
  have k2 := key (-1) (Or.inr rfl)
  constructor <;> linarith

/-- the cubic spline through samples of a function with second derivative bounded by `B`: second-order accurate in the local step, on any grid. -/
theorem cubicSpl_accuracy {n : ℕ} (hn : 5 ≤ n) {x : ℕ → ℝ} (hx : ∀ i j, i < j → j < n → x i < x j) {ρ : ℝ}
    (hr1 : x 1 - x 0 ≤ ρ * (x 2 - x 1)) (hr2 : x (n - 1) - x (n - 2) ≤ ρ * (x (n - 2) - x (n - 3)))
    {f f' f'' : ℝ → ℝ} {B : ℝ} (h1 : ∀ t ∈ Set.Icc (x 0) (x (n - 1)), HasDerivWithinAt f (f' t) (Set.Icc (x 0) (x (n - 1))) t)
    (h2 : ∀ t ∈ Set.Icc (x 0) (x (n - 1)), HasDerivWithinAt f' (f'' t) (Set.Icc (x 0) (x (n - 1))) t) (hB : ∀ t ∈ Set.Icc (x 0) (x (n - 1)), |f'' t| ≤ B)
    {j : ℕ} (hj : j + 1 < n) {t : ℝ} (ht : x j ≤ t) (ht' : t ≤ x (j + 1)) :
    |cubicSpl n x (fun i => f (x i)) t - f t| ≤ (1 / 2 + 3 / 4 * ρ) * B * (x (j + 1) - x j) ^ 2 := by
  have hmem : ∀ i < n, x i ∈ Set.Icc (x 0) (x (n - 1)) := by
    intro i hi
    constructor
    · rcases Nat.eq_zero_or_pos i with rfl | h0
      · exact le_rfl
      · exact (hx 0 i h0 hi).le
    · rcases eq_or_ne i (n - 1) with rfl | h0
      · exact le_rfl
      · exact (hx i (n - 1) (by omega) (by omega)).le
  have hstep : ∀ i, i + 1 < n → x i < x (i + 1) := fun i hi => hx i (i + 1) (by omega) hi
  have ta : ∀ i k, i < n → k < n → |f (x k) - f (x i) - f' (x i) * (x k - x i)| ≤ B / 2 * (x k - x i) ^ 2 := fun i k hi hk =>
    taylor_two h1 h2 hB (hmem i hi) (hmem k hk)
  have hK : ∀ i, i + 2 < n → |(f (x (i + 2)) - f (x (i + 1))) / (x (i + 2) - x (i + 1)) - (f (x (i + 1)) - f (x i)) / (x (i + 1) - x i)| ≤
      B / 2 * (x (i + 2) - x i) := by
    intro i hi
    have g0 : 0 < x (i + 1) - x i := by linarith [hstep i (by omega)]
    have g1 : 0 < x (i + 2) - x (i + 1) := by linarith [hstep (i + 1) (by omega)]
    have t1 := ta (i + 1) (i + 2) (by omega) hi
    have t2 := ta (i + 1) i (by omega) (by omega)
    have e1 : |(f (x (i + 2)) - f (x (i + 1))) / (x (i + 2) - x (i + 1)) - f' (x (i + 1))| ≤ B / 2 * (x (i + 2) - x (i + 1)) := by
      rw [show (f (x (i + 2)) - f (x (i + 1))) / (x (i + 2) - x (i + 1)) - f' (x (i + 1)) =
        (f (x (i + 2)) - f (x (i + 1)) - f' (x (i + 1)) * (x (i + 2) - x (i + 1))) / (x (i + 2) - x (i + 1)) by field_simp, abs_div, abs_of_pos g1,
        div_le_iff₀ g1]
      exact t1.trans_eq (by ring)
    have e2 : |f' (x (i + 1)) - (f (x (i + 1)) - f (x i)) / (x (i + 1) - x i)| ≤ B / 2 * (x (i + 1) - x i) := by
      rw [show f' (x (i + 1)) - (f (x (i + 1)) - f (x i)) / (x (i + 1) - x i) =
        (f (x i) - f (x (i + 1)) - f' (x (i + 1)) * (x i - x (i + 1))) / (x (i + 1) - x i) by field_simp; ring, abs_div, abs_of_pos g0,
        div_le_iff₀ g0]
      exact t2.trans_eq (by ring)
    have := abs_add_le ((f (x (i + 2)) - f (x (i + 1))) / (x (i + 2) - x (i + 1)) - f' (x (i + 1))) (f' (x (i + 1)) - (f (x (i + 1)) - f (x i)) / (x (i + 1) - x i))
    rw [sub_add_sub_cancel] at this
    linarith
  have near := spline_near_polygon_local hn (cubicSpl_isSpline hn hx fun i => f (x i)) hstep hr1 hr2 hK hj ht ht'
  have hg : 0 < x (j + 1) - x j := by linarith [hstep j hj]
  have htm : t ∈ Set.Icc (x 0) (x (n - 1)) := ⟨(hmem j (by omega)).1.trans ht, ht'.trans (hmem (j + 1) hj).2⟩
  have a0 := taylor_two h1 h2 hB htm (hmem j (by omega))
  have a1 := taylor_two h1 h2 hB htm (hmem (j + 1) hj)
  have hB0 : 0 ≤ B := (abs_nonneg _).trans (hB t htm)
  set g := x (j + 1) - x j with hgdef
  obtain ⟨r, hr⟩ : ∃ r, t - x j = r * g := ⟨(t - x j) / g, by field_simp⟩
  have r0 : 0 ≤ r := by
    have : 0 ≤ r * g := by linarith
    exact nonneg_of_mul_nonneg_left this hg
  have r1 : r ≤ 1 := by
    have : r * g ≤ 1 * g := by linarith
    exact le_of_mul_le_mul_right this hg
  have ej : x j - t = -(r * g) := by linarith
  have ej' : x (j + 1) - t = (1 - r) * g := by rw [hgdef] at hr ⊢; linarith
  rw [ej] at a0
  rw [ej'] at a1
  have poly : |f (x j) + (f (x (j + 1)) - f (x j)) * ((t - x j) / g) - f t| ≤ B / 8 * g ^ 2 := by
    have e1 : (t - x j) / g = r := by rw [hr]; field_simp
    rw [e1, show f (x j) + (f (x (j + 1)) - f (x j)) * r - f t = (1 - r) * (f (x j) - f t - f' t * -(r * g)) +
      r * (f (x (j + 1)) - f t - f' t * ((1 - r) * g)) by ring]
    refine (abs_add_le _ _).trans ?_
    rw [abs_mul, abs_mul, abs_of_nonneg (by linarith : 0 ≤ 1 - r), abs_of_nonneg r0]
    have b0 := mul_le_mul_of_nonneg_left a0 (by linarith : 0 ≤ 1 - r)
    have b1 := mul_le_mul_of_nonneg_left a1 r0
    have q3 : r * (1 - r) ≤ 1 / 4 := by nlinarith [sq_nonneg (r - 1 / 2)]
    have : (1 - r) * (B / 2 * (-(r * g)) ^ 2) + r * (B / 2 * ((1 - r) * g) ^ 2) = B / 2 * g ^ 2 * (r * (1 - r)) := by ring
    have h3 : B / 2 * g ^ 2 * (r * (1 - r)) ≤ B / 2 * g ^ 2 * (1 / 4) := by gcongr
    linarith
  have := abs_add_le (cubicSpl n x (fun i => f (x i)) t - (f (x j) + (f (x (j + 1)) - f (x j)) * ((t - x j) / g)))
    (f (x j) + (f (x (j + 1)) - f (x j)) * ((t - x j) / g) - f t)
  rw [sub_add_sub_cancel] at this
  refine this.trans ((add_le_add near poly).trans_eq ?_)
  ring

end Halomod.Tools
