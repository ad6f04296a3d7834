import Verif.Lemmas.Spline
import Verif.Lemmas.Converge4

/-! # The cubic spline on uniform grids: distance from the polygon, convergence -/
namespace Halomod.Tools

open Finset Halomod.Spec

/-- `c` solves the moment equations of the not-a-knot spline on a grid with steps `h`: bound by the changes of slope `e` -/
theorem moments_bound {n : ℕ} (hn : 5 ≤ n) {c e h : ℕ → ℝ} {K lo hi : ℝ} (hlo : 0 < lo) (hl : ∀ i, i + 1 < n → lo ≤ h i)
    (hu : ∀ i, i + 1 < n → h i ≤ hi) (hK : ∀ i, i + 2 < n → |e i| ≤ K)
    (heq : ∀ i, i + 2 < n → h i * c i + 2 * (h i + h (i + 1)) * c (i + 1) + h (i + 1) * c (i + 2) = 3 * e i)
    (h1 : (c 2 - c 1) * h 0 = (c 1 - c 0) * h 1)
    (h2 : (c (n - 1) - c (n - 2)) * h (n - 3) = (c (n - 2) - c (n - 3)) * h (n - 2)) :
    ∀ i < n, |c i| ≤ 3 * (hi / lo) * (3 * K / (2 * lo)) := by
  have hK0 : 0 ≤ K := (abs_nonneg _).trans (hK 0 (by omega))
  have hhi : lo ≤ hi := (hl 0 (by omega)).trans (hu 0 (by omega))
  -- one end: two inner neighbours `u`, `w` with steps `g`, `g'`
  have fin1 : ∀ g g' p u w ee : ℝ, lo ≤ g → lo ≤ g' → |ee| ≤ K → |w| ≤ |u| → g * p + 2 * (g + g') * u + g' * w = 3 * ee →
      (w - u) * g = (u - p) * g' → |u| ≤ 3 * K / (2 * lo) := by
    intro g g' p u w ee hg hg' hee hw h3 h4
    have g0 : 0 < g := by linarith
    have g0' : 0 < g' := by linarith
    have e3 : (g + g') * ((2 * g' + g) * u + (g' - g) * w) = g' * (3 * ee) := by
      rw [← h3]; linear_combination -g * h4
    have e4 : |(g + g') * ((2 * g' + g) * u)| ≤ g' * (3 * K) + (g + g') * (|g' - g| * |u|) := by
      rw [show (g + g') * ((2 * g' + g) * u) = g' * (3 * ee) - (g + g') * ((g' - g) * w) by linarith]
      refine (abs_sub _ _).trans ?_
      rw [abs_mul, abs_mul, abs_mul, abs_mul, abs_of_pos g0', abs_of_pos (by linarith : 0 < g + g'), abs_of_pos (by norm_num : (0:ℝ) < 3)]
      gcongr
    rw [abs_mul, abs_mul, abs_of_pos (by linarith : 0 < g + g'), abs_of_pos (by linarith : 0 < 2 * g' + g)] at e4
    have e5 : g' ≤ 2 * g' + g - |g' - g| := by
      rcases abs_cases (g' - g) with ⟨h, _⟩ | ⟨h, _⟩ <;> rw [h] <;> linarith
    have e6 : (g + g') * (g' * |u|) ≤ g' * (3 * K) := by
      have : (g + g') * (g' * |u|) ≤ (g + g') * ((2 * g' + g - |g' - g|) * |u|) := by gcongr
      nlinarith
    have e7 : (g + g') * |u| ≤ 3 * K := by
      have : g' * ((g + g') * |u|) ≤ g' * (3 * K) := by linarith
      exact le_of_mul_le_mul_left this g0'
    rw [le_div_iff₀ (by positivity)]
    have : 2 * lo * |u| ≤ (g + g') * |u| := mul_le_mul_of_nonneg_right (by linarith) (abs_nonneg _)
    linarith
  have inner : ∀ i, 1 ≤ i → i ≤ n - 2 → |c i| ≤ 3 * K / (2 * lo) := by
    obtain ⟨m, hm, hmax⟩ := (Icc 1 (n - 2)).exists_max_image (fun i => |c i|) ⟨1, by simp only [mem_Icc]; omega⟩
    rw [mem_Icc] at hm
    have hb : |c m| ≤ 3 * K / (2 * lo) := by
      by_cases e1 : m = 1
      · subst e1
        exact fin1 (h 0) (h 1) (c 0) (c 1) (c 2) (e 0) (hl 0 (by omega)) (hl 1 (by omega)) (hK 0 (by omega))
          (hmax 2 (by rw [mem_Icc]; omega)) (heq 0 (by omega)) h1
      by_cases e2 : m = n - 2
      · subst e2
        have h3 := heq (n - 3) (by omega)
        rw [show n - 3 + 1 = n - 2 by omega, show n - 3 + 2 = n - 1 by omega] at h3
        exact fin1 (h (n - 2)) (h (n - 3)) (c (n - 1)) (c (n - 2)) (c (n - 3)) (e (n - 3)) (hl _ (by omega)) (hl _ (by omega))
          (hK _ (by omega)) (hmax (n - 3) (by rw [mem_Icc]; omega)) (by linarith) (by linarith)
      have h3 := heq (m - 1) (by omega)
      rw [show m - 1 + 1 = m by omega, show m - 1 + 2 = m + 1 by omega] at h3
      have h4 := hmax (m - 1) (by rw [mem_Icc]; omega)
      have h5 := hmax (m + 1) (by rw [mem_Icc]; omega)
      have h6 := hK (m - 1) (by omega)
      have l1 := hl (m - 1) (by omega)
      have l2 := hl m (by omega)
      generalize h (m - 1) = g at *
      generalize h m = g' at *
      have g0 : 0 < g := by linarith
      have g0' : 0 < g' := by linarith
      have h7 : |2 * (g + g') * c m| ≤ 3 * K + g * |c m| + g' * |c m| := by
        rw [show 2 * (g + g') * c m = 3 * e (m - 1) - g * c (m - 1) - g' * c (m + 1) by linarith]
        have t1 := abs_sub (3 * e (m - 1) - g * c (m - 1)) (g' * c (m + 1))
        have t2 := abs_sub (3 * e (m - 1)) (g * c (m - 1))
        rw [abs_mul, abs_of_pos g0'] at t1
        rw [abs_mul 3, abs_of_pos (by norm_num : (0:ℝ) < 3), abs_mul g, abs_of_pos g0] at t2
        have t3 := mul_le_mul_of_nonneg_left h4 g0.le
        have t4 := mul_le_mul_of_nonneg_left h5 g0'.le
        linarith
      rw [abs_mul, abs_of_pos (by linarith : 0 < 2 * (g + g'))] at h7
      rw [le_div_iff₀ (by positivity)]
      have : 2 * lo * |c m| ≤ (g + g') * |c m| := mul_le_mul_of_nonneg_right (by linarith) (abs_nonneg _)
      linarith
    intro i hi1 hi2
    exact (hmax i (by rw [mem_Icc]; exact ⟨hi1, hi2⟩)).trans hb
  have hR : 1 ≤ hi / lo := by rw [le_div_iff₀ hlo]; linarith
  have hC : 0 ≤ 3 * K / (2 * lo) := by positivity
  -- the outer ends
  have fin2 : ∀ g g' p u w : ℝ, lo ≤ g' → 0 < g → g ≤ hi → |u| ≤ 3 * K / (2 * lo) → |w| ≤ 3 * K / (2 * lo) →
      (w - u) * g = (u - p) * g' → |p| ≤ 3 * (hi / lo) * (3 * K / (2 * lo)) := by
    intro g g' p u w hg' g0 hgi hu hw h4
    have g0' : 0 < g' := by linarith
    have e1 : p = u - (w - u) * (g / g') := by field_simp; linarith
    have e2 : g / g' ≤ hi / lo := div_le_div₀ (by linarith) hgi hlo hg'
    have e3 : 0 ≤ g / g' := by positivity
    rw [e1]
    have e4 : |w - u| ≤ 2 * (3 * K / (2 * lo)) := (abs_sub _ _).trans (by linarith)
    have e5 : |(w - u) * (g / g')| ≤ 2 * (3 * K / (2 * lo)) * (hi / lo) := by
      rw [abs_mul, abs_of_nonneg e3]
      exact mul_le_mul e4 e2 e3 (by linarith)
    have e6 := abs_sub u ((w - u) * (g / g'))
    nlinarith
  intro i hi'
  by_cases i0 : i = 0
  · subst i0
    exact fin2 (h 0) (h 1) (c 0) (c 1) (c 2) (hl 1 (by omega)) (by linarith [hl 0 (by omega)]) (hu 0 (by omega))
      (inner 1 (by omega) (by omega)) (inner 2 (by omega) (by omega)) h1
  by_cases il : i = n - 1
  · subst il
    exact fin2 (h (n - 2)) (h (n - 3)) (c (n - 1)) (c (n - 2)) (c (n - 3)) (hl _ (by omega)) (by linarith [hl (n - 2) (by omega)])
      (hu _ (by omega)) (inner _ (by omega) (by omega)) (inner _ (by omega) (by omega)) (by linarith)
  have := inner i (by omega) (by omega)
  nlinarith

/-- the moments `c` (half the second derivatives) of the spline: its pieces, the equations they solve, and their size. -/
theorem spline_moments {n : ℕ} (hn : 5 ≤ n) {x y : ℕ → ℝ} {S : ℝ → ℝ} {p : ℕ → Cub} (hS : IsSpline n x y S p) {lo hi D : ℝ}
    (hlo : 0 < lo) (hl : ∀ i, i + 1 < n → lo ≤ x (i + 1) - x i) (hu : ∀ i, i + 1 < n → x (i + 1) - x i ≤ hi)
    (hD : ∀ i, i + 1 < n → |y (i + 1) - y i| ≤ D) :
    ∃ c : ℕ → ℝ,
      (∀ j, j + 1 < n → ∀ t, x j ≤ t → t ≤ x (j + 1) → S t = y j +
        ((y (j + 1) - y j) / (x (j + 1) - x j) - (x (j + 1) - x j) * (2 * c j + c (j + 1)) / 3) * (t - x j) + c j * (t - x j) ^ 2 +
        (c (j + 1) - c j) / (3 * (x (j + 1) - x j)) * (t - x j) ^ 3) ∧
      (∀ i, i + 2 < n → (x (i + 1) - x i) * c i + 2 * ((x (i + 1) - x i) + (x (i + 2) - x (i + 1))) * c (i + 1) +
        (x (i + 2) - x (i + 1)) * c (i + 2) = 3 * ((y (i + 2) - y (i + 1)) / (x (i + 2) - x (i + 1)) - (y (i + 1) - y i) / (x (i + 1) - x i))) ∧
      ∀ i < n, |c i| ≤ 3 * (hi / lo) * (3 * (2 * (D / lo)) / (2 * lo)) := by
  set h : ℕ → ℝ := fun i => x (i + 1) - x i with hdef
  have hpos : ∀ i, i + 1 < n → 0 < h i := fun i hi => by have := hl i hi; simp only [hdef]; linarith
  have ha : ∀ j, j + 1 < n → (p j).a = y j := by
    intro j hj
    have := hS.on j hj (x j) le_rfl (by have := hpos j hj; simp only [hdef] at this; linarith)
    rw [hS.through j (by omega)] at this
    simpa [Cub.eval] using this.symm
  have hv : ∀ j, j + 1 < n → y j + (p j).b * h j + (p j).c * h j ^ 2 + (p j).d * h j ^ 3 = y (j + 1) := by
    intro j hj
    have := hS.on j hj (x (j + 1)) (by have := hpos j hj; simp only [hdef] at this; linarith) le_rfl
    rw [hS.through (j + 1) hj, Cub.eval, ha j hj] at this
    linarith
  have hs : ∀ j, j + 2 < n → (p (j + 1)).b = (p j).b + 2 * (p j).c * h j + 3 * (p j).d * h j ^ 2 := by
    intro j hj
    have := hS.pieces.slope j hj
    simpa [Cub.slope] using this
  have hc : ∀ j, j + 2 < n → (p (j + 1)).c = (p j).c + 3 * (p j).d * h j := by
    intro j hj
    have := hS.pieces.curv j hj
    simp only [Cub.curv] at this
    linarith
  -- moments
  set c : ℕ → ℝ := fun i => if i + 1 < n then (p i).c else (p (n - 2)).c + 3 * (p (n - 2)).d * h (n - 2) with hcdef
  have cp : ∀ i, i + 1 < n → c i = (p i).c := fun i hi => if_pos hi
  have cs : ∀ j, j + 1 < n → c (j + 1) = (p j).c + 3 * (p j).d * h j := by
    intro j hj
    by_cases h3 : j + 2 < n
    · rw [cp (j + 1) h3, hc j h3]
    · rw [hcdef]
      simp only
      rw [if_neg (by omega), show n - 2 = j by omega]
  have hd : ∀ j, j + 1 < n → (p j).d = (c (j + 1) - c j) / (3 * h j) := by
    intro j hj
    have := (hpos j hj).ne'
    rw [cs j hj, cp j hj]; field_simp; ring
  have hb : ∀ j, j + 1 < n → (p j).b = (y (j + 1) - y j) / h j - h j * (2 * c j + c (j + 1)) / 3 := by
    intro j hj
    have h0 := (hpos j hj).ne'
    have := hv j hj
    rw [hd j hj, ← cp j hj] at this
    field_simp
    field_simp at this
    linarith
  have mom : ∀ i, i + 2 < n → h i * c i + 2 * (h i + h (i + 1)) * c (i + 1) + h (i + 1) * c (i + 2) =
      3 * ((y (i + 2) - y (i + 1)) / h (i + 1) - (y (i + 1) - y i) / h i) := by
    intro i hi
    have h0 := (hpos i (by omega)).ne'
    have h3 := hs i hi
    rw [hb i (by omega), hb (i + 1) (by omega), hd i (by omega), ← cp i (by omega)] at h3
    have e : 3 * ((c (i + 1) - c i) / (3 * h i)) * h i ^ 2 = (c (i + 1) - c i) * h i := by field_simp
    rw [e, show i + 1 + 1 = i + 2 by ring] at h3
    linarith
  have f1 : (c 2 - c 1) * h 0 = (c 1 - c 0) * h 1 := by
    have g0 := hpos 0 (by omega)
    have g1 := hpos 1 (by omega)
    have := hS.pieces.first
    rw [hd 1 (by omega), hd 0 (by omega), div_eq_div_iff (by positivity) (by positivity)] at this
    norm_num at this
    linarith
  have f2 : (c (n - 1) - c (n - 2)) * h (n - 3) = (c (n - 2) - c (n - 3)) * h (n - 2) := by
    have g0 := hpos (n - 2) (by omega)
    have g1 := hpos (n - 3) (by omega)
    have := hS.pieces.last
    rw [hd (n - 2) (by omega), hd (n - 3) (by omega), div_eq_div_iff (by positivity) (by positivity), show n - 2 + 1 = n - 1 by omega,
      show n - 3 + 1 = n - 2 by omega] at this
    linarith
  have hq : ∀ i, i + 1 < n → |(y (i + 1) - y i) / h i| ≤ D / lo := by
    intro i hi
    rw [abs_div, abs_of_pos (hpos i hi)]
    have h3 := hD i hi
    have h0 : 0 ≤ D := (abs_nonneg _).trans h3
    exact div_le_div₀ h0 h3 hlo (hl i hi)
  have hB := moments_bound hn (K := 2 * (D / lo)) hlo hl hu (fun i hi => by
    refine (abs_sub _ _).trans ?_
    linarith [hq i (by omega), hq (i + 1) (by omega)]) mom f1 f2
  refine ⟨c, fun j hj t h1 h2 => ?_, mom, hB⟩
  rw [hS.on j hj t h1 h2, Cub.eval, ha j hj, hb j hj, hd j hj, ← cp j hj]

/-- the spline stays near the polygon through the data: at most `18 (hi/lo)³` times the largest step of the data,
when the steps of the grid lie between `lo` and `hi`. -/
theorem spline_near_polygon {n : ℕ} (hn : 5 ≤ n) {x y : ℕ → ℝ} {S : ℝ → ℝ} {p : ℕ → Cub} (hS : IsSpline n x y S p) {lo hi D : ℝ}
    (hlo : 0 < lo) (hl : ∀ i, i + 1 < n → lo ≤ x (i + 1) - x i) (hu : ∀ i, i + 1 < n → x (i + 1) - x i ≤ hi)
    (hD : ∀ i, i + 1 < n → |y (i + 1) - y i| ≤ D) {j : ℕ} (hj : j + 1 < n) {t : ℝ} (h1 : x j ≤ t) (h2 : t ≤ x (j + 1)) :
    |S t - (y j + (y (j + 1) - y j) * ((t - x j) / (x (j + 1) - x j)))| ≤ 18 * (hi / lo) ^ 3 * D := by
  obtain ⟨c, hon, -, hB⟩ := spline_moments hn hS hlo hl hu hD
  set h : ℕ → ℝ := fun i => x (i + 1) - x i with hdef
  have hpos : ∀ i, i + 1 < n → 0 < h i := fun i hi => by have := hl i hi; simp only [hdef]; linarith
  have hB1 := hB j (by omega)
  have hB2 := hB (j + 1) hj
  have hD0 : 0 ≤ D := (abs_nonneg _).trans (hD j hj)
  have hj0 := hpos j hj
  have hji := hu j hj
  rw [hon j hj t h1 h2]
  have u0 : 0 ≤ t - x j := by linarith
  have u1 : t - x j ≤ h j := by simp only [hdef]; linarith
  rw [show x (j + 1) - x j = h j from rfl] at hji ⊢
  generalize c j = c0 at *
  generalize c (j + 1) = c1 at *
  generalize h j = g at *
  obtain ⟨r, hr⟩ : ∃ r, t - x j = r * g := ⟨(t - x j) / g, by field_simp⟩
  simp only [hr]
  rw [hr] at u0 u1
  have r0 : 0 ≤ r := nonneg_of_mul_nonneg_left u0 hj0
  have r1 : r ≤ 1 := by nlinarith
  have e : y j + ((y (j + 1) - y j) / g - g * (2 * c0 + c1) / 3) * (r * g) + c0 * (r * g) ^ 2 + (c1 - c0) / (3 * g) * (r * g) ^ 3 -
      (y j + (y (j + 1) - y j) * (r * g / g)) = g ^ 2 * (c0 * (-(2 * r) / 3 + r ^ 2 - r ^ 3 / 3) + c1 * (-r / 3 + r ^ 3 / 3)) := by
    field_simp
    ring
  rw [e, abs_mul, abs_of_pos (by positivity : 0 < g ^ 2)]
  have r2 : r ^ 2 ≤ 1 := pow_le_one₀ r0 r1
  have r3 : r ^ 3 ≤ 1 := pow_le_one₀ r0 r1
  have r2' : 0 ≤ r ^ 2 := by positivity
  have r3' : 0 ≤ r ^ 3 := by positivity
  have q1 : |-(2 * r) / 3 + r ^ 2 - r ^ 3 / 3| ≤ 1 := by rw [abs_le]; constructor <;> linarith
  have q2 : |-r / 3 + r ^ 3 / 3| ≤ 1 := by rw [abs_le]; constructor <;> linarith
  set M := 3 * (hi / lo) * (3 * (2 * (D / lo)) / (2 * lo)) with hM
  have hM0 : 0 ≤ M := (abs_nonneg _).trans hB1
  have hsum : |c0 * (-(2 * r) / 3 + r ^ 2 - r ^ 3 / 3) + c1 * (-r / 3 + r ^ 3 / 3)| ≤ 2 * M := by
    refine (abs_add_le _ _).trans ?_
    rw [abs_mul, abs_mul]
    have g1 := mul_le_mul hB1 q1 (abs_nonneg _) hM0
    have g2 := mul_le_mul hB2 q2 (abs_nonneg _) hM0
    linarith
  calc g ^ 2 * _ ≤ hi ^ 2 * (2 * M) := by gcongr
    _ = 18 * (hi / lo) ^ 3 * D := by rw [hM]; field_simp; ring

/-- the cubic spline through samples of a continuous function converges to it uniformly as the samples get denser, on every
family of grids whose steps have bounded ratio, up to the last sample, which may fall short of the end of the interval. -/
theorem spline_converges_le {a b : ℝ} {v : ℝ → ℝ} (hv : ContinuousOn v (Set.Icc a b)) {R : ℝ} (hR : 1 ≤ R) {ε : ℝ} (hε : 0 < ε) :
    ∃ δ > 0, ∀ (n : ℕ) (x : ℕ → ℝ), 5 ≤ n → Inc n x → x 0 = a → x (n - 1) ≤ b → (∀ i, i + 1 < n → x (i + 1) - x i ≤ δ) →
      (∀ i j, i + 1 < n → j + 1 < n → x (i + 1) - x i ≤ R * (x (j + 1) - x j)) →
      ∀ t ∈ Set.Icc a (x (n - 1)), |cubicSpl n x (fun i => v (x i)) t - v t| ≤ ε := by
  have huc := isCompact_Icc.uniformContinuousOn_of_continuous hv
  rw [Metric.uniformContinuousOn_iff] at huc
  have hR3 : 1 ≤ R ^ 3 := one_le_pow₀ hR
  obtain ⟨δ, hδ, huc⟩ := huc (ε / (20 * R ^ 3)) (by positivity)
  refine ⟨δ / 2, by positivity, fun n x hn hx x0 xn hst hra t ht => ?_⟩
  set η := ε / (20 * R ^ 3) with hη
  have hη0 : 0 < η := by positivity
  have hmem : ∀ i < n, x i ∈ Set.Icc a b := fun i hi => ⟨x0 ▸ hx.le (by omega) hi, (hx.le (by omega) (by omega)).trans xn⟩
  obtain ⟨j, hj, hj1, hj2⟩ := inc_panel (by omega) (x := x) (t := t) (x0 ▸ ht.1) ht.2
  have ht : t ∈ Set.Icc a b := ⟨ht.1, ht.2.trans xn⟩
  have hclose : ∀ i, i + 1 < n → ∀ s ∈ Set.Icc a b, x i ≤ s → s ≤ x (i + 1) → |v s - v (x i)| < η := by
    intro i hi s hs h1 h2
    have := huc s hs (x i) (hmem i (by omega)) (by rw [Real.dist_eq, abs_lt]; constructor <;> linarith [hst i hi])
    rwa [Real.dist_eq] at this
  -- smallest and largest step
  obtain ⟨m, hm, hmin⟩ := (range (n - 1)).exists_min_image (fun i => x (i + 1) - x i) ⟨0, by simp only [mem_range]; omega⟩
  rw [mem_range] at hm
  have hlo : 0 < x (m + 1) - x m := sub_pos.2 (hx m (m + 1) (by omega) (by omega))
  have hnear := spline_near_polygon hn (cubicSpl_isSpline hn hx fun i => v (x i)) (hi := R * (x (m + 1) - x m)) (D := η) hlo
    (fun i hi => hmin i (mem_range.2 (by omega))) (fun i hi => hra i m hi (by omega))
    (fun i hi => (hclose i hi _ (hmem (i + 1) hi) (hx.le (by omega) hi) le_rfl).le) hj hj1 hj2
  rw [mul_div_assoc, div_self hlo.ne', mul_one] at hnear
  have k1 := hclose j hj t ht hj1 hj2
  have k2 := hclose j hj _ (hmem (j + 1) hj) (hx.le (by omega) hj) le_rfl
  have hjp : 0 < x (j + 1) - x j := sub_pos.2 (hx j (j + 1) (by omega) hj)
  set lam := (t - x j) / (x (j + 1) - x j)
  have l0 : 0 ≤ lam := div_nonneg (by linarith) hjp.le
  have l1 : lam ≤ 1 := by rw [div_le_one hjp]; linarith
  have k3 : |(v (x (j + 1)) - v (x j)) * lam| ≤ η := by
    rw [abs_mul, abs_of_nonneg l0]
    nlinarith [abs_nonneg (v (x (j + 1)) - v (x j))]
  have k4 : 18 * R ^ 3 * η + η + η ≤ ε := by
    have : 20 * R ^ 3 * η = ε := by rw [hη]; field_simp
    nlinarith
  have hfin : ∀ A B C E : ℝ, |A - (B + C)| ≤ 18 * R ^ 3 * η → |E - B| < η → |C| ≤ η → |A - E| ≤ 18 * R ^ 3 * η + η + η := by
    intro A B C E q1 q2 q3
    rw [abs_le] at *
    rw [abs_lt] at q2
    constructor <;> linarith [q1.1, q1.2, q2.1, q2.2, q3.1, q3.2]
  have := hfin _ _ _ _ hnear k1 k3
  linarith

/-- the same with the last sample at the end of the interval. -/
theorem spline_converges {a b : ℝ} {v : ℝ → ℝ} (hv : ContinuousOn v (Set.Icc a b)) {R : ℝ} (hR : 1 ≤ R) {ε : ℝ} (hε : 0 < ε) :
    ∃ δ > 0, ∀ (n : ℕ) (x : ℕ → ℝ), 5 ≤ n → Inc n x → x 0 = a → x (n - 1) = b → (∀ i, i + 1 < n → x (i + 1) - x i ≤ δ) →
      (∀ i j, i + 1 < n → j + 1 < n → x (i + 1) - x i ≤ R * (x (j + 1) - x j)) →
      ∀ t ∈ Set.Icc a b, |cubicSpl n x (fun i => v (x i)) t - v t| ≤ ε := by
  obtain ⟨δ, hδ, h⟩ := spline_converges_le hv hR hε
  exact ⟨δ, hδ, fun n x hn hx x0 xn hst hra t ht => h n x hn hx x0 xn.le hst hra t (by rw [xn]; exact ht)⟩

theorem stp_inc {a b : ℝ} (hab : a < b) (n : ℕ) : Inc (n + 2) fun i : ℕ => a + i * stp a b n := by
  intro i k hik _
  have hh : 0 < stp a b n := div_pos (by linarith) (by positivity)
  have : (i:ℝ) < k := by exact_mod_cast hik
  nlinarith

/-- on refined uniform grids. -/
theorem cubicSpl_conv : SplConv cubicSpl := by
  intro a b v hab hv ε hε
  obtain ⟨δ, hδ, hu⟩ := spline_converges hv le_rfl hε
  have h1 : ∀ᶠ n : ℕ in Filter.atTop, stp a b n < δ := (stp_tendsto a b).eventually_lt_const hδ
  filter_upwards [h1, Filter.eventually_ge_atTop 3] with n hn hn3
  have st : ∀ i : ℕ, (a + ((i + 1 : ℕ):ℝ) * stp a b n) - (a + (i:ℝ) * stp a b n) = stp a b n := by intro i; push_cast; ring
  refine hu (n + 2) _ (by omega) (stp_inc hab n) (by simp) ?_ (fun i _ => by rw [st]; exact hn.le) (fun i j _ _ => by rw [st, st, one_mul])
  rw [show n + 2 - 1 = n + 1 by omega, stp]
  push_cast
  field_simp
  ring

end Halomod.Tools
