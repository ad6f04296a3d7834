import Mathlib.Algebra.BigOperators.Intervals
import Mathlib.Algebra.BigOperators.Field
import Mathlib.Algebra.Order.BigOperators.Ring.Finset
import Mathlib.Data.Real.Basic
import Mathlib.Tactic.Ring
import Mathlib.Tactic.Linarith
import Mathlib.Tactic.FieldSimp
import Mathlib.Tactic.Positivity

/-!
# Quadrature primitives of numpy/scipy

A sampled array is a function `ℕ → ℝ` together with its length `n`; entries at or beyond `n` are never
used (`*_congr`).
-/
namespace Halomod

open Finset

noncomputable section

/-- `scipy.integrate._quadrature._basic_simpson` with constant spacing: sum of `b` parabolic blocks
`y[2i] + 4 y[2i+1] + y[2i+2]`, times `dx/3`. -/
def basicSimpson (b : ℕ) (dx : ℝ) (y : ℕ → ℝ) : ℝ :=
  dx / 3 * ∑ i ∈ range b, (y (2 * i) + 4 * y (2 * i + 1) + y (2 * i + 2))

/-- `scipy.integrate.simpson(y, dx=dx)` (scipy ≥ 1.11).  Odd `n`: composite Simpson.  Even `n`: `n = 2`
trapezoid, else composite Simpson on the first `n-1` samples and Cartwright's correction
`alpha*y[-1] + beta*y[-2] - eta*y[-3]` with `alpha = 5/12`, `beta = 2/3`, `eta = 1/12` (times `dx`)
on the last interval.  `n = 1` gives 0. -/
def simpsonDx (n : ℕ) (dx : ℝ) (y : ℕ → ℝ) : ℝ :=
  if n % 2 = 0 then
    if n = 2 then 0.5 * dx * (y 1 + y 0)
    else basicSimpson ((n - 2) / 2) dx y
      + ((2 * dx ^ 2 + 3 * dx * dx) / (6 * (dx + dx)) * y (n - 1)
        + (dx ^ 2 + 3 * dx * dx) / (6 * dx) * y (n - 2)
        - dx ^ 3 / (6 * dx * (dx + dx)) * y (n - 3))
  else basicSimpson ((n - 1) / 2) dx y

/-- One parabolic block of `_basic_simpson` with abscissae (uneven spacing). -/
def simpsonBlock (h0 h1 y0 y1 y2 : ℝ) : ℝ :=
  (h0 + h1) / 6 * (y0 * (2 - 1 / (h0 / h1)) + y1 * ((h0 + h1) * ((h0 + h1) / (h0 * h1)))
    + y2 * (2 - h0 / h1))

/-- `_basic_simpson` with abscissae. -/
def basicSimpsonX (b : ℕ) (x y : ℕ → ℝ) : ℝ :=
  ∑ i ∈ range b, simpsonBlock (x (2 * i + 1) - x (2 * i)) (x (2 * i + 2) - x (2 * i + 1))
    (y (2 * i)) (y (2 * i + 1)) (y (2 * i + 2))

/-- `scipy.integrate.simpson(y, x=x)` (scipy ≥ 1.11). -/
def simpsonX (n : ℕ) (x y : ℕ → ℝ) : ℝ :=
  if n % 2 = 0 then
    if n = 2 then 0.5 * (x 1 - x 0) * (y 1 + y 0)
    else
      let h0 := x (n - 2) - x (n - 3)
      let h1 := x (n - 1) - x (n - 2)
      basicSimpsonX ((n - 2) / 2) x y
        + ((2 * h1 ^ 2 + 3 * h0 * h1) / (6 * (h1 + h0)) * y (n - 1)
          + (h1 ^ 2 + 3 * h0 * h1) / (6 * h0) * y (n - 2)
          - h1 ^ 3 / (6 * h0 * (h0 + h1)) * y (n - 3))
  else basicSimpsonX ((n - 1) / 2) x y

/-- `numpy.trapezoid(y, dx=dx)`. -/
def trapzDx (n : ℕ) (dx : ℝ) (y : ℕ → ℝ) : ℝ :=
  ∑ i ∈ range (n - 1), dx * (y i + y (i + 1)) / 2

/-- `scipy.integrate.cumulative_trapezoid(y, dx=dx, initial=0)` at index `i`. -/
def cumtrapz0 (dx : ℝ) (y : ℕ → ℝ) (i : ℕ) : ℝ := ∑ j ∈ range i, dx * (y j + y (j + 1)) / 2

end

/-! ## elementary facts -/

theorem basicSimpson_add (b : ℕ) (dx : ℝ) (f g : ℕ → ℝ) :
    basicSimpson b dx (fun i => f i + g i) = basicSimpson b dx f + basicSimpson b dx g := by
  unfold basicSimpson
  rw [← mul_add, ← sum_add_distrib]; congr 1; apply sum_congr rfl; intros; ring

theorem basicSimpson_mul (b : ℕ) (dx c : ℝ) (f : ℕ → ℝ) :
    basicSimpson b dx (fun i => c * f i) = c * basicSimpson b dx f := by
  unfold basicSimpson
  rw [mul_left_comm, mul_sum (a := c)]; congr 1; apply sum_congr rfl; intros; ring

theorem simpsonDx_add (n : ℕ) (dx : ℝ) (f g : ℕ → ℝ) :
    simpsonDx n dx (fun i => f i + g i) = simpsonDx n dx f + simpsonDx n dx g := by
  unfold simpsonDx
  split_ifs
  · ring
  · rw [basicSimpson_add]; ring
  · exact basicSimpson_add _ _ _ _

theorem simpsonDx_mul (n : ℕ) (dx c : ℝ) (f : ℕ → ℝ) :
    simpsonDx n dx (fun i => c * f i) = c * simpsonDx n dx f := by
  unfold simpsonDx
  split_ifs
  · ring
  · rw [basicSimpson_mul]; ring
  · exact basicSimpson_mul _ _ _ _

theorem simpsonDx_mul_right (n : ℕ) (dx c : ℝ) (f : ℕ → ℝ) :
    simpsonDx n dx (fun i => f i * c) = simpsonDx n dx f * c := by
  rw [mul_comm, ← simpsonDx_mul]; congr 1; ext; ring

theorem basicSimpson_congr {b : ℕ} {dx : ℝ} {f g : ℕ → ℝ} (h : ∀ i < 2 * b + 1, f i = g i) :
    basicSimpson b dx f = basicSimpson b dx g := by
  unfold basicSimpson; congr 1; apply sum_congr rfl; intro i hi
  have := mem_range.mp hi
  rw [h _ (by omega), h _ (by omega), h _ (by omega)]

/-- Only the first `n` samples matter. -/
theorem simpsonDx_congr {n : ℕ} {dx : ℝ} {f g : ℕ → ℝ} (hn : 0 < n) (h : ∀ i < n, f i = g i) :
    simpsonDx n dx f = simpsonDx n dx g := by
  unfold simpsonDx
  split_ifs with h1 h2
  · rw [h 1 (by omega), h 0 (by omega)]
  · rw [h _ (by omega), h _ (by omega), h _ (by omega),
      basicSimpson_congr fun i hi => h i (by omega)]
  · exact basicSimpson_congr fun i hi => h i (by omega)

theorem basicSimpson_nonneg {b : ℕ} {dx : ℝ} {f : ℕ → ℝ} (hdx : 0 ≤ dx)
    (h : ∀ i < 2 * b + 1, 0 ≤ f i) : 0 ≤ basicSimpson b dx f := by
  unfold basicSimpson
  apply mul_nonneg (by positivity)
  apply sum_nonneg; intro i hi
  have := mem_range.mp hi
  have h1 := h (2 * i) (by omega)
  have h2 := h (2 * i + 1) (by omega)
  have h3 := h (2 * i + 2) (by omega)
  positivity

/-- On a uniform grid the Simpson rule has non-negative weights, whatever the parity of `n`. -/
theorem simpsonDx_nonneg {n : ℕ} {dx : ℝ} {f : ℕ → ℝ} (hn : 0 < n) (hdx : 0 ≤ dx)
    (h : ∀ i < n, 0 ≤ f i) : 0 ≤ simpsonDx n dx f := by
  unfold simpsonDx
  split_ifs with h1 h2
  · have := h 1 (by omega); have := h 0 (by omega); positivity
  · rcases hdx.eq_or_lt with h0 | h0
    · subst h0; simp [basicSimpson]
    obtain ⟨b, hb⟩ : ∃ b, n = 2 * b + 4 := ⟨(n - 4) / 2, by omega⟩
    subst hb
    have e1 : (2 * b + 4 - 2) / 2 = b + 1 := by omega
    have e2 : 2 * b + 4 - 1 = 2 * b + 3 := by omega
    have e3 : 2 * b + 4 - 2 = 2 * b + 2 := by omega
    have e4 : 2 * b + 4 - 3 = 2 * b + 1 := by omega
    rw [e1, e2, e3, e4]
    have hsplit : basicSimpson (b + 1) dx f = basicSimpson b dx f
        + dx / 3 * (f (2 * b) + 4 * f (2 * b + 1) + f (2 * b + 2)) := by
      unfold basicSimpson; rw [sum_range_succ]; ring
    rw [hsplit]
    have hb0 : 0 ≤ basicSimpson b dx f := basicSimpson_nonneg h0.le fun i hi => h i (by omega)
    have f0 := h (2 * b) (by omega)
    have f1 := h (2 * b + 1) (by omega)
    have f2 := h (2 * b + 2) (by omega)
    have f3 := h (2 * b + 3) (by omega)
    have c1 : (2 * dx ^ 2 + 3 * dx * dx) / (6 * (dx + dx)) = 5 / 12 * dx := by field_simp; ring
    have c2 : (dx ^ 2 + 3 * dx * dx) / (6 * dx) = 2 / 3 * dx := by field_simp; ring
    have c3 : dx ^ 3 / (6 * dx * (dx + dx)) = 1 / 12 * dx := by field_simp; ring
    rw [c1, c2, c3]
    have := mul_nonneg h0.le f0
    have := mul_nonneg h0.le f1
    have := mul_nonneg h0.le f2
    have := mul_nonneg h0.le f3
    nlinarith
  · exact basicSimpson_nonneg hdx fun i hi => h i (by omega)

theorem simpsonDx_sub (n : ℕ) (dx : ℝ) (f g : ℕ → ℝ) :
    simpsonDx n dx (fun i => f i - g i) = simpsonDx n dx f - simpsonDx n dx g := by
  have h := simpsonDx_add n dx f (fun i => (-1) * g i)
  rw [simpsonDx_mul] at h
  have e : (fun i => f i - g i) = fun i => f i + (-1) * g i := by ext; ring
  rw [e, h]; ring

theorem simpsonDx_mono {n : ℕ} {dx : ℝ} {f g : ℕ → ℝ} (hn : 0 < n) (hdx : 0 ≤ dx)
    (h : ∀ i < n, f i ≤ g i) : simpsonDx n dx f ≤ simpsonDx n dx g := by
  have := simpsonDx_nonneg (f := fun i => g i - f i) hn hdx fun i hi => by linarith [h i hi]
  rw [simpsonDx_sub] at this; linarith

theorem basicSimpson_const (b : ℕ) (dx c : ℝ) : basicSimpson b dx (fun _ => c) = 2 * b * dx * c := by
  unfold basicSimpson; rw [sum_const, card_range]; simp; ring

/-- Simpson is exact for constants for every number of samples. -/
theorem simpsonDx_const {n : ℕ} (dx c : ℝ) (hn : 0 < n) :
    simpsonDx n dx (fun _ => c) = (n - 1) * dx * c := by
  unfold simpsonDx
  split_ifs with h1 h2
  · subst h2; norm_num; ring
  · rw [basicSimpson_const]
    obtain ⟨b, hb⟩ : ∃ b, n = 2 * b + 4 := ⟨(n - 4) / 2, by omega⟩
    subst hb
    have e1 : (2 * b + 4 - 2) / 2 = b + 1 := by omega
    rw [e1]
    by_cases h0 : dx = 0
    · subst h0; simp
    · push_cast; field_simp; ring
  · rw [basicSimpson_const]
    obtain ⟨b, hb⟩ : ∃ b, n = 2 * b + 1 := ⟨(n - 1) / 2, by omega⟩
    subst hb
    have e1 : (2 * b + 1 - 1) / 2 = b := by omega
    rw [e1]; push_cast; ring

/-- The two-dimensional iterated Simpson rule of a separable integrand is the product. -/
theorem simpsonDx_outer (n : ℕ) (dx : ℝ) (f g : ℕ → ℝ) :
    simpsonDx n dx (fun i => simpsonDx n dx fun j => f i * g j)
      = simpsonDx n dx f * simpsonDx n dx g := by
  simp only [simpsonDx_mul]
  exact simpsonDx_mul_right n dx _ f

theorem trapzDx_mul (n : ℕ) (dx c : ℝ) (f : ℕ → ℝ) :
    trapzDx n dx (fun i => c * f i) = c * trapzDx n dx f := by
  unfold trapzDx; rw [mul_sum]; apply sum_congr rfl; intros; ring

theorem trapzDx_add (n : ℕ) (dx : ℝ) (f g : ℕ → ℝ) :
    trapzDx n dx (fun i => f i + g i) = trapzDx n dx f + trapzDx n dx g := by
  unfold trapzDx; rw [← sum_add_distrib]; apply sum_congr rfl; intros; ring

theorem trapzDx_congr {n : ℕ} {dx : ℝ} {f g : ℕ → ℝ} (h : ∀ i < n, f i = g i) :
    trapzDx n dx f = trapzDx n dx g := by
  unfold trapzDx; apply sum_congr rfl; intro i hi
  have := mem_range.mp hi
  rw [h i (by omega), h (i + 1) (by omega)]

theorem cumtrapz0_mono {dx : ℝ} {f : ℕ → ℝ} (hdx : 0 ≤ dx) (h : ∀ i, 0 ≤ f i) :
    Monotone (cumtrapz0 dx f) := by
  apply monotone_nat_of_le_succ; intro i
  unfold cumtrapz0; rw [sum_range_succ]
  have := h i; have := h (i + 1)
  have : 0 ≤ dx * (f i + f (i + 1)) / 2 := by positivity
  linarith

/-! simpson with abscissae -/

theorem simpsonX_mul (n : ℕ) (x : ℕ → ℝ) (c : ℝ) (f : ℕ → ℝ) :
    simpsonX n x (fun i => c * f i) = c * simpsonX n x f := by
  have hb : ∀ b, basicSimpsonX b x (fun i => c * f i) = c * basicSimpsonX b x f := by
    intro b; unfold basicSimpsonX; rw [mul_sum]; apply sum_congr rfl; intros
    unfold simpsonBlock; ring
  unfold simpsonX
  split_ifs
  · ring
  · simp only [hb]; ring
  · exact hb _

theorem simpsonX_add (n : ℕ) (x f g : ℕ → ℝ) :
    simpsonX n x (fun i => f i + g i) = simpsonX n x f + simpsonX n x g := by
  have hb : ∀ b, basicSimpsonX b x (fun i => f i + g i)
      = basicSimpsonX b x f + basicSimpsonX b x g := by
    intro b; unfold basicSimpsonX; rw [← sum_add_distrib]; apply sum_congr rfl; intros
    unfold simpsonBlock; ring
  unfold simpsonX
  split_ifs
  · ring
  · simp only [hb]; ring
  · exact hb _

theorem simpsonX_congr {n : ℕ} {x f g : ℕ → ℝ} (hn : 0 < n) (h : ∀ i < n, f i = g i) :
    simpsonX n x f = simpsonX n x g := by
  have hb : ∀ b, 2 * b + 1 ≤ n → basicSimpsonX b x f = basicSimpsonX b x g := by
    intro b hb; unfold basicSimpsonX; apply sum_congr rfl; intro i hi
    have := mem_range.mp hi
    rw [h _ (by omega), h _ (by omega), h _ (by omega)]
  unfold simpsonX
  split_ifs with h1 h2
  · rw [h 1 (by omega), h 0 (by omega)]
  · simp only [h (n - 1) (by omega), h (n - 2) (by omega), h (n - 3) (by omega)]
    rw [hb _ (by omega)]
  · exact hb _ (by omega)

theorem simpsonBlock_uniform {dx : ℝ} (h : dx ≠ 0) (y0 y1 y2 : ℝ) :
    simpsonBlock dx dx y0 y1 y2 = dx / 3 * (y0 + 4 * y1 + y2) := by
  unfold simpsonBlock; field_simp; ring

/-- On a uniform grid the abscissa version is the `dx` version. -/
theorem simpsonX_uniform {n : ℕ} {x : ℕ → ℝ} {dx : ℝ} (hdx : dx ≠ 0)
    (hx : ∀ i, i + 1 < n → x (i + 1) - x i = dx) (hn : 0 < n) (y : ℕ → ℝ) :
    simpsonX n x y = simpsonDx n dx y := by
  have hb : ∀ b, 2 * b + 1 ≤ n → basicSimpsonX b x y = basicSimpson b dx y := by
    intro b hb; unfold basicSimpsonX basicSimpson; rw [mul_sum]; apply sum_congr rfl; intro i hi
    have := mem_range.mp hi
    rw [hx (2 * i) (by omega), hx (2 * i + 1) (by omega), simpsonBlock_uniform hdx]
  unfold simpsonX simpsonDx
  split_ifs with h1 h2
  · rw [hx 0 (by omega)]
  · have e1 : x (n - 2) - x (n - 3) = dx := by
      have := hx (n - 3) (by omega); rwa [show n - 3 + 1 = n - 2 by omega] at this
    have e2 : x (n - 1) - x (n - 2) = dx := by
      have := hx (n - 2) (by omega); rwa [show n - 2 + 1 = n - 1 by omega] at this
    simp only [e1, e2]
    rw [hb _ (by omega)]
  · exact hb _ (by omega)

end Halomod
