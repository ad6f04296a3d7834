import Verif.Lemmas.Spline3
import Mathlib.Analysis.SpecialFunctions.Trigonometric.Deriv

/-!
# C62: accuracy of the interpolating spline on any table
-/
namespace Halomod.Tools

open Finset Halomod.Spec

/-- the value of the interpolant at a point is a fixed combination of the tabulated values. -/
theorem cubicSpl_weights (n : ℕ) (x : ℕ → ℝ) (t : ℝ) : ∃ w : ℕ → ℝ, ∀ y : ℕ → ℝ, cubicSpl n x y t = ∑ i ∈ range n, w i * y i := by
  refine ⟨fun i => if h : i < n then ∑ k : Fin n, (splMatrix n x)⁻¹ k ⟨i, h⟩ * splBasis x k t else 0, fun y => ?_⟩
  unfold cubicSpl
  rw [Finset.sum_range]
  have : ∀ k : Fin n, ((splMatrix n x)⁻¹.mulVec fun i : Fin n => y i) k * splBasis x k t =
      ∑ i : Fin n, (splMatrix n x)⁻¹ k i * splBasis x k t * y i := by
    intro k
    unfold Matrix.mulVec dotProduct
    rw [Finset.sum_mul]
    exact Finset.sum_congr rfl fun i _ => by ring
  simp only [this, Fin.is_lt, dif_pos, Fin.eta]
  rw [Finset.sum_comm]
  exact Finset.sum_congr rfl fun i _ => by rw [Finset.sum_mul]

/-- C62: on every increasing table of at least five points, however irregular, the interpolant of a function with second derivative bounded by `B` is off by at
most `(1/2 + 3/4 ρ) B` times the square of the local step; `ρ` bounds the ratio of the outermost step to its neighbour at either end. -/
theorem C62_accuracy {n : ℕ} (hn : 5 ≤ n) {x : ℕ → ℝ} (hx : ∀ i j, i < j → j < n → x i < x j) {ρ : ℝ}
    (hr1 : x 1 - x 0 ≤ ρ * (x 2 - x 1)) (hr2 : x (n - 1) - x (n - 2) ≤ ρ * (x (n - 2) - x (n - 3)))
    {f f' f'' : ℝ → ℝ} {B : ℝ} (h1 : ∀ t ∈ Set.Icc (x 0) (x (n - 1)), HasDerivWithinAt f (f' t) (Set.Icc (x 0) (x (n - 1))) t)
    (h2 : ∀ t ∈ Set.Icc (x 0) (x (n - 1)), HasDerivWithinAt f' (f'' t) (Set.Icc (x 0) (x (n - 1))) t) (hB : ∀ t ∈ Set.Icc (x 0) (x (n - 1)), |f'' t| ≤ B)
    {j : ℕ} (hj : j + 1 < n) {t : ℝ} (ht : x j ≤ t) (ht' : t ≤ x (j + 1)) :
    |cubicSpl n x (fun i => f (x i)) t - f t| ≤ (1 / 2 + 3 / 4 * ρ) * B * (x (j + 1) - x j) ^ 2 :=
  cubicSpl_accuracy hn hx hr1 hr2 h1 h2 hB hj ht ht'

/-- every point of the range of a table lies between two neighbouring entries. -/
theorem bracket {n : ℕ} (hn : 2 ≤ n) {x : ℕ → ℝ} {t : ℝ} (h0 : x 0 ≤ t) (h1 : t ≤ x (n - 1)) :
    ∃ j, j + 1 < n ∧ x j ≤ t ∧ t ≤ x (j + 1) := by
  classical
  have hex : ∃ j, t ≤ x (j + 1) := ⟨n - 2, by rwa [show n - 2 + 1 = n - 1 by omega]⟩
  refine ⟨Nat.find hex, ?_, ?_, Nat.find_spec hex⟩
  · have := Nat.find_min' hex (show t ≤ x (n - 2 + 1) by rwa [show n - 2 + 1 = n - 1 by omega])
    omega
  · rcases Nat.eq_zero_or_pos (Nat.find hex) with h | h
    · rw [h]; exact h0
    · have := Nat.find_min hex (m := Nat.find hex - 1) (by omega)
      rw [show Nat.find hex - 1 + 1 = Nat.find hex by omega] at this
      exact (not_le.1 this).le

/-- C62 for logarithmic tables, the kind the package uses for wavenumbers and separations: neighbouring entries in the ratio `q`, relative step `q - 1`. -/
theorem C62_accuracy_log {n : ℕ} (hn : 5 ≤ n) {x : ℕ → ℝ} {q : ℝ} (h0 : 0 < x 0) (hq : 1 < q) (hxq : ∀ i, i + 1 < n → x (i + 1) = q * x i)
    {f f' f'' : ℝ → ℝ} {B : ℝ} (h1 : ∀ t, 0 < t → HasDerivAt f (f' t) t) (h2 : ∀ t, 0 < t → HasDerivAt f' (f'' t) t) (hB : ∀ t, 0 < t → |f'' t| ≤ B)
    {t : ℝ} (ht : x 0 ≤ t) (ht' : t ≤ x (n - 1)) :
    |cubicSpl n x (fun i => f (x i)) t - f t| ≤ (1 / 2 + 3 / 4 * q) * B * ((q - 1) * t) ^ 2 := by
  have hpos : ∀ i, i < n → 0 < x i := by
    intro i
    induction i with
    | zero => exact fun _ => h0
    | succ i ih => intro hi; rw [hxq i hi]; exact mul_pos (by linarith) (ih (by omega))
  have hst : ∀ i, i + 1 < n → x (i + 1) - x i = (q - 1) * x i := fun i hi => by rw [hxq i hi]; ring
  have hx1 : ∀ i, i + 1 < n → x i < x (i + 1) := fun i hi => by
    have := mul_pos (sub_pos.2 hq) (hpos i (by omega)); linarith [hst i hi]
  have hx : ∀ i j, i < j → j < n → x i < x j := by
    intro i j hij
    induction j with
    | zero => omega
    | succ j ih =>
      intro hj
      rcases Nat.lt_or_ge i j with h | h
      · exact (ih h (by omega)).trans (hx1 j hj)
      · rw [show i = j by omega]; exact hx1 j hj
  obtain ⟨j, hj, hj1, hj2⟩ := bracket (by omega) ht ht'
  have hr : ∀ i, i + 2 < n → x (i + 1) - x i ≤ q * (x (i + 2) - x (i + 1)) := by
    intro i hi
    have e : x (i + 2) - x (i + 1) = q * (x (i + 1) - x i) := by
      have e1 := hst (i + 1) (by omega)
      have e2 := hst i (by omega)
      have e3 := hxq i (by omega)
      rw [show i + 1 + 1 = i + 2 from rfl] at e1
      rw [e1, e2, e3]; ring
    rw [e]
    have : 0 < x (i + 1) - x i := sub_pos.2 (hx1 i (by omega))
    nlinarith [mul_pos (sub_pos.2 hq) this]
  have hr1 : x 1 - x 0 ≤ q * (x 2 - x 1) := hr 0 (by omega)
  have hr2 : x (n - 1) - x (n - 2) ≤ q * (x (n - 2) - x (n - 3)) := by
    have e1 := hst (n - 2) (by omega)
    have e2 := hst (n - 3) (by omega)
    have e3 := hxq (n - 3) (by omega)
    rw [show n - 2 + 1 = n - 1 by omega] at e1
    rw [show n - 3 + 1 = n - 2 by omega] at e2 e3
    rw [e1, e2, e3]; exact le_of_eq (by ring)
  have hp : ∀ s ∈ Set.Icc (x 0) (x (n - 1)), 0 < s := fun s hs => h0.trans_le hs.1
  have key := C62_accuracy hn hx hr1 hr2 (f := f) (f' := f') (f'' := f'') (B := B) (fun s hs => (h1 s (hp s hs)).hasDerivWithinAt)
    (fun s hs => (h2 s (hp s hs)).hasDerivWithinAt) (fun s hs => hB s (hp s hs)) hj hj1 hj2
  refine key.trans ?_
  have hB0 : 0 ≤ B := (abs_nonneg _).trans (hB 1 one_pos)
  have hx0 := hpos j (by omega)
  rw [hst j hj]
  have h3 : (q - 1) * x j ≤ (q - 1) * t := mul_le_mul_of_nonneg_left hj1 (by linarith)
  have h4 : 0 ≤ (q - 1) * x j := mul_nonneg (by linarith) hx0.le
  have h5 : ((q - 1) * x j) ^ 2 ≤ ((q - 1) * t) ^ 2 := pow_le_pow_left₀ h4 h3 2
  exact mul_le_mul_of_nonneg_left h5 (mul_nonneg (by linarith) hB0)

/-- 100 wavenumbers in the ratio 1.1: the cosine is interpolated to `1.4 (0.1 t)²`. -/
example (t : ℝ) (h1 : 1 ≤ t) (h2 : t ≤ (1.1 : ℝ) ^ 99) :
    |cubicSpl 100 (fun i : ℕ => (1.1:ℝ) ^ i) (fun i => Real.cos ((1.1:ℝ) ^ i)) t - Real.cos t| ≤ 1.4 * (0.1 * t) ^ 2 := by
  have := C62_accuracy_log (n := 100) (by norm_num) (x := fun i : ℕ => (1.1:ℝ) ^ i) (q := 1.1) (by norm_num) (by norm_num) (fun i _ => by ring)
    (f := Real.cos) (f' := fun t => -Real.sin t) (f'' := fun t => -Real.cos t) (B := 1) (fun t _ => Real.hasDerivAt_cos t)
    (fun t _ => (Real.hasDerivAt_sin t).neg) (fun t _ => by rw [abs_neg]; exact Real.abs_cos_le_one t) (t := t) (by simpa using h1) h2
  refine this.trans ?_
  have : 0 ≤ t ^ 2 := sq_nonneg t
  nlinarith

end Halomod.Tools
