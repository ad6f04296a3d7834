import Verif.Prelude.Quad
import Mathlib.Tactic

/-!
# Simpson's rule on uneven grids: error and stability
-/
namespace Halomod

open Finset

/-- a grid whose neighbouring steps differ at most by a factor 2 (then the weights of Simpson's rule are
not negative). -/
structure Graded (n : ℕ) (x : ℕ → ℝ) : Prop where
  mono : ∀ i, i + 1 < n → x i < x (i + 1)
  up : ∀ i, i + 2 < n → x (i + 2) - x (i + 1) ≤ 2 * (x (i + 1) - x i)
  down : ∀ i, i + 2 < n → x (i + 1) - x i ≤ 2 * (x (i + 2) - x (i + 1))

/-- one block against the sum of the integrals over its two intervals. -/
theorem simpsonBlock_err {h0 h1 y0 y1 y2 I0 I1 ω : ℝ} (p0 : 0 < h0) (p1 : 0 < h1) (u : h1 ≤ 2 * h0) (d : h0 ≤ 2 * h1)
    (a0 : |I0 - h0 * y0| ≤ h0 * ω) (a1 : |I0 - h0 * y1| ≤ h0 * ω) (a2 : |I0 - h0 * y2| ≤ h0 * ω)
    (b0 : |I1 - h1 * y0| ≤ h1 * ω) (b1 : |I1 - h1 * y1| ≤ h1 * ω) (b2 : |I1 - h1 * y2| ≤ h1 * ω) :
    |simpsonBlock h0 h1 y0 y1 y2 - (I0 + I1)| ≤ (h0 + h1) * ω := by
  have e : simpsonBlock h0 h1 y0 y1 y2 - (I0 + I1) =
      (2 - h1 / h0) / 6 * ((h0 + h1) * y0 - (I0 + I1)) + ((h0 + h1) ^ 2 / (h0 * h1)) / 6 * ((h0 + h1) * y1 - (I0 + I1)) +
        (2 - h0 / h1) / 6 * ((h0 + h1) * y2 - (I0 + I1)) := by
    unfold simpsonBlock
    field_simp
    ring
  have w0 : 0 ≤ (2 - h1 / h0) / 6 := by
    have : h1 / h0 ≤ 2 := by rw [div_le_iff₀ p0]; exact u
    linarith
  have w2 : 0 ≤ (2 - h0 / h1) / 6 := by
    have : h0 / h1 ≤ 2 := by rw [div_le_iff₀ p1]; exact d
    linarith
  have w1 : 0 ≤ ((h0 + h1) ^ 2 / (h0 * h1)) / 6 := by positivity
  have hs : (2 - h1 / h0) / 6 + ((h0 + h1) ^ 2 / (h0 * h1)) / 6 + (2 - h0 / h1) / 6 = 1 := by
    field_simp; ring
  have c0 : |(h0 + h1) * y0 - (I0 + I1)| ≤ (h0 + h1) * ω := by
    rw [abs_le] at *; constructor <;> linarith [a0.1, a0.2, b0.1, b0.2]
  have c1 : |(h0 + h1) * y1 - (I0 + I1)| ≤ (h0 + h1) * ω := by
    rw [abs_le] at *; constructor <;> linarith [a1.1, a1.2, b1.1, b1.2]
  have c2 : |(h0 + h1) * y2 - (I0 + I1)| ≤ (h0 + h1) * ω := by
    rw [abs_le] at *; constructor <;> linarith [a2.1, a2.2, b2.1, b2.2]
  rw [e]
  generalize (2 - h1 / h0) / 6 = A at *
  generalize ((h0 + h1) ^ 2 / (h0 * h1)) / 6 = B at *
  generalize (2 - h0 / h1) / 6 = D at *
  generalize (h0 + h1) * ω = W at *
  calc |A * ((h0 + h1) * y0 - (I0 + I1)) + B * ((h0 + h1) * y1 - (I0 + I1)) + D * ((h0 + h1) * y2 - (I0 + I1))|
      ≤ |A * ((h0 + h1) * y0 - (I0 + I1))| + |B * ((h0 + h1) * y1 - (I0 + I1))| + |D * ((h0 + h1) * y2 - (I0 + I1))| :=
        abs_add_three _ _ _
    _ ≤ A * W + B * W + D * W := by
        rw [abs_mul, abs_mul, abs_mul, abs_of_nonneg w0, abs_of_nonneg w1, abs_of_nonneg w2]
        gcongr
    _ = W := by rw [← add_mul, ← add_mul, hs, one_mul]

/-- the correction for the last interval of an even number of samples. -/
theorem cartwright_err {h0 h1 y0 y1 y2 I1 ω : ℝ} (p0 : 0 < h0) (p1 : 0 < h1) (u : h1 ≤ 2 * h0)
    (b0 : |I1 - h1 * y0| ≤ h1 * ω) (b1 : |I1 - h1 * y1| ≤ h1 * ω) (b2 : |I1 - h1 * y2| ≤ h1 * ω) :
    |((2 * h1 ^ 2 + 3 * h0 * h1) / (6 * (h1 + h0)) * y2 + (h1 ^ 2 + 3 * h0 * h1) / (6 * h0) * y1
      - h1 ^ 3 / (6 * h0 * (h0 + h1)) * y0) - I1| ≤ 3 * (h1 * ω) := by
  have e : ((2 * h1 ^ 2 + 3 * h0 * h1) / (6 * (h1 + h0)) * y2 + (h1 ^ 2 + 3 * h0 * h1) / (6 * h0) * y1
      - h1 ^ 3 / (6 * h0 * (h0 + h1)) * y0) - I1 =
      (2 * h1 + 3 * h0) / (6 * (h1 + h0)) * (h1 * y2 - I1) + (h1 + 3 * h0) / (6 * h0) * (h1 * y1 - I1)
        - h1 ^ 2 / (6 * h0 * (h0 + h1)) * (h1 * y0 - I1) := by
    have : h1 + h0 ≠ 0 := by positivity
    have : h0 + h1 ≠ 0 := by positivity
    field_simp
    ring
  have wA : 0 ≤ (2 * h1 + 3 * h0) / (6 * (h1 + h0)) := by positivity
  have wB : 0 ≤ (h1 + 3 * h0) / (6 * h0) := by positivity
  have wE : 0 ≤ h1 ^ 2 / (6 * h0 * (h0 + h1)) := by positivity
  have hW : 0 ≤ h1 * ω := (abs_nonneg _).trans b0
  have hs : (2 * h1 + 3 * h0) / (6 * (h1 + h0)) + (h1 + 3 * h0) / (6 * h0) + h1 ^ 2 / (6 * h0 * (h0 + h1)) ≤ 3 := by
    have h01 : 0 < h0 + h1 := by positivity
    have e3 : (2 * h1 + 3 * h0) / (6 * (h1 + h0)) + (h1 + 3 * h0) / (6 * h0) + h1 ^ 2 / (6 * h0 * (h0 + h1)) =
        (h0 * (2 * h1 + 3 * h0) + (h1 + 3 * h0) * (h0 + h1) + h1 ^ 2) / (6 * h0 * (h0 + h1)) := by
      rw [add_comm h1 h0]; field_simp
    rw [e3, div_le_iff₀ (by positivity)]
    nlinarith
  rw [e]
  rw [abs_sub_comm] at b0 b1 b2
  generalize (2 * h1 + 3 * h0) / (6 * (h1 + h0)) = A at *
  generalize (h1 + 3 * h0) / (6 * h0) = B at *
  generalize h1 ^ 2 / (6 * h0 * (h0 + h1)) = E at *
  generalize h1 * ω = W at *
  calc |A * (h1 * y2 - I1) + B * (h1 * y1 - I1) - E * (h1 * y0 - I1)|
      ≤ |A * (h1 * y2 - I1)| + |B * (h1 * y1 - I1)| + |E * (h1 * y0 - I1)| :=
        (abs_sub _ _).trans (add_le_add (abs_add_le _ _) le_rfl)
    _ ≤ A * W + B * W + E * W := by
        rw [abs_mul, abs_mul, abs_mul, abs_of_nonneg wA, abs_of_nonneg wB, abs_of_nonneg wE]
        gcongr
    _ ≤ 3 * W := by rw [← add_mul, ← add_mul]; gcongr

/-- Simpson's rule on a graded grid differs from the sum of the integrals over the intervals by at most three times
the length times the oscillation. -/
theorem simpsonX_err {n : ℕ} {x y : ℕ → ℝ} (hn : 2 ≤ n) (hx : Graded n x) {I : ℕ → ℝ} {ω : ℝ}
    (hI : ∀ j k, j + 1 < n → k < n → k ≤ j + 2 → j ≤ k + 1 → |I j - (x (j + 1) - x j) * y k| ≤ (x (j + 1) - x j) * ω) :
    |simpsonX n x y - ∑ j ∈ range (n - 1), I j| ≤ 3 * ((x (n - 1) - x 0) * ω) := by
  have hω : 0 ≤ ω := by
    have h1 := (abs_nonneg _).trans (hI 0 0 (by omega) (by omega) (by omega) (by omega))
    exact nonneg_of_mul_nonneg_right h1 (by have := hx.mono 0 (by omega); linarith)
  have basic : ∀ b, 2 * b + 1 ≤ n → |basicSimpsonX b x y - ∑ j ∈ range (2 * b), I j| ≤ (x (2 * b) - x 0) * ω := by
    intro b
    induction b with
    | zero => intro _; simp [basicSimpsonX]
    | succ b ih =>
      intro hb
      have ih' := ih (by omega)
      have hS : basicSimpsonX (b + 1) x y = basicSimpsonX b x y + simpsonBlock (x (2 * b + 1) - x (2 * b))
          (x (2 * b + 2) - x (2 * b + 1)) (y (2 * b)) (y (2 * b + 1)) (y (2 * b + 2)) := by
        unfold basicSimpsonX; rw [sum_range_succ]
      have hr : ∑ j ∈ range (2 * (b + 1)), I j = ∑ j ∈ range (2 * b), I j + (I (2 * b) + I (2 * b + 1)) := by
        rw [show 2 * (b + 1) = 2 * b + 1 + 1 by ring, sum_range_succ, sum_range_succ]; ring
      have m0 := hx.mono (2 * b) (by omega)
      have m1 := hx.mono (2 * b + 1) (by omega)
      have blk := simpsonBlock_err (h0 := x (2 * b + 1) - x (2 * b)) (h1 := x (2 * b + 2) - x (2 * b + 1))
        (by linarith) (by linarith) (hx.up (2 * b) (by omega)) (hx.down (2 * b) (by omega))
        (hI (2 * b) (2 * b) (by omega) (by omega) (by omega) (by omega))
        (hI (2 * b) (2 * b + 1) (by omega) (by omega) (by omega) (by omega))
        (hI (2 * b) (2 * b + 2) (by omega) (by omega) (by omega) (by omega))
        (hI (2 * b + 1) (2 * b) (by omega) (by omega) (by omega) (by omega))
        (hI (2 * b + 1) (2 * b + 1) (by omega) (by omega) (by omega) (by omega))
        (hI (2 * b + 1) (2 * b + 2) (by omega) (by omega) (by omega) (by omega))
      rw [hS, hr]
      have hx2 : x (2 * (b + 1)) = x (2 * b + 2) := by rw [show 2 * (b + 1) = 2 * b + 2 by ring]
      rw [hx2]
      rw [abs_le] at *
      constructor <;> nlinarith [ih'.1, ih'.2, blk.1, blk.2]
  have hmono : ∀ i, i < n → x 0 ≤ x i := by
    intro i
    induction i with
    | zero => intro _; exact le_rfl
    | succ i ih => intro hi; exact (ih (by omega)).trans (hx.mono i hi).le
  unfold simpsonX
  split_ifs with h1 h2
  · subst h2
    have e0 := hI 0 0 (by omega) (by omega) (by omega) (by omega)
    have e1 := hI 0 1 (by omega) (by omega) (by omega) (by omega)
    have m0 := hx.mono 0 (by omega)
    simp only [show 2 - 1 = 1 from rfl, sum_range_one, zero_add] at *
    have hp : 0 ≤ (x 1 - x 0) * ω := mul_nonneg (by linarith) hω
    rw [abs_le] at *
    constructor <;> nlinarith [e0.1, e0.2, e1.1, e1.2]
  · obtain ⟨b, rfl⟩ : ∃ b, n = 2 * b + 4 := ⟨(n - 4) / 2, by omega⟩
    have q1 : (2 * b + 2) / 2 = b + 1 := by omega
    have q2 : 2 * b + 4 - 1 = 2 * b + 3 := by omega
    have q3 : 2 * b + 4 - 2 = 2 * b + 2 := by omega
    have q4 : 2 * b + 4 - 3 = 2 * b + 1 := by omega
    simp only [q1, q2, q3, q4]
    have hb := basic (b + 1) (by omega)
    rw [show 2 * (b + 1) = 2 * b + 2 by ring] at hb
    have m0 := hx.mono (2 * b + 1) (by omega)
    have m1 := hx.mono (2 * b + 2) (by omega)
    have hc := cartwright_err (h0 := x (2 * b + 2) - x (2 * b + 1)) (h1 := x (2 * b + 3) - x (2 * b + 2))
      (by linarith) (by linarith) (hx.up (2 * b + 1) (by omega))
      (hI (2 * b + 2) (2 * b + 1) (by omega) (by omega) (by omega) (by omega))
      (hI (2 * b + 2) (2 * b + 2) (by omega) (by omega) (by omega) (by omega))
      (hI (2 * b + 2) (2 * b + 3) (by omega) (by omega) (by omega) (by omega))
    rw [show range (2 * b + 3) = range (2 * b + 2 + 1) from rfl, sum_range_succ]
    have m2 := hmono (2 * b + 2) (by omega)
    have hp : 0 ≤ (x (2 * b + 2) - x 0) * ω := mul_nonneg (by linarith) hω
    have key : ∀ K B S J p q : ℝ, |B - S| ≤ p → |K - J| ≤ q → |B + K - (S + J)| ≤ p + q := by
      intro K B S J p q h1 h2
      rw [abs_le] at *
      constructor <;> linarith [h1.1, h1.2, h2.1, h2.2]
    refine (key _ _ _ _ _ _ hb hc).trans ?_
    nlinarith
  · obtain ⟨b, rfl⟩ : ∃ b, n = 2 * b + 1 := ⟨(n - 1) / 2, by omega⟩
    have q1 : (2 * b + 1 - 1) / 2 = b := by omega
    have hb := basic b le_rfl
    rw [q1, show 2 * b + 1 - 1 = 2 * b by omega]
    have m2 := hmono (2 * b) (by omega)
    have hp : 0 ≤ (x (2 * b) - x 0) * ω := mul_nonneg (by linarith) hω
    linarith

theorem simpsonBlock_sub (h0 h1 a b c a' b' c' : ℝ) :
    simpsonBlock h0 h1 a b c - simpsonBlock h0 h1 a' b' c' = simpsonBlock h0 h1 (a - a') (b - b') (c - c') := by
  unfold simpsonBlock; ring

theorem simpsonX_sub (n : ℕ) (x y z : ℕ → ℝ) :
    simpsonX n x y - simpsonX n x z = simpsonX n x (fun i => y i - z i) := by
  have hb : ∀ b, basicSimpsonX b x y - basicSimpsonX b x z = basicSimpsonX b x (fun i => y i - z i) := by
    intro b
    unfold basicSimpsonX
    rw [← sum_sub_distrib]
    exact sum_congr rfl fun i _ => simpsonBlock_sub _ _ _ _ _ _ _ _
  unfold simpsonX
  split_ifs
  · ring
  · simp only [← hb]; ring
  · exact hb _

/-- stability: data within `η` give results within three times the length times `η`. -/
theorem simpsonX_diff {n : ℕ} {x y z : ℕ → ℝ} (hn : 2 ≤ n) (hx : Graded n x) {η : ℝ} (h : ∀ i < n, |y i - z i| ≤ η) :
    |simpsonX n x y - simpsonX n x z| ≤ 3 * ((x (n - 1) - x 0) * η) := by
  rw [simpsonX_sub]
  have := simpsonX_err (y := fun i => y i - z i) hn hx (I := fun _ => 0) (ω := η) (by
    intro j k hj hk _ _
    have := hx.mono j hj
    have h' := h k hk
    rw [zero_sub, abs_neg, abs_mul, abs_of_pos (by linarith)]
    exact mul_le_mul_of_nonneg_left h' (by linarith))
  simpa using this

end Halomod
