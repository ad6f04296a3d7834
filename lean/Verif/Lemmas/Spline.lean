import Verif.Model.Spline
import Verif.Spec.Spline
import Verif.Lemmas.SplInt
import Mathlib.LinearAlgebra.Vandermonde
import Mathlib.LinearAlgebra.Matrix.ToLinearEquiv

/-! # The interpolation system of the cubic spline has exactly one solution -/
namespace Halomod.Tools

open Finset Halomod.Spec

/-- third-derivative jump (over 6) at `x j` -/
noncomputable def jump (co : ℕ → ℝ) (j : ℕ) : ℝ := if 2 ≤ j then co (j + 2) else 0

/-- the pieces of the spline with coefficients `co`. -/
noncomputable def pieces (x co : ℕ → ℝ) : ℕ → Cub
  | 0 => ⟨co 0, co 1, co 2, co 3⟩
  | j + 1 =>
    let p := pieces x co j
    let h := x (j + 1) - x j
    ⟨p.eval h, p.slope h, p.c + 3 * p.d * h, p.d + jump co (j + 1)⟩

theorem pieces_eval (x co : ℕ → ℝ) (j : ℕ) (t : ℝ) : (pieces x co j).eval (t - x j) =
    ∑ k ∈ range 4, co k * (t - x 0) ^ k + ∑ i ∈ range j, jump co (i + 1) * (t - x (i + 1)) ^ 3 := by
  induction j with
  | zero => simp [pieces, Cub.eval, sum_range_succ]
  | succ j ih =>
    rw [sum_range_succ _ j, ← add_assoc, ← ih]
    simp only [pieces, Cub.eval, Cub.slope]
    ring

theorem sum_basis (n : ℕ) (x co : ℕ → ℝ) (h0 : ∀ k, n ≤ k → co k = 0) (t : ℝ) : ∑ k ∈ range n, co k * splBasis x k t =
    ∑ k ∈ range 4, co k * (t - x 0) ^ k + ∑ i ∈ range n, co (i + 4) * max 0 (t - x (i + 2)) ^ 3 := by
  have h1 : ∑ k ∈ range n, co k * splBasis x k t = ∑ k ∈ range (4 + n), co k * splBasis x k t := by
    refine sum_subset (fun k hk => by simp only [mem_range] at *; omega) fun k _ hk => ?_
    rw [h0 k (by simpa using hk), zero_mul]
  rw [h1, sum_range_add]
  refine congrArg₂ (· + ·) ?_ ?_
  · refine sum_congr rfl fun k hk => ?_
    rw [splBasis, if_pos (by simpa using hk)]
  · refine sum_congr rfl fun i _ => ?_
    rw [splBasis, if_neg (by omega), add_comm 4 i]
    rw [show i + 4 - 2 = i + 2 by omega]

/-- an increasing grid -/
abbrev Inc (n : ℕ) (x : ℕ → ℝ) : Prop := ∀ i j, i < j → j < n → x i < x j

theorem Inc.le {n : ℕ} {x : ℕ → ℝ} (h : Inc n x) {i j : ℕ} (hij : i ≤ j) (hj : j < n) : x i ≤ x j := by
  rcases hij.lt_or_eq with h' | h'
  · exact (h i j h' hj).le
  · rw [h']

theorem sum_jump (co : ℕ → ℝ) (x : ℕ → ℝ) (j : ℕ) (t : ℝ) :
    ∑ i ∈ range (j + 1), jump co (i + 1) * (t - x (i + 1)) ^ 3 = ∑ i ∈ range j, co (i + 4) * (t - x (i + 2)) ^ 3 := by
  rw [sum_range_succ']
  simp [jump]

/-- between two neighbouring points, the sum is the piece. -/
theorem sum_basis_on {n : ℕ} {x co : ℕ → ℝ} (hx : Inc n x) (h0 : ∀ k, n ≤ k → co k = 0) {j : ℕ} (hj : j + 1 < n) {t : ℝ} (h1 : x j ≤ t)
    (h2 : t ≤ x (j + 1)) : ∑ k ∈ range n, co k * splBasis x k t = (pieces x co j).eval (t - x j) := by
  rw [sum_basis n x co h0, pieces_eval]
  congr 1
  have h3 : ∑ i ∈ range n, co (i + 4) * max 0 (t - x (i + 2)) ^ 3 = ∑ i ∈ range (j - 1), co (i + 4) * (t - x (i + 2)) ^ 3 := by
    rw [← sum_subset (s₁ := range (j - 1)) (fun i hi => by simp only [mem_range] at *; omega)]
    · refine sum_congr rfl fun i hi => ?_
      have : i + 2 ≤ j := by simp only [mem_range] at hi; omega
      rw [max_eq_right (by linarith [hx.le this (by omega)])]
    · intro i _ hi
      simp only [mem_range, not_lt] at hi
      by_cases hn : i + 2 < n
      · rw [max_eq_left (by linarith [hx.le (show j + 1 ≤ i + 2 by omega) hn])]; ring
      · rw [h0 _ (by omega), zero_mul]
  rw [h3]
  cases j with
  | zero => simp
  | succ j => rw [sum_jump]; rfl

theorem sum_basis_below {n : ℕ} {x co : ℕ → ℝ} (hx : Inc n x) (h0 : ∀ k, n ≤ k → co k = 0) {t : ℝ} (h1 : t ≤ x 0) :
    ∑ k ∈ range n, co k * splBasis x k t = (pieces x co 0).eval (t - x 0) := by
  rw [sum_basis n x co h0, pieces_eval]
  congr 1
  rw [range_zero, sum_empty]
  refine sum_eq_zero fun i _ => ?_
  by_cases hn : i + 2 < n
  · rw [max_eq_left (by linarith [hx.le (show 0 ≤ i + 2 by omega) hn])]; ring
  · rw [h0 _ (by omega), zero_mul]

theorem sum_basis_above {n : ℕ} {x co : ℕ → ℝ} (hx : Inc n x) (h0 : ∀ k, n ≤ k → co k = 0) (hn2 : 2 ≤ n) {t : ℝ} (h1 : x (n - 1) ≤ t) :
    ∑ k ∈ range n, co k * splBasis x k t = (pieces x co (n - 2)).eval (t - x (n - 2)) := by
  rw [sum_basis n x co h0, pieces_eval]
  congr 1
  have h3 : ∑ i ∈ range n, co (i + 4) * max 0 (t - x (i + 2)) ^ 3 = ∑ i ∈ range (n - 3), co (i + 4) * (t - x (i + 2)) ^ 3 := by
    rw [← sum_subset (s₁ := range (n - 3)) (fun i hi => by simp only [mem_range] at *; omega)]
    · refine sum_congr rfl fun i hi => ?_
      have : i + 2 ≤ n - 1 := by simp only [mem_range] at hi; omega
      rw [max_eq_right (by linarith [hx.le this (by omega)])]
    · intro i _ hi
      simp only [mem_range, not_lt] at hi
      rw [h0 _ (by omega), zero_mul]
  rw [h3]
  rcases Nat.eq_zero_or_pos (n - 2) with h | h
  · rw [h, show n - 3 = 0 by omega]; simp
  · obtain ⟨k, hk⟩ : ∃ k, n - 2 = k + 1 := ⟨n - 3, by omega⟩
    rw [hk, sum_jump, show n - 3 = k by omega]

theorem pieces_ok (n : ℕ) (hn : 4 ≤ n) (x co : ℕ → ℝ) (h0 : ∀ k, n ≤ k → co k = 0) : Pieces n x (pieces x co) where
  value := fun j _ => by simp [pieces, Cub.eval]
  slope := fun j _ => by simp [pieces, Cub.slope]
  curv := fun j _ => by simp [pieces, Cub.curv]; ring
  first := by simp [pieces, jump]
  last := by
    obtain ⟨k, hk⟩ : ∃ k, n = k + 3 := ⟨n - 3, by omega⟩
    subst hk
    have h2 : k + 3 - 2 = k + 1 := by omega
    have h3 : k + 3 - 3 = k := by omega
    rw [h2, h3]
    simp only [pieces, jump, add_eq_left]
    split_ifs
    · exact h0 _ (by omega)
    · rfl

/-- the heart of uniqueness: pieces that match and vanish at all points are zero. -/
theorem pieces_zero {n : ℕ} (hn : 5 ≤ n) {x : ℕ → ℝ} (hx : Inc n x) {p : ℕ → Cub} (hp : Pieces n x p)
    (hz : ∀ j, j + 1 < n → (p j).a = 0) (hz' : (p (n - 2)).eval (x (n - 1) - x (n - 2)) = 0) :
    ∀ j, j + 1 < n → p j = ⟨0, 0, 0, 0⟩ := by
  have va : ∀ j, j + 2 < n → (p j).eval (x (j + 1) - x j) = 0 := by
    intro j hj
    rw [← hp.value j hj]
    simp [Cub.eval, hz (j + 1) (by omega)]
  have sl : ∀ j, j + 2 < n → (p (j + 1)).b = (p j).b + 2 * (p j).c * (x (j + 1) - x j) + 3 * (p j).d * (x (j + 1) - x j) ^ 2 := by
    intro j hj
    have := hp.slope j hj
    simpa [Cub.slope] using this
  have cu : ∀ j, j + 2 < n → (p (j + 1)).c = (p j).c + 3 * (p j).d * (x (j + 1) - x j) := by
    intro j hj
    have := hp.curv j hj
    simp only [Cub.curv] at this
    linarith
  have hh : ∀ j, j + 1 < n → 0 < x (j + 1) - x j := fun j hj => sub_pos.2 (hx _ _ (by omega) hj)
  -- divided value equation
  have ve : ∀ j, j + 2 < n → (p j).b + (p j).c * (x (j + 1) - x j) + (p j).d * (x (j + 1) - x j) ^ 2 = 0 := by
    intro j hj
    have h1 := va j hj
    have h2 := hh j (by omega)
    rw [Cub.eval, hz j (by omega)] at h1
    have : (x (j + 1) - x j) * ((p j).b + (p j).c * (x (j + 1) - x j) + (p j).d * (x (j + 1) - x j) ^ 2) = 0 := by linarith
    rcases mul_eq_zero.1 this with h | h
    · linarith
    · exact h
  have veL : (p (n - 2)).b + (p (n - 2)).c * (x (n - 1) - x (n - 2)) + (p (n - 2)).d * (x (n - 1) - x (n - 2)) ^ 2 = 0 := by
    have h2 := hh (n - 2) (by omega)
    rw [show n - 2 + 1 = n - 1 by omega] at h2
    rw [Cub.eval, hz (n - 2) (by omega)] at hz'
    have : (x (n - 1) - x (n - 2)) * ((p (n - 2)).b + (p (n - 2)).c * (x (n - 1) - x (n - 2)) + (p (n - 2)).d * (x (n - 1) - x (n - 2)) ^ 2) = 0 := by linarith
    rcases mul_eq_zero.1 this with h | h
    · linarith
    · exact h
  -- start: one cubic with zeros at x0, x1, x2
  set d0 := (p 0).d with hd0
  have g0 := hh 0 (by omega)
  have g1 := hh 1 (by omega)
  norm_num at g0 g1
  have v0 := ve 0 (by omega)
  have v1 := ve 1 (by omega)
  have s0 := sl 0 (by omega)
  have c0 := cu 0 (by omega)
  have s1 := sl 1 (by omega)
  have c1 := cu 1 (by omega)
  norm_num at v0 v1 s0 c0 s1 c1
  rw [hp.first] at v1 s1 c1
  rw [← hd0] at v0 v1 s0 c0 s1 c1
  have h0pos : 0 < x 1 - x 0 := by linarith
  have h1pos : 0 < x 2 - x 1 := by linarith
  generalize hA0 : x 1 - x 0 = A0 at *
  generalize hA1 : x 2 - x 1 = A1 at *
  -- c at 0
  have e0 : (p 0).c = -d0 * (2 * A0 + A1) := by
    have : (A0 + A1) * ((p 0).c + d0 * (2 * A0 + A1)) = 0 := by
      rw [s0, c0] at v1
      nlinarith
    rcases mul_eq_zero.1 this with h | h <;> linarith
  have e0b : (p 0).b = d0 * A0 * (A0 + A1) := by rw [e0] at v0; linarith
  have b2 : (p 2).b = d0 * (A0 + A1) * A1 := by rw [s1, s0, c0, e0, e0b]; ring
  have c2 : (p 2).c = d0 * (A0 + 2 * A1) := by rw [c1, c0, e0]; ring
  have key : ∀ i, i + 2 ≤ n - 3 → ∃ B C : ℝ, 0 < B ∧ 0 < C ∧ (p (i + 2)).b = (-1) ^ i * d0 * B ∧ (p (i + 2)).c = (-1) ^ i * d0 * C := by
    intro i
    induction i with
    | zero =>
      intro _
      exact ⟨(A0 + A1) * A1, A0 + 2 * A1, by positivity, by positivity, by rw [b2]; ring, by rw [c2]; ring⟩
    | succ i ih =>
      intro hi
      obtain ⟨B, C, hB, hC, h1, h2⟩ := ih (by omega)
      have hs := sl (i + 2) (by omega)
      have hc := cu (i + 2) (by omega)
      have hv := ve (i + 2) (by omega)
      have hpos := hh (i + 2) (by omega)
      generalize x (i + 2 + 1) - x (i + 2) = h at *
      have hdd : (p (i + 2)).d * h = -((p (i + 2)).b / h + (p (i + 2)).c) := by
        field_simp
        linarith
      refine ⟨2 * B + C * h, 2 * C + 3 * B / h, by positivity, by positivity, ?_, ?_⟩
      · rw [show i + 1 + 2 = i + 2 + 1 by ring, hs]
        linear_combination 3 * hv - 2 * h1 - h * h2
      · rw [show i + 1 + 2 = i + 2 + 1 by ring, hc, mul_assoc, hdd, h1, h2, pow_succ]; ring
  -- the end: one cubic with zeros at the last three points
  have hd0z : d0 = 0 := by
    obtain ⟨B, C, hB, hC, h1, h2⟩ := key (n - 5) (by omega)
    have en : n - 5 + 2 = n - 3 := by omega
    rw [en] at h1 h2
    have hv := ve (n - 3) (by omega)
    have hs := sl (n - 3) (by omega)
    have hc := cu (n - 3) (by omega)
    have hp1 := hh (n - 3) (by omega)
    have hp2 := hh (n - 2) (by omega)
    rw [show n - 3 + 1 = n - 2 by omega] at hv hs hc hp1
    rw [show n - 2 + 1 = n - 1 by omega] at hp2
    rw [hs, hc, hp.last] at veL
    generalize x (n - 2) - x (n - 3) = u at *
    generalize x (n - 1) - x (n - 2) = w at *
    set d := (p (n - 3)).d
    have hc' : (p (n - 3)).c = -d * (2 * u + w) := by
      have : (u + w) * ((p (n - 3)).c + d * (2 * u + w)) = 0 := by nlinarith
      rcases mul_eq_zero.1 this with h | h <;> linarith
    have hb' : (p (n - 3)).b = d * u * (u + w) := by rw [hc'] at hv; linarith
    have hprod : (p (n - 3)).b * (p (n - 3)).c = d0 ^ 2 * (B * C) := by
      rw [h1, h2]
      have : ((-1:ℝ) ^ (n - 5)) ^ 2 = 1 := by rw [← pow_mul, mul_comm, pow_mul]; norm_num
      linear_combination (d0 ^ 2 * B * C) * this
    have hneg : (p (n - 3)).b * (p (n - 3)).c = -(d ^ 2 * (u * (u + w) * (2 * u + w))) := by rw [hb', hc']; ring
    have hBC : 0 < B * C := by positivity
    have h3 : 0 ≤ d ^ 2 * (u * (u + w) * (2 * u + w)) := by positivity
    have h4 : d0 ^ 2 * (B * C) ≤ 0 := by linarith
    have h5 : d0 ^ 2 ≤ 0 := by
      by_contra hcon
      push Not at hcon
      linarith [mul_pos hcon hBC]
    exact pow_eq_zero_iff (n := 2) (by norm_num) |>.1 (le_antisymm h5 (sq_nonneg _))
  -- everything vanishes
  have all : ∀ j, j + 1 < n → (p j).b = 0 ∧ (p j).c = 0 ∧ (p j).d = 0 := by
    intro j
    induction j with
    | zero =>
      intro _
      refine ⟨by rw [e0b, hd0z]; ring, by rw [e0, hd0z]; ring, by rw [← hd0, hd0z]⟩
    | succ j ih =>
      intro hj
      obtain ⟨i1, i2, i3⟩ := ih (by omega)
      have hb : (p (j + 1)).b = 0 := by rw [sl j (by omega), i1, i2, i3]; ring
      have hc : (p (j + 1)).c = 0 := by rw [cu j (by omega), i2, i3]; ring
      refine ⟨hb, hc, ?_⟩
      by_cases hl : j + 3 < n
      · have hv := ve (j + 1) (by omega)
        rw [hb, hc] at hv
        have := hh (j + 1) (by omega)
        have h2 : (p (j + 1)).d * (x (j + 1 + 1) - x (j + 1)) ^ 2 = 0 := by linarith
        rcases mul_eq_zero.1 h2 with h | h
        · exact h
        · exact absurd h (by positivity)
      · have e1 : j + 1 = n - 2 := by omega
        have e2 : j = n - 3 := by omega
        rw [e1, hp.last, ← e2, i3]
  intro j hj
  obtain ⟨h1, h2, h3⟩ := all j hj
  have h0 := hz j hj
  rw [show p j = ⟨(p j).a, (p j).b, (p j).c, (p j).d⟩ from rfl, h0, h1, h2, h3]

/-- extend coefficients by zero -/
noncomputable def ext0 {n : ℕ} (v : Fin n → ℝ) (k : ℕ) : ℝ := if h : k < n then v ⟨k, h⟩ else 0

theorem ext0_ge {n : ℕ} (v : Fin n → ℝ) (k : ℕ) (h : n ≤ k) : ext0 v k = 0 := dif_neg (by omega)

theorem ext0_coe {n : ℕ} (v : Fin n → ℝ) (k : Fin n) : ext0 v k = v k := dif_pos k.2

theorem sum_ext0 {n : ℕ} (v : Fin n → ℝ) (f : ℕ → ℝ) : ∑ k : Fin n, v k * f k = ∑ k ∈ range n, ext0 v k * f k := by
  rw [← Fin.sum_univ_eq_sum_range (fun k => ext0 v k * f k)]
  exact sum_congr rfl fun k _ => by rw [ext0_coe]

theorem pieces_coeff_zero {n : ℕ} {x co : ℕ → ℝ} (hn : 5 ≤ n) (h0 : ∀ k, n ≤ k → co k = 0)
    (hp : ∀ j, j + 1 < n → pieces x co j = ⟨0, 0, 0, 0⟩) : ∀ k, co k = 0 := by
  have hz := hp 0 (by omega)
  simp only [pieces, Cub.mk.injEq] at hz
  intro k
  by_cases hk : n ≤ k
  · exact h0 k hk
  rcases Nat.lt_or_ge k 4 with h4 | h4
  · interval_cases k <;> tauto
  · obtain ⟨j, rfl⟩ : ∃ j, k = j + 1 + 2 := ⟨k - 3, by omega⟩
    have h1 := hp (j + 1) (by omega)
    simp only [pieces, Cub.mk.injEq] at h1
    have h2 := hp j (by omega)
    rw [h2] at h1
    have := h1.2.2.2
    simpa [jump, show 1 ≤ j by omega] using this

theorem splMatrix_mulVec {n : ℕ} (x : ℕ → ℝ) (v : Fin n → ℝ) (i : Fin n) :
    (splMatrix n x).mulVec v i = ∑ k : Fin n, v k * splBasis x k (x i) := by
  simp only [Matrix.mulVec, dotProduct, splMatrix]
  exact sum_congr rfl fun k _ => mul_comm _ _

/-- the interpolation conditions determine the coefficients. -/
theorem splMatrix_unit {n : ℕ} {x : ℕ → ℝ} (hx : Inc n x) : IsUnit (splMatrix n x) := by
  rcases Nat.lt_or_ge n 5 with h5 | h5
  · have e : splMatrix n x = Matrix.vandermonde fun i : Fin n => x i - x 0 := by
      ext i k
      simp only [splMatrix, Matrix.vandermonde, Matrix.of_apply, splBasis]
      rcases Nat.lt_or_ge (k:ℕ) 4 with h4 | h4
      · rw [if_pos h4]
      · omega
    rw [e, Matrix.isUnit_iff_isUnit_det, isUnit_iff_ne_zero]
    rw [Matrix.det_vandermonde_ne_zero_iff]
    intro i j hij
    have hij : x i = x j := by simpa using hij
    rcases lt_trichotomy i j with h | h | h
    · exact absurd hij (hx _ _ h j.2).ne
    · exact h
    · exact absurd hij (hx _ _ h i.2).ne'
  · rw [← Matrix.mulVec_injective_iff_isUnit]
    intro v w hvw
    rw [← sub_eq_zero]
    have h0 : (splMatrix n x).mulVec (v - w) = 0 := by rw [Matrix.mulVec_sub]; exact sub_eq_zero.2 hvw
    generalize v - w = u at *
    have hs : ∀ i < n, ∑ k ∈ range n, ext0 u k * splBasis x k (x i) = 0 := by
      intro i hi
      rw [← sum_ext0 u, ← splMatrix_mulVec x u ⟨i, hi⟩, h0]; rfl
    have hp := pieces_zero h5 hx (pieces_ok n (by omega) x (ext0 u) (ext0_ge u))
      (fun j hj => by
        have h1 := hs j (by omega)
        rw [sum_basis_on hx (ext0_ge u) hj le_rfl (hx.le (by omega) hj)] at h1
        simpa [Cub.eval] using h1)
      (by
        have h1 := hs (n - 1) (by omega)
        rwa [sum_basis_above hx (ext0_ge u) (by omega) le_rfl] at h1)
    have hc := pieces_coeff_zero h5 (ext0_ge u) hp
    funext k
    rw [← ext0_coe u k, hc]; rfl

/-- the coefficients of the spline -/
noncomputable def splCoef (n : ℕ) (x y : ℕ → ℝ) : ℕ → ℝ := ext0 ((splMatrix n x)⁻¹.mulVec fun i : Fin n => y i)

theorem cubicSpl_eq (n : ℕ) (x y : ℕ → ℝ) (t : ℝ) : cubicSpl n x y t = ∑ k ∈ range n, splCoef n x y k * splBasis x k t :=
  sum_ext0 _ fun k => splBasis x k t

theorem cubicSpl_interp {n : ℕ} {x : ℕ → ℝ} (hx : Inc n x) (y : ℕ → ℝ) {i : ℕ} (hi : i < n) : cubicSpl n x y (x i) = y i := by
  have hu := splMatrix_unit hx
  rw [Matrix.isUnit_iff_isUnit_det] at hu
  have h1 := splMatrix_mulVec x ((splMatrix n x)⁻¹.mulVec fun i : Fin n => y i) ⟨i, hi⟩
  rw [Matrix.mulVec_mulVec, Matrix.mul_nonsing_inv _ hu, Matrix.one_mulVec] at h1
  exact h1.symm

theorem splBasis_continuous (x : ℕ → ℝ) (k : ℕ) : Continuous (splBasis x k) := by
  unfold splBasis
  split_ifs <;> fun_prop

theorem cubicSpl_ok : SplOk cubicSpl where
  interp := fun n x y hx i hi => cubicSpl_interp hx y hi
  smul := by
    intro n x y c t
    unfold cubicSpl
    rw [mul_sum]
    refine sum_congr rfl fun k _ => ?_
    rw [show (fun i : Fin n => c * y i) = c • fun i : Fin n => y i from rfl, Matrix.mulVec_smul, Pi.smul_apply, smul_eq_mul, mul_assoc]
  congr := by
    intro n x x' y y' h
    have hb : ∀ k : Fin n, splBasis x k = splBasis x' k := by
      intro k
      funext t
      have := k.2
      rw [splBasis, splBasis, (h 0 (by omega)).1, (h (k - 2) (by omega)).1]
    have hm : splMatrix n x = splMatrix n x' := by
      ext i k
      simp only [splMatrix]
      rw [hb k, (h i i.2).1]
    have hy : (fun i : Fin n => y i) = fun i : Fin n => y' i := by
      funext i
      exact (h i i.2).2
    funext t
    unfold cubicSpl
    rw [hm, hy]
    exact sum_congr rfl fun k _ => by rw [hb k]

theorem cubicSpl_lin : SplLin cubicSpl where
  toSplOk := cubicSpl_ok
  add := by
    intro n x y z t
    unfold cubicSpl
    rw [← sum_add_distrib]
    refine sum_congr rfl fun k _ => ?_
    rw [show (fun i : Fin n => y i + z i) = (fun i : Fin n => y i) + fun i : Fin n => z i from rfl, Matrix.mulVec_add, Pi.add_apply, add_mul]
  cont := by
    intro n x y _
    unfold cubicSpl
    exact continuous_finsetSum _ fun k _ => continuous_const.mul (splBasis_continuous x k)

theorem cubicSpl_isSpline {n : ℕ} (hn : 5 ≤ n) {x : ℕ → ℝ} (hx : Inc n x) (y : ℕ → ℝ) :
    IsSpline n x y (cubicSpl n x y) (pieces x (splCoef n x y)) where
  pieces := pieces_ok n (by omega) x _ (ext0_ge _)
  on := fun j hj t h1 h2 => by rw [cubicSpl_eq]; exact sum_basis_on hx (ext0_ge _) hj h1 h2
  below := fun t h1 => by rw [cubicSpl_eq]; exact sum_basis_below hx (ext0_ge _) h1
  above := fun t h1 => by rw [cubicSpl_eq]; exact sum_basis_above hx (ext0_ge _) (by omega) h1
  through := fun i hi => cubicSpl_interp hx y hi

/-- the panel of a point -/
theorem inc_panel {n : ℕ} (hn : 2 ≤ n) {x : ℕ → ℝ} {t : ℝ} (h0 : x 0 ≤ t) (h1 : t ≤ x (n - 1)) :
    ∃ j, j + 1 < n ∧ x j ≤ t ∧ t ≤ x (j + 1) := by
  have key : ∀ m, m < n → 0 < m → t ≤ x m → ∃ j, j + 1 ≤ m ∧ x j ≤ t ∧ t ≤ x (j + 1) := by
    intro m
    induction m with
    | zero => intro _ h; omega
    | succ m ih =>
      intro hm _ hle
      rcases le_total (x m) t with h | h
      · exact ⟨m, le_rfl, h, hle⟩
      · rcases Nat.eq_zero_or_pos m with rfl | hpos
        · exact ⟨0, le_rfl, h0, hle⟩
        · obtain ⟨j, a, b, c⟩ := ih (by omega) hpos h
          exact ⟨j, by omega, b, c⟩
  obtain ⟨j, a, b, c⟩ := key (n - 1) (by omega) (by omega) h1
  exact ⟨j, by omega, b, c⟩

/-- the not-a-knot spline is unique. -/
theorem isSpline_unique {n : ℕ} (hn : 5 ≤ n) {x : ℕ → ℝ} (hx : Inc n x) {y : ℕ → ℝ} {S S' : ℝ → ℝ} {p p' : ℕ → Cub}
    (h : IsSpline n x y S p) (h' : IsSpline n x y S' p') : S = S' := by
  have hq : ∀ j, j + 1 < n → (⟨(p j).a - (p' j).a, (p j).b - (p' j).b, (p j).c - (p' j).c, (p j).d - (p' j).d⟩ : Cub) = ⟨0, 0, 0, 0⟩ := by
    refine pieces_zero hn hx (p := fun j => ⟨(p j).a - (p' j).a, (p j).b - (p' j).b, (p j).c - (p' j).c, (p j).d - (p' j).d⟩)
      ⟨fun j hj => ?_, fun j hj => ?_, fun j hj => ?_, ?_, ?_⟩ (fun j hj => ?_) ?_
    · have h1 := h.pieces.value j hj
      have h2 := h'.pieces.value j hj
      simp only [Cub.eval] at *
      linarith
    · have h1 := h.pieces.slope j hj
      have h2 := h'.pieces.slope j hj
      simp only [Cub.slope] at *
      linarith
    · have h1 := h.pieces.curv j hj
      have h2 := h'.pieces.curv j hj
      simp only [Cub.curv] at *
      linarith
    · show (p 1).d - (p' 1).d = (p 0).d - (p' 0).d
      rw [h.pieces.first, h'.pieces.first]
    · show (p (n - 2)).d - (p' (n - 2)).d = (p (n - 3)).d - (p' (n - 3)).d
      rw [h.pieces.last, h'.pieces.last]
    · have h1 := h.on j hj (x j) le_rfl (hx.le (by omega) hj)
      have h2 := h'.on j hj (x j) le_rfl (hx.le (by omega) hj)
      rw [h.through j (by omega)] at h1
      rw [h'.through j (by omega)] at h2
      simp only [Cub.eval, sub_self] at *
      linarith
    · have h1 := h.above (x (n - 1)) le_rfl
      have h2 := h'.above (x (n - 1)) le_rfl
      rw [h.through _ (by omega)] at h1
      rw [h'.through _ (by omega)] at h2
      simp only [Cub.eval] at *
      linarith
  have he : ∀ j, j + 1 < n → ∀ u, (p j).eval u = (p' j).eval u := by
    intro j hj u
    have := hq j hj
    simp only [Cub.mk.injEq] at this
    obtain ⟨h1, h2, h3, h4⟩ := this
    simp only [Cub.eval]
    linear_combination h1 + u * h2 + u ^ 2 * h3 + u ^ 3 * h4
  funext t
  rcases le_total t (x 0) with h0 | h0
  · rw [h.below t h0, h'.below t h0, he 0 (by omega)]
  rcases le_total (x (n - 1)) t with h1 | h1
  · rw [h.above t h1, h'.above t h1, he (n - 2) (by omega)]
  obtain ⟨j, hj, hj1, hj2⟩ := inc_panel (by omega) h0 h1
  rw [h.on j hj t hj1 hj2, h'.on j hj t hj1 hj2, he j hj]

theorem cubicSpl_of_coef {n : ℕ} {x y : ℕ → ℝ} (hx : Inc n x) (co : ℕ → ℝ)
    (hc : ∀ i < n, ∑ k ∈ range n, co k * splBasis x k (x i) = y i) (t : ℝ) :
    cubicSpl n x y t = ∑ k ∈ range n, co k * splBasis x k t := by
  have hu := splMatrix_unit hx
  rw [Matrix.isUnit_iff_isUnit_det] at hu
  have e : (fun i : Fin n => y i) = (splMatrix n x).mulVec fun k : Fin n => co k := by
    funext i
    rw [splMatrix_mulVec, ← hc i i.2, ← Fin.sum_univ_eq_sum_range (fun k => co k * splBasis x k (x i))]
  unfold cubicSpl
  rw [e, Matrix.mulVec_mulVec, Matrix.nonsing_inv_mul _ hu, Matrix.one_mulVec,
    ← Fin.sum_univ_eq_sum_range (fun k => co k * splBasis x k t)]

/-- data on a cubic: the spline is that cubic, everywhere. -/
theorem cubicSpl_cubic {n : ℕ} (hn : 4 ≤ n) {x : ℕ → ℝ} (hx : Inc n x) (q : Cub) (t : ℝ) :
    cubicSpl n x (fun i => q.eval (x i)) t = q.eval t := by
  set co : ℕ → ℝ := fun k => if k = 0 then q.eval (x 0) else if k = 1 then q.slope (x 0) else if k = 2 then q.curv (x 0) / 2 else
    if k = 3 then q.d else 0 with hco
  have h0 : ∀ k, n ≤ k → co k = 0 := by
    intro k hk
    simp only [hco]
    rw [if_neg (by omega), if_neg (by omega), if_neg (by omega), if_neg (by omega)]
  have hs : ∀ s, ∑ k ∈ range n, co k * splBasis x k s = q.eval s := by
    intro s
    rw [sum_basis n x co h0]
    have : ∑ i ∈ range n, co (i + 4) * max 0 (s - x (i + 2)) ^ 3 = 0 := by
      refine sum_eq_zero fun i _ => ?_
      simp [hco]
    rw [this]
    simp [sum_range_succ, hco, Cub.eval, Cub.slope, Cub.curv]
    ring
  rw [cubicSpl_of_coef hx co (fun i _ => hs (x i)), hs]

end Halomod.Tools
