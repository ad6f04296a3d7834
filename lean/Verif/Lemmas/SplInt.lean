import Verif.Props.Tools2

/-! # `spline_integral` as a linear functional of the tabulated integrand -/
namespace Halomod.Tools

open Finset

/-- what is used of scipy's interpolating spline beyond `SplOk`: it is an additive function of the
ordinates and a continuous function of the abscissa. -/
structure SplLin (isp : Spl) : Prop extends SplOk isp where
  add : ∀ n x (y z : ℕ → ℝ) t, isp n x (fun i => y i + z i) t = isp n x y t + isp n x z t
  cont : ∀ n x y, (∀ i j, i < j → j < n → x i < x j) → Continuous (isp n x y)

/-- the assumptions on the spline are satisfiable (polynomial interpolation meets them). -/
theorem polySpl_lin : SplLin polySpl where
  toSplOk := polySpl_ok
  add := by
    intro n x y z t
    unfold polySpl
    rw [← sum_add_distrib]
    exact sum_congr rfl fun i _ => by ring
  cont := fun n x y _ => polySpl_continuous n x y

/-- an increasing grid of positive abscissae. -/
structure Grid (n : ℕ) (x : ℕ → ℝ) : Prop where
  pos : ∀ i < n, 0 < x i
  inc : ∀ i j, i < j → j < n → x i < x j

theorem Grid.log_inc {n : ℕ} {x : ℕ → ℝ} (h : Grid n x) :
    ∀ i j, i < j → j < n → Real.log (x i) < Real.log (x j) := fun i j hij hj =>
  Real.log_lt_log (h.pos i (by omega)) (h.inc i j hij hj)

theorem Grid.mono {n : ℕ} {x : ℕ → ℝ} (h : Grid n x) {i j : ℕ} (hij : i ≤ j) (hj : j < n) : x i ≤ x j := by
  rcases hij.lt_or_eq with h' | h'
  · exact (h.inc i j h' hj).le
  · rw [h']

theorem spl_intervalIntegrable {isp : Spl} (hs : SplLin isp) (n : ℕ) (x y : ℕ → ℝ)
    (hx : ∀ i j, i < j → j < n → x i < x j) (a b : ℝ) :
    IntervalIntegrable (Set.indicator (Set.Icc (x 0) (x (n - 1))) (isp n x y)) MeasureTheory.volume a b := by
  rw [intervalIntegrable_iff]
  exact ((hs.cont n x y hx).integrableOn_uIoc).indicator measurableSet_Icc

theorem splIntegral_add {isp : Spl} (hs : SplLin isp) (n : ℕ) (x y z : ℕ → ℝ)
    (hx : ∀ i j, i < j → j < n → x i < x j) (a b : ℝ) :
    splIntegral isp n x (fun i => y i + z i) a b = splIntegral isp n x y a b + splIntegral isp n x z a b := by
  unfold splIntegral
  rw [← intervalIntegral.integral_add (spl_intervalIntegrable hs n x y hx a b)
    (spl_intervalIntegrable hs n x z hx a b)]
  congr 1
  ext t
  by_cases ht : t ∈ Set.Icc (x 0) (x (n - 1))
  · rw [Set.indicator_of_mem ht, Set.indicator_of_mem ht, Set.indicator_of_mem ht, hs.add]
  · rw [Set.indicator_of_notMem ht, Set.indicator_of_notMem ht, Set.indicator_of_notMem ht, add_zero]

theorem splIntegral_smul {isp : Spl} (hs : SplOk isp) (n : ℕ) (x y : ℕ → ℝ) (c a b : ℝ) :
    splIntegral isp n x (fun i => c * y i) a b = c * splIntegral isp n x y a b := by
  unfold splIntegral
  rw [← intervalIntegral.integral_const_mul]
  congr 1
  ext t
  by_cases ht : t ∈ Set.Icc (x 0) (x (n - 1))
  · rw [Set.indicator_of_mem ht, Set.indicator_of_mem ht, hs.smul]
  · rw [Set.indicator_of_notMem ht, Set.indicator_of_notMem ht, mul_zero]

theorem splIntegral_congr {isp : Spl} (hs : SplOk isp) (n : ℕ) (x y z : ℕ → ℝ) (a b : ℝ)
    (h : ∀ i < n, y i = z i) : splIntegral isp n x y a b = splIntegral isp n x z a b := by
  unfold splIntegral
  rw [hs.congr n x x y z fun i hi => ⟨rfl, h i hi⟩]

section
variable {isp : Spl} {n : ℕ} {x : ℕ → ℝ}

theorem si_add (hs : SplLin isp) (hx : Grid n x) (f g : ℕ → ℝ) (a b : Option ℝ) :
    splineIntegral isp n x (fun i => f i + g i) a b true
      = splineIntegral isp n x f a b true + splineIntegral isp n x g a b true := by
  unfold splineIntegral
  simp only [if_true]
  rw [← splIntegral_add hs _ _ _ _ hx.log_inc]
  simp only [mul_add]

theorem si_smul (hs : SplOk isp) (c : ℝ) (f : ℕ → ℝ) (a b : Option ℝ) :
    splineIntegral isp n x (fun i => c * f i) a b true = c * splineIntegral isp n x f a b true := by
  unfold splineIntegral
  simp only [if_true]
  rw [← splIntegral_smul hs]
  simp only [mul_left_comm]

theorem si_congr (hs : SplOk isp) {f g : ℕ → ℝ} (a b : Option ℝ) (h : ∀ i < n, f i = g i) :
    splineIntegral isp n x f a b true = splineIntegral isp n x g a b true := by
  unfold splineIntegral
  simp only [if_true]
  exact splIntegral_congr hs _ _ _ _ _ _ fun i hi => by rw [h i hi]

/-- the quadrature weight of sample `i`: the integral of the spline through 1 at `i` and 0 elsewhere. -/
noncomputable def siW (isp : Spl) (n : ℕ) (x : ℕ → ℝ) (a b : Option ℝ) (i : ℕ) : ℝ :=
  splineIntegral isp n x (fun j => if j = i then 1 else 0) a b true

/-- `spline_integral` is a fixed linear combination of the samples. -/
theorem si_sum (hs : SplLin isp) (hx : Grid n x) (f : ℕ → ℝ) (a b : Option ℝ) :
    splineIntegral isp n x f a b true = ∑ i ∈ range n, f i * siW isp n x a b i := by
  have key : ∀ N, N ≤ n → splineIntegral isp n x (fun j => if j < N then f j else 0) a b true
      = ∑ i ∈ range N, f i * siW isp n x a b i := by
    intro N
    induction N with
    | zero =>
      intro _
      have := si_smul (isp := isp) (n := n) (x := x) hs.toSplOk 0 f a b
      simpa using this
    | succ N ih =>
      intro hN
      rw [sum_range_succ, ← ih (by omega), siW, ← si_smul hs.toSplOk, ← si_add hs hx]
      congr 1
      ext j
      rcases lt_trichotomy j N with h | h | h
      · rw [if_pos (by omega), if_pos h, if_neg (by omega)]; ring
      · subst h; simp
      · rw [if_neg (by omega), if_neg (by omega), if_neg (by omega)]; ring
  rw [← key n le_rfl]
  exact si_congr hs.toSplOk a b fun i hi => by rw [if_pos hi]

/-- a lower limit at or below the first sample has no effect (positive samples). -/
theorem si_xmin_low (hs : SplLin isp) (hx : Grid n x) (f : ℕ → ℝ) (v : ℝ) (hv : 0 < v)
    (hv' : v ≤ x 0) (f' : ℕ → ℝ) (hf : ∀ i < n, f i = f' i) :
    splineIntegral isp n x f (some v) none true = splineIntegral isp n x f' none none true := by
  rw [si_congr hs.toSplOk _ _ hf]
  unfold splineIntegral
  simp only [if_true, Option.elim]
  exact C13_no_extrapolation isp n _ _ _ _ (hs.cont _ _ _ hx.log_inc)
    (Real.log_le_log hv hv') le_rfl

end
end Halomod.Tools
