import Verif.Props.Tools
import Mathlib.Analysis.Calculus.MeanValue
import Mathlib.Analysis.Calculus.Deriv.MeanValue
import Mathlib.Analysis.Complex.ExponentialBounds

/-! # C14-C15: transforms and the exclusion window -/
namespace Halomod.Tools

open Finset

/-- Polynomial interpolation: a continuous interpolant meeting the assumptions made of scipy's spline. -/
noncomputable def polySpl : Spl := fun n x y t => ∑ i ∈ range n,
  y i * ∏ j ∈ (range n).erase i, ((t - x j) / (x i - x j))

theorem polySpl_ok : SplOk polySpl where
  interp := by
    intro n x y hx i hi
    unfold polySpl
    rw [sum_eq_single_of_mem i (mem_range.mpr hi)]
    · rw [prod_eq_one, mul_one]
      intro j hj
      have hji := (mem_erase.mp hj).1
      have hjn := mem_range.mp (mem_erase.mp hj).2
      have : x i - x j ≠ 0 := by
        rcases lt_or_gt_of_ne hji with h | h
        · exact (sub_pos.mpr (hx j i h hi)).ne'
        · exact (sub_neg.mpr (hx i j h hjn)).ne
      exact div_self this
    · intro b hb hbi
      rw [prod_eq_zero (i := i), mul_zero]
      · exact mem_erase.mpr ⟨hbi.symm, mem_range.mpr hi⟩
      · simp
  smul := by
    intro n x y c t
    unfold polySpl
    rw [mul_sum]; apply sum_congr rfl; intro i _; ring
  congr := by
    intro n x x' y y' h
    ext t
    unfold polySpl
    apply sum_congr rfl
    intro i hi
    rw [(h i (mem_range.mp hi)).2]
    congr 1
    apply prod_congr rfl
    intro j hj
    rw [(h i (mem_range.mp hi)).1, (h j (mem_range.mp (mem_erase.mp hj).2)).1]

theorem polySpl_continuous (n : ℕ) (x y : ℕ → ℝ) : Continuous (polySpl n x y) := by
  unfold polySpl
  apply continuous_finsetSum
  intro i _
  apply Continuous.mul continuous_const
  apply continuous_finsetProd
  intro j _
  exact (continuous_id.sub continuous_const).div_const _

/-- C13_log applies to a concrete non-trivial case. -/
example : ∃ g : ℝ → ℝ, splineIntegral polySpl 4 (fun i => i + 1) (fun i => i) (some 1.5) none true
    = (∫ t in (1.5:ℝ)..(4:ℝ), g t) ∧ ∀ i < 4, g ((i:ℕ) + 1) = i := by
  have h := C13_log polySpl polySpl_ok 4 (fun i => (i:ℝ) + 1) (fun i => (i:ℝ)) (some 1.5) none
    (fun i _ => by positivity) (fun i j hij _ => by
      have : (i:ℝ) < j := by exact_mod_cast hij
      linarith) (by norm_num) (polySpl_continuous _ _ _) (by norm_num) (by norm_num) (by norm_num)
      (by norm_num)
  refine ⟨fun t => polySpl 4 (fun i => Real.log (i + 1)) (fun i => (i + 1) * i) (Real.log t) / t, ?_, h.2⟩
  rw [h.1]; norm_num

/-! ## C14 -/

/-- C14: `power_to_corr` is linear in the power spectrum. -/
theorem C14_power_to_corr_linear (P Q : ℝ → ℝ) (a b r : ℝ) :
    powerToCorr (fun l => a * P l + b * Q l) r = a * powerToCorr P r + b * powerToCorr Q r := by
  unfold powerToCorr
  rw [show (fun i => (a * P (pcLnk r i) + b * Q (pcLnk r i)) * Real.exp (pcLnk r i) ^ 2
        * Real.sin (Real.exp (pcLnk r i) * r) / r)
      = fun i => a * (P (pcLnk r i) * Real.exp (pcLnk r i) ^ 2
          * Real.sin (Real.exp (pcLnk r i) * r) / r)
        + b * (Q (pcLnk r i) * Real.exp (pcLnk r i) ^ 2
          * Real.sin (Real.exp (pcLnk r i) * r) / r) by ext i; ring]
  rw [simpsonDx_add, simpsonDx_mul, simpsonDx_mul]
  ring

/-- C14: it is the Simpson rule in `ln k` of the isotropic Fourier integrand
`k^3 P(k) sin(kr)/(kr) / (2 pi^2)` on `nk` log-spaced nodes from `1e-6` to `maxk`. -/
theorem C14_power_to_corr_integrand (P : ℝ → ℝ) (r : ℝ) (hr : 0 < r) :
    powerToCorr P r = simpsonDx (pcNk r) (pcDlnk r) fun i =>
      let k := Real.exp (pcLnk r i)
      k ^ 3 * P (Real.log k) * (Real.sin (k * r) / (k * r)) / (2 * Real.pi ^ 2) := by
  unfold powerToCorr
  rw [← simpsonDx_mul]
  congr 1
  ext i
  have := Real.exp_pos (pcLnk r i)
  have hpi := Real.pi_pos
  simp only [Real.log_exp]
  field_simp
  ring

theorem pcMaxK_ge (r : ℝ) (hr : 0 < r) : 501.5 * Real.pi / r ≤ pcMaxK r ∧ 1 / 2 < pcMaxK r := by
  have hpi := Real.pi_pos
  refine ⟨le_max_left _ _, ?_⟩
  by_cases h : r ≤ 1000 * Real.pi
  · refine lt_of_lt_of_le ?_ (le_max_left _ _)
    rw [lt_div_iff₀ hr]; nlinarith
  · refine lt_of_lt_of_le ?_ (le_max_right _ _)
    rw [not_le] at h
    unfold pcMinK
    have hc := Int.le_ceil ((1 * r / Real.pi - 1) / 2)
    rw [lt_div_iff₀ hr]
    have h1 : r = r / Real.pi * Real.pi := by field_simp
    have h2 : (1000:ℝ) < r / Real.pi := by rw [lt_div_iff₀ hpi]; exact h
    have h3 : r / Real.pi - 0.5 ≤ 2 * (⌈(1 * r / Real.pi - 1) / 2⌉ : ℝ) + 0.5 := by
      rw [one_mul] at hc ⊢; norm_num at hc ⊢; linarith
    have h4 : (r / Real.pi - 0.5) * Real.pi
        ≤ (2 * (⌈(1 * r / Real.pi - 1) / 2⌉ : ℝ) + 0.5) * Real.pi :=
      mul_le_mul_of_nonneg_right h3 hpi.le
    nlinarith

/-- C14: the integration range always covers more than 501 half-periods of the kernel, and reaches beyond
`k = 1/2`. -/
theorem C14_range (r : ℝ) (hr : 0 < r) : 501.5 * Real.pi ≤ pcMaxK r * r ∧ 1 / 2 < pcMaxK r := by
  refine ⟨?_, (pcMaxK_ge r hr).2⟩
  have := (pcMaxK_ge r hr).1
  rwa [div_le_iff₀ hr] at this

/-- C14 finding: the upper limit, meant to be at a zero of the kernel, is always at an extremum. -/
theorem C14_upper_limit_is_extremum (r : ℝ) (hr : 0 < r) : |Real.sin (pcMaxK r * r)| = 1 := by
  have hpi := Real.pi_pos
  have key : ∀ n : ℤ, |Real.sin ((n + 1 / 2) * Real.pi)| = 1 := by
    intro n
    rw [show ((n:ℝ) + 1 / 2) * Real.pi = Real.pi / 2 + n * Real.pi by ring, Real.sin_add_int_mul_pi,
      Real.sin_pi_div_two, mul_one]
    rcases Int.even_or_odd n with h | h
    · rw [h.neg_one_zpow]; norm_num
    · rw [h.neg_one_zpow]; norm_num
  unfold pcMaxK
  rcases le_total (501.5 * Real.pi / r) (pcMinK r) with h | h
  · rw [max_eq_right h]
    unfold pcMinK
    have := key (2 * ⌈(1 * r / Real.pi - 1) / 2⌉)
    rw [div_mul_cancel₀ _ hr.ne']
    push_cast at this
    convert this using 4
    norm_num
  · rw [max_eq_left h, div_mul_cancel₀ _ hr.ne']
    have := key 501
    convert this using 4
    norm_num

/-- the requested maximal log-spacing: 8 steps in the last half-period. -/
noncomputable def pcWanted (r : ℝ) : ℝ :=
  Real.log (pcMaxK r / (pcMaxK r - Real.pi / (8 * r)))

/-- C14 finding: the spacing used is always strictly coarser than the one requested (`nk` points make
`nk-1` steps), by a factor of at most `nk/(nk-1)`. -/
theorem C14_step_coarser (r : ℝ) (hr : 0 < r) :
    2 ≤ pcNk r ∧ pcWanted r < pcDlnk r ∧ pcDlnk r ≤ pcWanted r * (pcNk r / (pcNk r - 1)) := by
  have hpi := Real.pi_pos
  obtain ⟨hm, hm2⟩ := pcMaxK_ge r hr
  set K := pcMaxK r with hK
  have hd : Real.pi / (8 * r) = 501.5 * Real.pi / r / 4012 := by field_simp; norm_num
  have hdpos : 0 < Real.pi / (8 * r) := by positivity
  have hdle : Real.pi / (8 * r) ≤ K / 4012 := by rw [hd]; gcongr
  have hsub : 0 < K - Real.pi / (8 * r) := by linarith
  have hρ : 0 < pcWanted r := by
    unfold pcWanted
    apply Real.log_pos
    rw [lt_div_iff₀ hsub]; linarith
  have hρ1 : pcWanted r ≤ 1 / 4011 := by
    unfold pcWanted
    rw [← hK]
    have := Real.log_le_sub_one_of_pos (x := K / (K - Real.pi / (8 * r))) (by positivity)
    have h2 : K / (K - Real.pi / (8 * r)) ≤ 4012 / 4011 := by
      rw [div_le_div_iff₀ hsub (by norm_num)]; linarith
    linarith
  have hL : 1 ≤ Real.log (K / 1e-6) := by
    rw [Real.le_log_iff_exp_le (by positivity)]
    have : Real.exp 1 < 3 := Real.exp_one_lt_three
    have h2 : (500000:ℝ) ≤ K / 1e-6 := by rw [le_div_iff₀ (by norm_num)]; norm_num; linarith
    linarith
  have hnk : pcNk r = ⌈Real.log (K / 1e-6) / pcWanted r⌉₊ := rfl
  have hbig : 1 < Real.log (K / 1e-6) / pcWanted r := by
    rw [lt_div_iff₀ hρ]; linarith
  have h2 : 2 ≤ pcNk r := by
    rw [hnk]
    have : 1 < ⌈Real.log (K / 1e-6) / pcWanted r⌉₊ := by
      rw [Nat.lt_ceil]; exact_mod_cast hbig
    omega
  have hce : (pcNk r : ℝ) < Real.log (K / 1e-6) / pcWanted r + 1 := by
    rw [hnk]; exact Nat.ceil_lt_add_one (by linarith)
  have hce2 : Real.log (K / 1e-6) / pcWanted r ≤ pcNk r := by rw [hnk]; exact Nat.le_ceil _
  have h2' : (2:ℝ) ≤ pcNk r := by exact_mod_cast h2
  have hlog : Real.log K - Real.log 1e-6 = Real.log (K / 1e-6) := by
    rw [Real.log_div (by linarith) (by norm_num)]
  refine ⟨h2, ?_, ?_⟩
  · unfold pcDlnk
    rw [← hK, hlog, lt_div_iff₀ (by linarith)]
    have := (lt_div_iff₀ hρ).mp (show (pcNk r : ℝ) - 1 < Real.log (K / 1e-6) / pcWanted r by linarith)
    linarith
  · unfold pcDlnk
    rw [← hK, hlog, mul_div_assoc', div_le_div_iff_of_pos_right (by linarith)]
    rw [div_le_iff₀ hρ] at hce2
    linarith

/-- C14: `pfunc` never raises (the "Something went horribly wrong" branch is unreachable). -/
theorem C14_pfunc_total (spl : Spl) (tb : Table) (lo hi : Bool) (t : ℝ) :
    ∃ v, pfunc spl tb lo hi t = some v := by
  unfold pfunc
  simp only
  split_ifs with h1 h2 h3 h4 h5
  · exact ⟨_, rfl⟩
  · exact ⟨_, rfl⟩
  · exfalso
    rcases h5 with h | h
    · exact absurd h4.2.2 (not_lt.mpr h)
    · exact absurd h4.2.1 (not_lt.mpr h)
  · exact ⟨_, rfl⟩
  · exact ⟨_, rfl⟩
  · exact ⟨_, rfl⟩

/-- C14: inside the table the tabulated values are reproduced at the samples. -/
theorem C14_pfunc_interp (spl : Spl) (hs : SplOk spl) (tb : Table) (lo hi : Bool)
    (hk0 : ∀ i < tb.n, 0 < tb.k i) (hk : ∀ i j, i < j → j < tb.n → tb.k i < tb.k j) (i : ℕ)
    (hi' : i < tb.n) : pfunc spl tb lo hi (Real.log (tb.k i)) = some (tb.p i) := by
  have hmono : ∀ i j, i ≤ j → j < tb.n → Real.log (tb.k i) ≤ Real.log (tb.k j) := by
    intro i j hij hj
    rcases hij.lt_or_eq with h | h
    · exact Real.log_le_log (hk0 i (by omega)) (hk i j h hj).le
    · rw [h]
  unfold pfunc
  simp only
  rw [if_neg (not_lt.mpr (hmono 0 i (by omega) hi')),
    if_neg (not_lt.mpr (hmono i (tb.n - 1) (by omega) (by omega)))]
  congr 1
  exact hs.interp tb.n (fun i => Real.log (tb.k i)) tb.p
    (fun a b hab hb => Real.log_lt_log (hk0 a (by omega)) (hk a b hab hb)) i hi'

theorem pfunc_extrapolation (spl : Spl) (tb : Table) (lo hi : Bool) (hn : 2 ≤ tb.n)
    (hk0 : ∀ i < tb.n, 0 < tb.k i) (hk : ∀ i j, i < j → j < tb.n → tb.k i < tb.k j) (t : ℝ) :
    (t < Real.log (tb.k 0) → posLo tb lo → pfunc spl tb lo hi t
      = some (tb.p 0 * (Real.exp t / tb.k 0)
          ^ ((Real.log (tb.p 1) - Real.log (tb.p 0)) / (Real.log (tb.k 1) - Real.log (tb.k 0))))) ∧
    (t > Real.log (tb.k (tb.n - 1)) → posHi tb hi → pfunc spl tb lo hi t
      = some (tb.p (tb.n - 1) * (Real.exp t / tb.k (tb.n - 1))
          ^ ((Real.log (tb.p (tb.n - 1)) - Real.log (tb.p (tb.n - 2)))
            / (Real.log (tb.k (tb.n - 1)) - Real.log (tb.k (tb.n - 2)))))) ∧
    (t < Real.log (tb.k 0) → ¬ posLo tb lo → pfunc spl tb lo hi t
      = some (tb.p 0 + (tb.p 1 - tb.p 0)
          * ((t - Real.log (tb.k 0)) / (Real.log (tb.k 1) - Real.log (tb.k 0))))) ∧
    (t > Real.log (tb.k (tb.n - 1)) → ¬ posHi tb hi → pfunc spl tb lo hi t
      = some (tb.p (tb.n - 1) + (tb.p (tb.n - 1) - tb.p (tb.n - 2))
          * ((t - Real.log (tb.k (tb.n - 1)))
            / (Real.log (tb.k (tb.n - 1)) - Real.log (tb.k (tb.n - 2)))))) := by
  have hle : Real.log (tb.k 0) ≤ Real.log (tb.k (tb.n - 1)) :=
    Real.log_le_log (hk0 0 (by omega)) (hk 0 (tb.n - 1) (by omega) (by omega)).le
  have pw : ∀ (A c q : ℝ), 0 < A → 0 < c → Real.exp (q * (t - Real.log c) + Real.log A)
      = A * (Real.exp t / c) ^ q := by
    intro A c q hA hc
    rw [Real.exp_add, Real.exp_log hA, Real.rpow_def_of_pos (by positivity), mul_comm,
      Real.log_div (Real.exp_pos t).ne' hc.ne', Real.log_exp, mul_comm q]
  refine ⟨?_, ?_, ?_, ?_⟩
  · intro h hp
    unfold pfunc
    simp only
    rw [if_pos h, if_pos hp, ← pw _ _ _ hp.2.1 (hk0 0 (by omega))]
    congr 3; ring
  · intro h hp
    unfold pfunc
    simp only
    rw [if_neg (not_lt.mpr (by linarith)), if_pos h, if_pos hp, if_neg, ← pw _ _ _ hp.2.2 (hk0 _ (by omega))]
    · congr 3; ring
    · rw [not_or, not_le, not_le]; exact ⟨hp.2.2, hp.2.1⟩
  · intro h hp
    unfold pfunc
    simp only
    rw [if_pos h, if_neg hp]
    congr 1; ring
  · intro h hp
    unfold pfunc
    simp only
    rw [if_neg (not_lt.mpr (by linarith)), if_pos h, if_neg hp]
    congr 1; ring

/-- C14: below and above the table the value is the line (or, for positive ends, the power law) through
the two end samples: it depends continuously on `k` and takes the end value at the end. -/
theorem C14_pfunc_extrapolation (spl : Spl) (tb : Table) (lo hi : Bool) (hn : 2 ≤ tb.n)
    (hk0 : ∀ i < tb.n, 0 < tb.k i) (hk : ∀ i j, i < j → j < tb.n → tb.k i < tb.k j) (t : ℝ) :
    (t < Real.log (tb.k 0) → lo = true ∧ 0 < tb.p 0 ∧ 0 < tb.p 1 → pfunc spl tb lo hi t
      = some (tb.p 0 * (Real.exp t / tb.k 0)
          ^ ((Real.log (tb.p 1) - Real.log (tb.p 0)) / (Real.log (tb.k 1) - Real.log (tb.k 0))))) ∧
    (t > Real.log (tb.k (tb.n - 1)) → hi = true ∧ 0 < tb.p (tb.n - 2) ∧ 0 < tb.p (tb.n - 1) → pfunc spl tb lo hi t
      = some (tb.p (tb.n - 1) * (Real.exp t / tb.k (tb.n - 1))
          ^ ((Real.log (tb.p (tb.n - 1)) - Real.log (tb.p (tb.n - 2)))
            / (Real.log (tb.k (tb.n - 1)) - Real.log (tb.k (tb.n - 2)))))) ∧
    (t < Real.log (tb.k 0) → ¬ (lo = true ∧ 0 < tb.p 0 ∧ 0 < tb.p 1) → pfunc spl tb lo hi t
      = some (tb.p 0 + (tb.p 1 - tb.p 0)
          * ((t - Real.log (tb.k 0)) / (Real.log (tb.k 1) - Real.log (tb.k 0))))) ∧
    (t > Real.log (tb.k (tb.n - 1)) → ¬ (hi = true ∧ 0 < tb.p (tb.n - 2) ∧ 0 < tb.p (tb.n - 1)) → pfunc spl tb lo hi t
      = some (tb.p (tb.n - 1) + (tb.p (tb.n - 1) - tb.p (tb.n - 2))
          * ((t - Real.log (tb.k (tb.n - 1)))
            / (Real.log (tb.k (tb.n - 1)) - Real.log (tb.k (tb.n - 2)))))) :=
  pfunc_extrapolation spl tb lo hi hn hk0 hk t

/-- C14: rescaling the tabulated power by a positive constant rescales the (inter- and extra-)polated
power by the same constant. -/
theorem C14_pfunc_homogeneous (spl : Spl) (hs : SplOk spl) (tb : Table) (lo hi : Bool) (c t : ℝ)
    (hc : 0 < c) :
    pfunc spl { tb with p := fun i => c * tb.p i } lo hi t = (pfunc spl tb lo hi t).map (c * ·) := by
  have hp : ∀ i, (0 < c * tb.p i ↔ 0 < tb.p i) := fun i => mul_pos_iff_of_pos_left hc
  have hq : ∀ i, (c * tb.p i ≤ 0 ↔ tb.p i ≤ 0) := fun i => by
    rw [← not_lt, hp, not_lt]
  have h1 : posLo { tb with p := fun i => c * tb.p i } lo ↔ posLo tb lo := by
    unfold posLo; simp only [hp]
  have h2 : posHi { tb with p := fun i => c * tb.p i } hi ↔ posHi tb hi := by
    unfold posHi; simp only [hp]
  have hl : ∀ i, 0 < tb.p i → Real.log (c * tb.p i) = Real.log c + Real.log (tb.p i) := fun i h =>
    Real.log_mul hc.ne' h.ne'
  have hexp : ∀ a b u v : ℝ, Real.exp ((Real.log c + a - (Real.log c + b)) * u / v + (Real.log c + a))
      = c * Real.exp ((a - b) * u / v + a) := by
    intro a b u v
    rw [show (Real.log c + a - (Real.log c + b)) * u / v + (Real.log c + a)
      = Real.log c + ((a - b) * u / v + a) by ring, Real.exp_add, Real.exp_log hc]
  have hexp' : ∀ a b u v : ℝ, Real.exp ((Real.log c + a - (Real.log c + b)) * u / v + (Real.log c + b))
      = c * Real.exp ((a - b) * u / v + b) := by
    intro a b u v
    rw [show (Real.log c + a - (Real.log c + b)) * u / v + (Real.log c + b)
      = Real.log c + ((a - b) * u / v + b) by ring, Real.exp_add, Real.exp_log hc]
  unfold pfunc
  simp only
  by_cases h3 : t < Real.log (tb.k 0)
  · rw [if_pos h3, if_pos h3]
    by_cases h4 : posLo tb lo
    · rw [if_pos h4, if_pos (h1.mpr h4), hl 0 h4.2.1, hl 1 h4.2.2, hexp']; rfl
    · rw [if_neg h4, if_neg (fun h => h4 (h1.mp h))]
      simp only [Option.map_some, Option.some.injEq]; ring
  · rw [if_neg h3, if_neg h3]
    by_cases h5 : t > Real.log (tb.k (tb.n - 1))
    · rw [if_pos h5, if_pos h5]
      by_cases h6 : posHi tb hi
      · have hno : ¬ (tb.p (tb.n - 1) ≤ 0 ∨ tb.p (tb.n - 2) ≤ 0) := by
          rw [not_or, not_le, not_le]; exact ⟨h6.2.2, h6.2.1⟩
        rw [if_pos h6, if_pos (h2.mpr h6), if_neg hno, if_neg (by rw [hq, hq]; exact hno),
          hl _ h6.2.1, hl _ h6.2.2, hexp]; rfl
      · rw [if_neg h6, if_neg (fun h => h6 (h2.mp h))]
        simp only [Option.map_some, Option.some.injEq]; ring
    · rw [if_neg h5, if_neg h5]
      simp only [Option.map_some, Option.some.injEq]
      exact hs.smul _ _ _ _ _

/-- C14: both Ogata transforms are `1/(2 pi² r³)`, resp. `4 pi / k³`, times the same kind of sum over the
first `N` Ogata nodes, where `N` is the full number `int(3.2/h)` or ends at the first node beyond the
table. -/
theorem C14_ogata_value (spl : Spl) (tb : Table) (lo hi : Bool) (h atol rtol r : ℝ) (hh : h ≠ 0)
    (hr : 0 < r) (hN : 1 ≤ ogNmax h) :
    ∃ N : ℕ, (N = ogNmax h ∨ (N ≤ ogNmax h ∧ 1 ≤ N ∧ tb.k (tb.n - 1) < ogX h N / r ∧
        ∀ j, 1 ≤ j → j < N → ogX h j / r ≤ tb.k (tb.n - 1))) ∧
      let S := ∑ n ∈ Icc 1 N, Real.pi * (Real.pi / h * psi (h * n)) * Real.sin (Real.pi / h * psi (h * n))
        * deriv psi (h * n) * (pfunc spl tb lo hi (Real.log (Real.pi / h * psi (h * n) / r))).getD 0
      powerToCorrOgata spl tb lo hi h atol rtol r = S / (2 * Real.pi ^ 2 * r ^ 3) ∧
      corrToPowerOgata spl tb lo hi h atol rtol r = 4 * Real.pi * S / r ^ 3 := by
  have hpi := Real.pi_pos
  have hcum : ∀ i, ogCum spl tb lo hi h r i = ∑ n ∈ Icc 1 (i + 1),
      Real.pi * (Real.pi / h * psi (h * n)) * Real.sin (Real.pi / h * psi (h * n))
        * deriv psi (h * n) * (pfunc spl tb lo hi (Real.log (Real.pi / h * psi (h * n) / r))).getD 0 := by
    intro i
    unfold ogCum
    apply sum_congr rfl
    intro n _
    unfold ogW
    rw [((C11_ogata_nodes h hh n).2 (h * n)).deriv, (C11_ogata_nodes h hh n).1]
    ring
  have fin : ∀ S : ℝ, 8 * Real.pi ^ 3 * (S / (2 * Real.pi ^ 2 * r ^ 3)) = 4 * Real.pi * S / r ^ 3 := by
    intro S; field_simp; ring
  have hNN : ogNmax h - 1 + 1 = ogNmax h := by omega
  by_cases hall : ∀ i < ogNmax h, ogX h (i + 1) / r ≤ tb.k (tb.n - 1)
  · refine ⟨ogNmax h, Or.inl rfl, ?_⟩
    have : ogSum spl tb lo hi h atol rtol r = ogCum spl tb lo hi h r (ogNmax h - 1) := by
      unfold ogSum; simp only; rw [if_pos hall]
    unfold corrToPowerOgata powerToCorrOgata
    rw [this, hcum, hNN]
    exact ⟨rfl, fin _⟩
  · have hne : {i | i < ogNmax h ∧ ogX h (i + 1) / r > tb.k (tb.n - 1)}.Nonempty := by
      push Not at hall
      obtain ⟨i, h1, h2⟩ := hall
      exact ⟨i, h1, h2⟩
    have hmem := Nat.sInf_mem hne
    have hmin : ∀ j, j < ogIndx tb h r → ¬ (j < ogNmax h ∧ ogX h (j + 1) / r > tb.k (tb.n - 1)) :=
      fun j hj => Nat.notMem_of_lt_sInf hj
    have e1 : ogIndx tb h r < ogNmax h ∧ ogX h (ogIndx tb h r + 1) / r > tb.k (tb.n - 1) := hmem
    have hsum : ogSum spl tb lo hi h atol rtol r = ogCum spl tb lo hi h r (ogIndx tb h r) ∨
        ogSum spl tb lo hi h atol rtol r = ogCum spl tb lo hi h r (ogNmax h - 1) := by
      unfold ogSum; simp only; rw [if_neg hall]
      generalize (if ogIndx tb h r = 0 then ogCum spl tb lo hi h r (ogNmax h - 1)
        else ogCum spl tb lo hi h r (ogIndx tb h r - 1)) = bef
      by_cases hcl : isclose atol rtol (ogCum spl tb lo hi h r (ogIndx tb h r)) bef
      · rw [if_pos hcl]; left; rfl
      · rw [if_neg hcl]; right; rfl
    unfold corrToPowerOgata powerToCorrOgata
    rcases hsum with hs' | hs'
    · refine ⟨ogIndx tb h r + 1, Or.inr ⟨by omega, by omega, e1.2, ?_⟩, ?_⟩
      · intro j h1 h2
        have := hmin (j - 1) (by omega)
        rw [not_and_or, not_lt, not_lt] at this
        rcases this with h' | h'
        · omega
        · rwa [show j - 1 + 1 = j by omega] at h'
      · rw [hs', hcum]; exact ⟨rfl, fin _⟩
    · refine ⟨ogNmax h, Or.inl rfl, ?_⟩
      rw [hs', hcum, hNN]; exact ⟨rfl, fin _⟩

/-- C14: so the two directions differ by exactly `8 pi^3` for the same table and argument. -/
theorem C14_reverse (spl : Spl) (tb : Table) (lo hi : Bool) (h atol rtol r : ℝ) :
    corrToPowerOgata spl tb lo hi h atol rtol r
      = (2 * Real.pi) ^ 3 * powerToCorrOgata spl tb lo hi h atol rtol r := by
  unfold corrToPowerOgata; ring

example : ∃ tb : Table, 2 ≤ tb.n ∧ (∀ i < tb.n, 0 < tb.k i) ∧
    (∀ i j, i < j → j < tb.n → tb.k i < tb.k j) ∧ posLo tb true ∧ ¬ posHi tb true :=
  ⟨⟨3, fun i => i + 1, fun i => 2 - i⟩, by norm_num, fun i _ => by positivity, fun i j h _ => by
    have : (i:ℝ) < j := by exact_mod_cast h
    simp only; linarith, ⟨rfl, by norm_num, by norm_num⟩, fun h => by
      have := h.2.2; norm_num at this⟩

/-! ## C15 -/

/-- C15: with `x = k r`, the window is the Fourier transform of the normalised top-hat of radius `r`:
`(3/r³) * integral over 0..r of s² sin(k s)/(k s) ds`. -/
theorem C15_top_hat (k r : ℝ) (hk : k ≠ 0) (hr : 0 < r) :
    exclusionWindow k r = 3 / r ^ 3 * ∫ s in (0:ℝ)..r, s ^ 2 * (Real.sin (k * s) / (k * s)) := by
  have h1 : ∀ s ∈ Set.uIcc (0:ℝ) r, s ^ 2 * (Real.sin (k * s) / (k * s)) = s * Real.sin (k * s) / k := by
    intro s _
    by_cases hs : s = 0
    · simp [hs]
    · field_simp
  rw [intervalIntegral.integral_congr h1]
  have hder : ∀ s : ℝ, HasDerivAt (fun s => (Real.sin (k * s) - k * s * Real.cos (k * s)) / k ^ 3)
      (s * Real.sin (k * s) / k) s := by
    intro s
    have hl : HasDerivAt (fun s : ℝ => k * s) k s := by
      simpa using (hasDerivAt_id s).const_mul k
    have := (hl.sin.sub (hl.mul hl.cos)).div_const (k ^ 3)
    refine this.congr_deriv ?_
    field_simp
    ring
  rw [intervalIntegral.integral_eq_sub_of_hasDerivAt (fun s _ => hder s)]
  · unfold exclusionWindow
    simp only [mul_zero, Real.sin_zero, zero_mul, sub_self, zero_div, sub_zero]
    field_simp
  · apply Continuous.intervalIntegrable
    fun_prop

theorem sin_sub_le (x : ℝ) (hx : 0 ≤ x) : Real.sin x - x * Real.cos x ≤ x ^ 3 / 3 := by
  have hd : ∀ t : ℝ, HasDerivAt (fun t => t ^ 3 / 3 - (Real.sin t - t * Real.cos t))
      (t ^ 2 - t * Real.sin t) t := by
    intro t
    have := ((hasDerivAt_pow 3 t).div_const 3).sub ((Real.hasDerivAt_sin t).sub
      ((hasDerivAt_id t).mul (Real.hasDerivAt_cos t)))
    refine this.congr_deriv ?_
    simp only [id]; norm_num
  have hm : MonotoneOn (fun t : ℝ => t ^ 3 / 3 - (Real.sin t - t * Real.cos t)) (Set.Ici 0) := by
    apply monotoneOn_of_deriv_nonneg (convex_Ici 0)
    · exact fun t _ => (hd t).continuousAt.continuousWithinAt
    · exact fun t _ => (hd t).differentiableAt.differentiableWithinAt
    · intro t ht
      rw [interior_Ici] at ht
      rw [(hd t).deriv]
      have h1 := Real.sin_le ht.le
      have h2 : 0 < t := ht
      nlinarith
  have := hm (Set.mem_Ici.mpr le_rfl) (Set.mem_Ici.mpr hx) hx
  simp at this
  linarith

theorem neg_le_sin_sub (x : ℝ) (hx : 0 ≤ x) : -(x ^ 3 / 3) ≤ Real.sin x - x * Real.cos x := by
  have hd : ∀ t : ℝ, HasDerivAt (fun t => t ^ 3 / 3 + (Real.sin t - t * Real.cos t))
      (t ^ 2 + t * Real.sin t) t := by
    intro t
    have := ((hasDerivAt_pow 3 t).div_const 3).add ((Real.hasDerivAt_sin t).sub
      ((hasDerivAt_id t).mul (Real.hasDerivAt_cos t)))
    refine this.congr_deriv ?_
    simp only [id]; norm_num
  have hm : MonotoneOn (fun t : ℝ => t ^ 3 / 3 + (Real.sin t - t * Real.cos t)) (Set.Ici 0) := by
    apply monotoneOn_of_deriv_nonneg (convex_Ici 0)
    · exact fun t _ => (hd t).continuousAt.continuousWithinAt
    · exact fun t _ => (hd t).differentiableAt.differentiableWithinAt
    · intro t ht
      rw [interior_Ici] at ht
      rw [(hd t).deriv]
      have h2 : 0 < t := ht
      have h3 : Real.sin (-t) ≤ |(-t)| := le_trans (le_abs_self _) Real.abs_sin_le_abs
      rw [Real.sin_neg, abs_neg, abs_of_pos h2] at h3
      nlinarith
  have := hm (Set.mem_Ici.mpr le_rfl) (Set.mem_Ici.mpr hx) hx
  simp at this
  linarith

/-- C15: the window never exceeds 1 in absolute value. -/
theorem C15_bounded (k r : ℝ) (h : 0 < k * r) : |exclusionWindow k r| ≤ 1 := by
  unfold exclusionWindow
  set x := k * r with hx
  have h3 : 0 < x ^ 3 := by positivity
  rw [abs_div, abs_of_pos h3, div_le_one h3, abs_le]
  have h1 := sin_sub_le x h.le
  have h2 := neg_le_sin_sub x h.le
  constructor <;> linarith

/-- C15: the window tends to 1 at large scales. -/
theorem C15_limit : Filter.Tendsto (fun x => exclusionWindow x 1) (nhdsWithin 0 (Set.Ioi 0)) (nhds 1) := by
  have hlow : ∀ x : ℝ, 0 < x → x ≤ 1 → 1 - x ^ 2 ≤ exclusionWindow x 1 := by
    intro x hx hx1
    unfold exclusionWindow
    simp only [mul_one]
    rw [le_div_iff₀ (by positivity)]
    have h1 : x - x ^ 3 / 6 ≤ Real.sin x := by
      have := Real.sin_gt_sub_cube hx
      nlinarith [pow_pos hx 3]
    have h3 : Real.cos x ≤ 1 - x ^ 2 / 2 + x ^ 4 * (5 / 96) := by
      have := Real.cos_bound (x := x) (by rw [abs_of_pos hx]; exact hx1)
      rw [abs_of_pos hx] at this
      have h4 := (abs_le.mp this).2
      linarith
    nlinarith [pow_pos hx 3, pow_pos hx 5, mul_le_mul_of_nonneg_left h3 hx.le]
  have hup : ∀ x : ℝ, 0 < x → exclusionWindow x 1 ≤ 1 := fun x hx =>
    (abs_le.mp (C15_bounded x 1 (by linarith))).2
  have hlim : Filter.Tendsto (fun x : ℝ => 1 - x ^ 2) (nhdsWithin 0 (Set.Ioi 0)) (nhds 1) := by
    have : Filter.Tendsto (fun x : ℝ => 1 - x ^ 2) (nhds 0) (nhds (1 - 0 ^ 2)) :=
      (by fun_prop : Continuous fun x : ℝ => 1 - x ^ 2).tendsto 0
    simp only [ne_eq, OfNat.ofNat_ne_zero, not_false_eq_true, zero_pow, sub_zero] at this
    exact this.mono_left nhdsWithin_le_nhds
  refine tendsto_of_tendsto_of_tendsto_of_le_of_le' hlim tendsto_const_nhds ?_ ?_
  · filter_upwards [Ioo_mem_nhdsGT (show (0:ℝ) < 1 by norm_num)] with x hx
    exact hlow x hx.1 hx.2.le
  · filter_upwards [self_mem_nhdsWithin] with x hx
    exact hup x hx

/-- C15: the window depends on `k` and `r` only through `k r`, and is even. -/
theorem C15_scale (k r : ℝ) :
    exclusionWindow k r = exclusionWindow (k * r) 1 ∧ exclusionWindow (-k) r = exclusionWindow k r := by
  unfold exclusionWindow
  constructor
  · simp
  · simp only [neg_mul, Real.sin_neg, Real.cos_neg]
    rw [show (-(k * r)) ^ 3 = -(k * r) ^ 3 by ring,
      show 3 * (-Real.sin (k * r) - -(k * r * Real.cos (k * r)))
        = -(3 * (Real.sin (k * r) - k * r * Real.cos (k * r))) by ring, neg_div_neg_eq]

end Halomod.Tools
