import Verif.Props.GenericProfile
import Verif.Props.Spline3
import Mathlib.Analysis.SpecialFunctions.Integrals.Basic

/-!
# C60: accuracy of the numerical transform between the wavenumbers, and of the normalisations of all haloes
-/
namespace Halomod.Profiles

open MeasureTheory Finset
open Halomod.Tools (Spl cubicSpl)

theorem ii_sum {ι : Type} (s : Finset ι) {g : ι → ℝ → ℝ} {a b : ℝ} (h : ∀ i ∈ s, IntervalIntegrable (g i) volume a b) :
    IntervalIntegrable (fun v => ∑ i ∈ s, g i v) volume a b := by
  have := IntervalIntegrable.sum s h
  exact this.congr (fun v _ => by simp)

/-- error of the interpolation of `cos(κ u)` in `κ` on a logarithmic table. -/
theorem cos_error {n : ℕ} (hn : 5 ≤ n) {x : ℕ → ℝ} {q : ℝ} (h0 : 0 < x 0) (hq : 1 < q) (hxq : ∀ i, i + 1 < n → x (i + 1) = q * x i)
    (u : ℝ) {t : ℝ} (ht : x 0 ≤ t) (ht' : t ≤ x (n - 1)) :
    |cubicSpl n x (fun i => Real.cos (x i * u)) t - Real.cos (t * u)| ≤ (1 / 2 + 3 / 4 * q) * ((q - 1) * t) ^ 2 * u ^ 2 := by
  have hc : ∀ t : ℝ, HasDerivAt (fun t => Real.cos (t * u)) (-Real.sin (t * u) * u) t := fun t => by
    have := (Real.hasDerivAt_cos (t * u)).comp t ((hasDerivAt_id t).mul_const u)
    simpa [Function.comp_def] using this
  have hs : ∀ t : ℝ, HasDerivAt (fun t => -Real.sin (t * u) * u) (-Real.cos (t * u) * u ^ 2) t := fun t => by
    have := (((Real.hasDerivAt_sin (t * u)).comp t ((hasDerivAt_id t).mul_const u)).neg).mul_const u
    refine (this.congr_deriv (by simp; ring)).congr_of_eventuallyEq (Filter.Eventually.of_forall fun s => by simp)
  have := Tools.C62_accuracy_log hn h0 hq hxq (f := fun t => Real.cos (t * u)) (B := u ^ 2) (fun t _ => hc t) (fun t _ => hs t)
    (fun t _ => by
      rw [abs_mul, abs_neg, abs_of_nonneg (sq_nonneg u)]
      exact mul_le_of_le_one_left (sq_nonneg u) (Real.abs_cos_le_one _)) ht ht'
  linarith

/-- the interpolation error of `x sin(κ x)/κ` in `κ`. -/
theorem sinc_error {n : ℕ} (hn : 5 ≤ n) {x : ℕ → ℝ} {q : ℝ} (h0 : 0 < x 0) (hq : 1 < q) (hxq : ∀ i, i + 1 < n → x (i + 1) = q * x i)
    {u : ℝ} (hu : 0 ≤ u) {t : ℝ} (ht : x 0 ≤ t) (ht' : t ≤ x (n - 1)) :
    |cubicSpl n x (fun i => u * Real.sin (x i * u) / x i) t - u * Real.sin (t * u) / t| ≤
      (1 / 2 + 3 / 4 * q) * ((q - 1) * t) ^ 2 * (u ^ 4 / 3) := by
  have hpos : ∀ i, i < n → 0 < x i := by
    intro i
    induction i with
    | zero => exact fun _ => h0
    | succ i ih => intro hi; rw [hxq i hi]; exact mul_pos (by linarith) (ih (by omega))
  have ht0 : 0 < t := h0.trans_le ht
  obtain ⟨w, hw⟩ := Tools.cubicSpl_weights n x t
  have hsin : ∀ κ : ℝ, 0 < κ → u * Real.sin (κ * u) / κ = u * ∫ v in (0:ℝ)..u, Real.cos (κ * v) := by
    intro κ hκ
    rw [intervalIntegral.integral_comp_mul_left (fun v => Real.cos v) hκ.ne', integral_cos]
    simp only [mul_zero, Real.sin_zero, sub_zero, smul_eq_mul]
    field_simp
  have hI : ∀ κ : ℝ, IntervalIntegrable (fun v => Real.cos (κ * v)) volume 0 u := fun κ =>
    (Real.continuous_cos.comp (continuous_const.mul continuous_id)).intervalIntegrable _ _
  have hsum : cubicSpl n x (fun i => u * Real.sin (x i * u) / x i) t - u * Real.sin (t * u) / t =
      u * ∫ v in (0:ℝ)..u, (cubicSpl n x (fun i => Real.cos (x i * v)) t - Real.cos (t * v)) := by
    have e1 : ∀ v, cubicSpl n x (fun i => Real.cos (x i * v)) t = ∑ i ∈ range n, w i * Real.cos (x i * v) := fun v => hw _
    rw [hw]
    simp only [e1]
    rw [intervalIntegral.integral_sub (ii_sum _ fun i _ => (hI (x i)).const_mul (w i)) (hI t),
      intervalIntegral.integral_finsetSum fun i _ => (hI (x i)).const_mul (w i), mul_sub, ← hsin t ht0, mul_sum]
    congr 1
    refine sum_congr rfl fun i hi => ?_
    rw [intervalIntegral.integral_const_mul, hsin (x i) (hpos i (mem_range.1 hi))]
    ring
  rw [hsum, abs_mul, abs_of_nonneg hu]
  have hcont : Continuous fun v => cubicSpl n x (fun i => Real.cos (x i * v)) t - Real.cos (t * v) := by
    have e1 : (fun v => cubicSpl n x (fun i => Real.cos (x i * v)) t) = fun v => ∑ i ∈ range n, w i * Real.cos (x i * v) := funext fun v => hw _
    have c1 : Continuous fun v => cubicSpl n x (fun i => Real.cos (x i * v)) t := by
      rw [e1]
      exact continuous_finsetSum _ fun i _ => continuous_const.mul (Real.continuous_cos.comp (continuous_const.mul continuous_id))
    exact c1.sub (Real.continuous_cos.comp (continuous_const.mul continuous_id))
  set C := (1 / 2 + 3 / 4 * q) * ((q - 1) * t) ^ 2 with hC
  have hb : |∫ v in (0:ℝ)..u, (cubicSpl n x (fun i => Real.cos (x i * v)) t - Real.cos (t * v))| ≤ ∫ v in (0:ℝ)..u, C * v ^ 2 := by
    refine (intervalIntegral.abs_integral_le_integral_abs hu).trans ?_
    refine intervalIntegral.integral_mono_on hu hcont.abs.continuousOn.intervalIntegrable
      (continuous_const.mul (continuous_id.pow 2)).continuousOn.intervalIntegrable fun v _ => ?_
    exact cos_error hn h0 hq hxq v ht ht'
  have hv : ∫ v in (0:ℝ)..u, C * v ^ 2 = C * (u ^ 3 / 3) := by
    rw [intervalIntegral.integral_const_mul, integral_pow]; norm_num
  rw [hv] at hb
  calc u * _ ≤ u * (C * (u ^ 3 / 3)) := mul_le_mul_of_nonneg_left hb hu
    _ = C * (u ^ 4 / 3) := by ring

/-- the interpolation error of the Fourier integral in `κ`: relative to the normalisation, at most `(1/6 + q/4) ((q - 1) κ c)²`. -/
theorem fourier_error {n : ℕ} (hn : 5 ≤ n) {x : ℕ → ℝ} {q : ℝ} (h0 : 0 < x 0) (hq : 1 < q) (hxq : ∀ i, i + 1 < n → x (i + 1) = q * x i)
    {f : ℝ → ℝ} {c : ℝ} (hc : 0 ≤ c) (hf : ∀ x, 0 ≤ x → 0 ≤ f x) (hf2 : IntervalIntegrable (fun x => f x * x ^ 2) volume 0 c)
    (hfs : ∀ κ, IntervalIntegrable (fun x => x * f x * Real.sin (κ * x) / κ) volume 0 c) {t : ℝ} (ht : x 0 ≤ t) (ht' : t ≤ x (n - 1)) :
    |cubicSpl n x (fun i => Spec.fourier f (x i) c) t - Spec.fourier f t c| ≤
      (1 / 6 + q / 4) * ((q - 1) * t * c) ^ 2 * ∫ x in (0:ℝ)..c, f x * x ^ 2 := by
  obtain ⟨w, hw⟩ := Tools.cubicSpl_weights n x t
  have hI : ∀ κ, IntervalIntegrable (fun v => v * Real.sin (κ * v) / κ * f v) volume 0 c := fun κ => (hfs κ).congr (fun v _ => by ring)
  have hsum : cubicSpl n x (fun i => Spec.fourier f (x i) c) t - Spec.fourier f t c =
      ∫ v in (0:ℝ)..c, (cubicSpl n x (fun i => v * Real.sin (x i * v) / x i) t - v * Real.sin (t * v) / t) * f v := by
    have e1 : ∀ v, (cubicSpl n x (fun i => v * Real.sin (x i * v) / x i) t - v * Real.sin (t * v) / t) * f v =
        ∑ i ∈ range n, w i * (v * Real.sin (x i * v) / x i * f v) - v * Real.sin (t * v) / t * f v := fun v => by
      rw [hw, sub_mul, sum_mul]
      congr 1
      exact sum_congr rfl fun i _ => by ring
    rw [hw]
    simp only [e1]
    rw [intervalIntegral.integral_sub (ii_sum _ fun i _ => (hI (x i)).const_mul (w i)) (hI t),
      intervalIntegral.integral_finsetSum fun i _ => (hI (x i)).const_mul (w i)]
    congr 1
    refine sum_congr rfl fun i hi => ?_
    rw [intervalIntegral.integral_const_mul]
    rfl
  have hint : IntervalIntegrable (fun v => (cubicSpl n x (fun i => v * Real.sin (x i * v) / x i) t - v * Real.sin (t * v) / t) * f v) volume 0 c := by
    have h1 : IntervalIntegrable (fun v => ∑ i ∈ range n, w i * (v * Real.sin (x i * v) / x i * f v) - v * Real.sin (t * v) / t * f v) volume 0 c :=
      (ii_sum _ fun i _ => (hI (x i)).const_mul (w i)).sub (hI t)
    refine h1.congr fun v _ => ?_
    rw [hw, sub_mul, sum_mul]
    congr 1
    exact sum_congr rfl fun i _ => by ring
  have ht0 : 0 < t := h0.trans_le ht
  rw [hsum]
  refine (intervalIntegral.abs_integral_le_integral_abs hc).trans ?_
  rw [← intervalIntegral.integral_const_mul]
  refine intervalIntegral.integral_mono_on hc hint.abs (hf2.const_mul _) fun v hv => ?_
  have hfv := hf v hv.1
  rw [abs_mul, abs_of_nonneg hfv]
  have h1 := sinc_error hn h0 hq hxq hv.1 ht ht'
  have h2 : v ^ 4 ≤ c ^ 2 * v ^ 2 := by
    have : v ^ 2 ≤ c ^ 2 := pow_le_pow_left₀ hv.1 hv.2 2
    nlinarith [sq_nonneg v]
  have h3 : 0 ≤ (1 / 2 + 3 / 4 * q) * ((q - 1) * t) ^ 2 / 3 := by have : 0 < q := by linarith
                                                                  positivity
  calc _ ≤ (1 / 2 + 3 / 4 * q) * ((q - 1) * t) ^ 2 * (v ^ 4 / 3) * f v := mul_le_mul_of_nonneg_right h1 hfv
    _ = (1 / 2 + 3 / 4 * q) * ((q - 1) * t) ^ 2 / 3 * v ^ 4 * f v := by ring
    _ ≤ (1 / 2 + 3 / 4 * q) * ((q - 1) * t) ^ 2 / 3 * (c ^ 2 * v ^ 2) * f v :=
        mul_le_mul_of_nonneg_right (mul_le_mul_of_nonneg_left h2 h3) hfv
    _ = _ := by ring

/-- the step of the wavenumber grid. -/
theorem pKK_ratio {nk nc : ℕ} {K : Fin nk → Fin nc → ℝ} {lo hi : ℝ} (hlo : (⨅ p : Fin nk × Fin nc, K p.1 p.2) = lo) (hhi : (⨆ p : Fin nk × Fin nc, K p.1 p.2) = hi)
    (h0 : 0 < lo) (h1 : 0 < hi) (i : ℕ) : pKK K (i + 1) = (hi / lo) ^ ((1:ℝ) / 99) * pKK K i := by
  unfold pKK IntegrateCorr.logspace
  rw [hlo, hhi, Real.rpow_def_of_pos (div_pos h1 h0), ← Real.exp_add, Halomod.HaloModel.linspace_eq _ _ (by norm_num),
    Halomod.HaloModel.linspace_eq _ _ (by norm_num), Real.log_div h1.ne' h0.ne']
  congr 1
  push_cast
  norm_num
  ring

/-- C60: the numerical transform at every requested wavenumber, not only those on the internal table.  For every non-negative profile with a finite
normalisation, any haloes in any order, any positive wavenumbers between `lo` and `hi` (the smallest and the largest): with
`q = (hi/lo)^(1/99)`, the ratio of neighbouring wavenumbers of the internal table, the returned value differs from the Fourier integral by at most
`(1/6 + q/4) ((q - 1) κ c)²` times the normalisation integral. -/
theorem C60_transform_accuracy {nk nc : ℕ} (f : ℝ → ℝ) (K : Fin nk → Fin nc → ℝ) (c : Fin nc → ℝ)
    (σ : Fin nc → Fin nc) (hσ : IsArgsort c σ) (hc : ∀ j, 0 ≤ c j) {lo hi : ℝ} (hlo : 0 < lo) (hlh : lo < hi)
    (hlo' : ∀ i j, lo ≤ K i j) (hhi' : ∀ i j, K i j ≤ hi) (hlo1 : ∃ i j, K i j = lo) (hhi1 : ∃ i j, K i j = hi)
    (hfn : ∀ x, 0 ≤ x → 0 ≤ f x) (hf2 : ∀ b, 0 ≤ b → IntervalIntegrable (fun x => f x * x ^ 2) volume 0 b)
    (hf : ∀ κ b, 0 ≤ b → IntervalIntegrable (fun x => x * f x * Real.sin (κ * x) / κ) volume 0 b) :
    ∃ out, genericP (fun g a b => ∫ x in a..b, g x) cubicSpl f K c σ = .ok out ∧
      ∀ i j, |out i j - Spec.fourier f (K i j) (c j)| ≤
        (1 / 6 + (hi / lo) ^ ((1:ℝ) / 99) / 4) * (((hi / lo) ^ ((1:ℝ) / 99) - 1) * K i j * c j) ^ 2 * ∫ x in (0:ℝ)..c j, f x * x ^ 2 := by
  obtain ⟨i0, j0, h0⟩ := hlo1
  obtain ⟨i1, j1, h1⟩ := hhi1
  have hK : ∀ i j, 0 < K i j := fun i j => hlo.trans_le (hlo' i j)
  have hne : K i0 j0 ≠ K i1 j1 := by rw [h0, h1]; exact hlh.ne
  have : Nonempty (Fin nk × Fin nc) := ⟨(i0, j0)⟩
  have einf : (⨅ p : Fin nk × Fin nc, K p.1 p.2) = lo := le_antisymm
    ((ciInf_le (f := fun p : Fin nk × Fin nc => K p.1 p.2) (Set.finite_range _).bddBelow (i0, j0)).trans h0.le) (le_ciInf fun p => hlo' p.1 p.2)
  have esup : (⨆ p : Fin nk × Fin nc, K p.1 p.2) = hi := le_antisymm (ciSup_le fun p => hhi' p.1 p.2)
    (h1.ge.trans (le_ciSup (f := fun p : Fin nk × Fin nc => K p.1 p.2) (Set.finite_range _).bddAbove (i1, j1)))
  obtain ⟨out, ho, hv⟩ := C60_transform cubicSpl f K c σ hσ hc hK hne hf
  refine ⟨out, ho, fun i j => ?_⟩
  have hends := IntegrateCorr.logspace_ends lo hi hlo (hlo.trans hlh) (n := 100) (by norm_num)
  have e0 : pKK K 0 = lo := by unfold pKK; rw [einf, esup]; exact hends.1
  have e1 : pKK K (100 - 1) = hi := by unfold pKK; rw [einf, esup]; exact hends.2
  rw [hv]
  exact fourier_error (n := 100) (by norm_num) (x := pKK K) (by rw [e0]; exact hlo)
    (Real.one_lt_rpow ((one_lt_div hlo).2 hlh) (by norm_num)) (fun i _ => pKK_ratio einf esup hlo (hlo.trans hlh) i) (hc j) hfn (hf2 _ (hc j))
    (fun κ => hf κ _ (hc j)) (by rw [e0]; exact hlo' i j) (by rw [e1]; exact hhi' i j)

/-! ### normalisations of several haloes at once -/

/-- one sub-interval of the cumulative rule, for samples between 0 and `G`. -/
theorem cumSub_range {n : ℕ} {dx G : ℝ} (hdx : 0 < dx) {y : ℕ → ℝ} (hy : ∀ i < n, 0 ≤ y i ∧ y i ≤ G) {j : ℕ} (hj : j + 1 < n) :
    -(1 / 12 * G * dx) ≤ cumSub n dx y j ∧ cumSub n dx y j ≤ 13 / 12 * G * dx := by
  have key : ∀ a b c : ℝ, (0 ≤ a ∧ a ≤ G) → (0 ≤ b ∧ b ≤ G) → (0 ≤ c ∧ c ≤ G) →
      -(1 / 12 * G * dx) ≤ dx / 3 * (5 * a / 4 + 2 * b - c / 4) ∧ dx / 3 * (5 * a / 4 + 2 * b - c / 4) ≤ 13 / 12 * G * dx := by
    intro a b c ha hb hc
    have e1 : -(1 / 4 * G) ≤ 5 * a / 4 + 2 * b - c / 4 := by linarith [ha.1, hb.1, hc.2]
    have e2 : 5 * a / 4 + 2 * b - c / 4 ≤ 13 / 4 * G := by linarith [ha.2, hb.2, hc.1]
    have h3 : 0 ≤ dx / 3 := by positivity
    have f1 := mul_le_mul_of_nonneg_left e1 h3
    have f2 := mul_le_mul_of_nonneg_left e2 h3
    constructor <;> linarith
  unfold cumSub
  split_ifs with h
  · exact key _ _ _ (hy _ (by omega)) (hy _ (by omega)) (hy _ (by omega))
  · exact key _ _ _ (hy _ (by omega)) (hy _ (by omega)) (hy _ (by omega))

/-- every entry of the cumulative rule is the integral up to there, to within the step times the variation and the maximum. -/
theorem cumSimpson_entry {n : ℕ} (hn : 3 ≤ n) {g p q : ℝ → ℝ} {a h G : ℝ} (hh : 0 < h) (hp : MonotoneOn p (Set.Icc a (a + (n - 1 : ℕ) * h)))
    (hq : MonotoneOn q (Set.Icc a (a + (n - 1 : ℕ) * h))) (hg : ∀ x ∈ Set.Icc a (a + (n - 1 : ℕ) * h), g x = p x - q x)
    (hG : ∀ x ∈ Set.Icc a (a + (n - 1 : ℕ) * h), 0 ≤ g x ∧ g x ≤ G) {j : ℕ} (hj : j < n) :
    |cumSimpson n h (fun i : ℕ => g (a + i * h)) j - ∫ t in a..(a + j * h), g t| ≤
      2 * h * ((p (a + (n - 1 : ℕ) * h) - p a) + (q (a + (n - 1 : ℕ) * h) - q a)) + 13 / 12 * G * h := by
  set e := a + (n - 1 : ℕ) * h with he
  have hle : ∀ i : ℕ, i < n → a + (i:ℝ) * h ≤ e := fun i hi => by
    have : (i:ℝ) ≤ (n - 1 : ℕ) := by exact_mod_cast (by omega : i ≤ n - 1)
    rw [he]; nlinarith
  have hge : ∀ i : ℕ, a ≤ a + (i:ℝ) * h := fun i => by have : 0 ≤ (i:ℝ) * h := by positivity
                                                       linarith
  have hae : a ≤ e := by simpa using hle 0 (by omega)
  have hmem : ∀ i : ℕ, i < n → a + (i:ℝ) * h ∈ Set.Icc a e := fun i hi => ⟨hge i, hle i hi⟩
  have hG0 : 0 ≤ G := ((hG a ⟨le_rfl, hae⟩).1).trans (hG a ⟨le_rfl, hae⟩).2
  have ip : ∀ u v, u ∈ Set.Icc a e → v ∈ Set.Icc a e → IntervalIntegrable p volume u v := fun u v hu hv =>
    (hp.mono (Set.uIcc_subset_Icc hu hv)).intervalIntegrable
  have iq : ∀ u v, u ∈ Set.Icc a e → v ∈ Set.Icc a e → IntervalIntegrable q volume u v := fun u v hu hv =>
    (hq.mono (Set.uIcc_subset_Icc hu hv)).intervalIntegrable
  have ig : ∀ u v, u ∈ Set.Icc a e → v ∈ Set.Icc a e → IntervalIntegrable g volume u v := fun u v hu hv =>
    ((ip u v hu hv).sub (iq u v hu hv)).congr fun x hx => (hg x (Set.uIcc_subset_Icc hu hv (Set.uIoc_subset_uIcc hx))).symm
  -- even entries
  have even : ∀ b : ℕ, 2 * b < n → |cumSimpson n h (fun i : ℕ => g (a + i * h)) (2 * b) - ∫ t in a..(a + (2 * b : ℕ) * h), g t| ≤
      2 * h * ((p e - p a) + (q e - q a)) := by
    intro b hb
    have hm := hmem (2 * b) hb
    have ha : a ∈ Set.Icc a e := ⟨le_rfl, hae⟩
    have hP := basicSimpson_mono p a h hh b (hp.mono (Set.Icc_subset_Icc_right hm.2))
    have hQ := basicSimpson_mono q a h hh b (hq.mono (Set.Icc_subset_Icc_right hm.2))
    have m1 : p (a + (2 * b : ℕ) * h) ≤ p e := hp hm ⟨hae, le_rfl⟩ hm.2
    have m2 : q (a + (2 * b : ℕ) * h) ≤ q e := hq hm ⟨hae, le_rfl⟩ hm.2
    rw [cumSimpson_even n h _ b hb]
    have e1 : basicSimpson b h (fun i : ℕ => g (a + i * h)) = basicSimpson b h (fun i : ℕ => p (a + i * h)) - basicSimpson b h (fun i : ℕ => q (a + i * h)) := by
      unfold basicSimpson
      rw [← mul_sub, ← sum_sub_distrib]
      congr 1
      refine sum_congr rfl fun i hi => ?_
      have hi := mem_range.1 hi
      beta_reduce
      rw [hg _ (hmem (2 * i) (by omega)), hg _ (hmem (2 * i + 1) (by omega)), hg _ (hmem (2 * i + 2) (by omega))]
      ring
    have e2 : ∫ t in a..(a + (2 * b : ℕ) * h), g t = (∫ t in a..(a + (2 * b : ℕ) * h), p t) - ∫ t in a..(a + (2 * b : ℕ) * h), q t := by
      rw [← intervalIntegral.integral_sub (ip _ _ ha hm) (iq _ _ ha hm)]
      refine intervalIntegral.integral_congr fun x hx => ?_
      exact hg x (Set.uIcc_subset_Icc ha hm hx)
    rw [e1, e2]
    have b1 : 2 * h * (p (a + (2 * b : ℕ) * h) - p a) ≤ 2 * h * (p e - p a) := by gcongr
    have b2 : 2 * h * (q (a + (2 * b : ℕ) * h) - q a) ≤ 2 * h * (q e - q a) := by gcongr
    rw [abs_le] at *
    constructor <;> linarith [hP.1, hP.2, hQ.1, hQ.2]
  rcases Nat.even_or_odd' j with ⟨b, rfl | rfl⟩
  · refine (even b hj).trans ?_
    have : 0 ≤ 13 / 12 * G * h := by positivity
    linarith
  · have h1 := even b (by omega)
    have hs : cumSimpson n h (fun i : ℕ => g (a + i * h)) (2 * b + 1) =
        cumSimpson n h (fun i : ℕ => g (a + i * h)) (2 * b) + cumSub n h (fun i : ℕ => g (a + i * h)) (2 * b) := by
      unfold cumSimpson; rw [sum_range_succ]
    have hr := cumSub_range (y := fun i : ℕ => g (a + i * h)) hh (fun i hi => hG _ (hmem i hi)) hj
    have hm0 := hmem (2 * b) (by omega)
    have hm1 := hmem (2 * b + 1) hj
    have hsp : ∫ t in a..(a + ((2 * b + 1 : ℕ):ℝ) * h), g t = (∫ t in a..(a + ((2 * b : ℕ):ℝ) * h), g t) +
        ∫ t in (a + ((2 * b : ℕ):ℝ) * h)..(a + ((2 * b + 1 : ℕ):ℝ) * h), g t :=
      (intervalIntegral.integral_add_adjacent_intervals (ig _ _ ⟨le_rfl, hae⟩ hm0) (ig _ _ hm0 hm1)).symm
    have hlt : a + ((2 * b : ℕ):ℝ) * h ≤ a + ((2 * b + 1 : ℕ):ℝ) * h := by push_cast; nlinarith
    have hI0 : 0 ≤ ∫ t in (a + ((2 * b : ℕ):ℝ) * h)..(a + ((2 * b + 1 : ℕ):ℝ) * h), g t :=
      intervalIntegral.integral_nonneg hlt fun x hx => (hG x ⟨hm0.1.trans hx.1, hx.2.trans hm1.2⟩).1
    have hI1 : (∫ t in (a + ((2 * b : ℕ):ℝ) * h)..(a + ((2 * b + 1 : ℕ):ℝ) * h), g t) ≤ G * h := by
      have := intervalIntegral.integral_mono_on (μ := volume) hlt (ig _ _ hm0 hm1) (intervalIntegrable_const (c := G))
        fun x hx => (hG x ⟨hm0.1.trans hx.1, hx.2.trans hm1.2⟩).2
      rw [intervalIntegral.integral_const, smul_eq_mul] at this
      refine this.trans (le_of_eq ?_)
      push_cast; ring
    rw [hs, hsp]
    generalize (∫ t in (a + ((2 * b : ℕ):ℝ) * h)..(a + ((2 * b + 1 : ℕ):ℝ) * h), g t) = J at *
    rw [abs_le] at *
    have hGh : 0 ≤ G * h := by positivity
    constructor <;> linarith [h1.1, h1.2, hr.1, hr.2]

/-- the spline through a cumulative integral, between the samples. -/
theorem norm_spline {n : ℕ} (hn : 5 ≤ n) {g p q : ℝ → ℝ} {a h G : ℝ} (hh : 0 < h) (hp : MonotoneOn p (Set.Icc a (a + (n - 1 : ℕ) * h)))
    (hq : MonotoneOn q (Set.Icc a (a + (n - 1 : ℕ) * h))) (hg : ∀ x ∈ Set.Icc a (a + (n - 1 : ℕ) * h), g x = p x - q x)
    (hG : ∀ x ∈ Set.Icc a (a + (n - 1 : ℕ) * h), 0 ≤ g x ∧ g x ≤ G) {c : ℝ} (hc : a ≤ c) (hc' : c ≤ a + (n - 1 : ℕ) * h) :
    |cubicSpl n (fun i : ℕ => a + i * h) (cumSimpson n h (fun i : ℕ => g (a + i * h))) c - ∫ t in a..c, g t| ≤
      2 * h * ((p (a + (n - 1 : ℕ) * h) - p a) + (q (a + (n - 1 : ℕ) * h) - q a)) + 7 / 2 * G * h := by
  set T := cumSimpson n h (fun i : ℕ => g (a + i * h)) with hT
  obtain ⟨j, hj, hj1, hj2⟩ := Tools.bracket (n := n) (x := fun i : ℕ => a + i * h) (by omega) (by simpa using hc) hc'
  have hinc : Tools.Inc n (fun i : ℕ => a + i * h) := by
    intro i k hik _
    have : (i:ℝ) < k := by exact_mod_cast hik
    have := mul_lt_mul_of_pos_right this hh
    dsimp only; linarith
  have hst : ∀ i : ℕ, (a + ((i + 1 : ℕ):ℝ) * h) - (a + (i:ℝ) * h) = h := fun i => by push_cast; ring
  have hstn : ∀ i k : ℕ, k = i + 1 → (a + (k:ℝ) * h) - (a + (i:ℝ) * h) = h := fun i k hk => by rw [hk]; exact hst i
  set e := a + (n - 1 : ℕ) * h with he
  have hmem : ∀ i : ℕ, i < n → a + (i:ℝ) * h ∈ Set.Icc a e := fun i hi => by
    have h1 : (i:ℝ) ≤ (n - 1 : ℕ) := by exact_mod_cast (by omega : i ≤ n - 1)
    have h2 : 0 ≤ (i:ℝ) * h := by positivity
    exact ⟨by linarith, by rw [he]; nlinarith⟩
  have hae : a ≤ e := hc.trans hc'
  have hG0 : 0 ≤ G := ((hG a ⟨le_rfl, hae⟩).1).trans (hG a ⟨le_rfl, hae⟩).2
  have hsub : ∀ i, T (i + 1) - T i = cumSub n h (fun i : ℕ => g (a + i * h)) i := fun i => by
    rw [hT]; unfold cumSimpson; rw [sum_range_succ]; ring
  have hr : ∀ i, i + 1 < n → -(1 / 12 * G * h) ≤ T (i + 1) - T i ∧ T (i + 1) - T i ≤ 13 / 12 * G * h := fun i hi => by
    rw [hsub]; exact cumSub_range hh (fun k hk => hG _ (hmem k hk)) hi
  have near := Tools.spline_near_polygon_local hn (Tools.cubicSpl_isSpline hn hinc T) (K := 7 / 12 * G / h) (ρ := 1)
    (fun i hi => hinc i (i + 1) (by omega) hi)
    (by rw [hstn 0 1 rfl, hstn 1 2 rfl]; linarith)
    (by rw [hstn (n - 2) (n - 1) (by omega), hstn (n - 3) (n - 2) (by omega)]; linarith)
    (by
      intro i hi
      rw [hstn (i + 1) (i + 2) rfl, hstn i (i + 1) rfl, ← sub_div, abs_div, abs_of_pos hh,
        show (a + ((i + 2 : ℕ):ℝ) * h) - (a + (i:ℝ) * h) = 2 * h by push_cast; ring]
      rw [div_le_iff₀ hh]
      have r1 := hr i (by omega)
      have r2 := hr (i + 1) hi
      rw [show i + 1 + 1 = i + 2 from rfl] at r2
      have e3 : 7 / 12 * G / h * (2 * h) * h = 7 / 6 * G * h := by field_simp; ring
      rw [e3, abs_le]
      constructor <;> linarith [r1.1, r1.2, r2.1, r2.2]) hj hj1 hj2
  rw [hst j] at near
  have e4 : 3 / 4 * (7 / 12 * G / h) * (1 + 2 * 1) * h ^ 2 = 21 / 16 * G * h := by field_simp; ring
  rw [e4] at near
  -- the polygon against the integral
  have ig : ∀ u v, u ∈ Set.Icc a e → v ∈ Set.Icc a e → IntervalIntegrable g volume u v := fun u v hu hv =>
    (((hp.mono (Set.uIcc_subset_Icc hu hv)).intervalIntegrable (μ := volume)).sub ((hq.mono (Set.uIcc_subset_Icc hu hv)).intervalIntegrable (μ := volume))).congr
      fun x hx => (hg x (Set.uIcc_subset_Icc hu hv (Set.uIoc_subset_uIcc hx))).symm
  have ha : a ∈ Set.Icc a e := ⟨le_rfl, hae⟩
  have hI : ∀ u v, u ∈ Set.Icc a e → v ∈ Set.Icc a e → u ≤ v → 0 ≤ (∫ t in a..v, g t) - ∫ t in a..u, g t ∧
      (∫ t in a..v, g t) - ∫ t in a..u, g t ≤ G * (v - u) := by
    intro u v hu hv huv
    rw [← intervalIntegral.integral_add_adjacent_intervals (ig a u ha hu) (ig u v hu hv), add_sub_cancel_left]
    refine ⟨intervalIntegral.integral_nonneg huv fun x hx => (hG x ⟨hu.1.trans hx.1, hx.2.trans hv.2⟩).1, ?_⟩
    have := intervalIntegral.integral_mono_on (μ := volume) huv (ig u v hu hv) (intervalIntegrable_const (c := G))
      fun x hx => (hG x ⟨hu.1.trans hx.1, hx.2.trans hv.2⟩).2
    rw [intervalIntegral.integral_const, smul_eq_mul] at this
    linarith
  have hcm : c ∈ Set.Icc a e := ⟨hc, hc'⟩
  have i1 := hI _ _ (hmem j (by omega)) hcm hj1
  have i2 := hI _ _ hcm (hmem (j + 1) hj) hj2
  have c0 := cumSimpson_entry (by omega) hh hp hq hg hG (j := j) (by omega)
  have c1 := cumSimpson_entry (by omega) hh hp hq hg hG (j := j + 1) hj
  rw [← hT] at c0 c1
  set lam := (c - (a + j * h)) / h with hlam
  have l0 : 0 ≤ lam := div_nonneg (by linarith) hh.le
  have l1 : lam ≤ 1 := by rw [hlam, div_le_one hh]; linarith [hst j]
  have hd : c - (a + j * h) = lam * h := by rw [hlam]; field_simp
  have hd' : (a + ((j + 1 : ℕ):ℝ) * h) - c = (1 - lam) * h := by linarith [hst j]
  rw [hd] at i1
  rw [hd'] at i2
  generalize (∫ t in a..(a + (j:ℝ) * h), g t) = A0 at *
  generalize (∫ t in a..(a + ((j + 1 : ℕ):ℝ) * h), g t) = A1 at *
  generalize (∫ t in a..c, g t) = I at *
  generalize cubicSpl n (fun i : ℕ => a + i * h) T c = S at *
  generalize 2 * h * ((p e - p a) + (q e - q a)) = V at *
  have poly : |T j + (T (j + 1) - T j) * lam - (A0 + (A1 - A0) * lam)| ≤ V + 13 / 12 * G * h := by
    have e5 : T j + (T (j + 1) - T j) * lam - (A0 + (A1 - A0) * lam) = (1 - lam) * (T j - A0) + lam * (T (j + 1) - A1) := by ring
    rw [e5]
    refine (abs_add_le _ _).trans ?_
    rw [abs_mul, abs_mul, abs_of_nonneg l0, abs_of_nonneg (by linarith : (0:ℝ) ≤ 1 - lam)]
    have m1 := mul_le_mul_of_nonneg_left c0 (by linarith : (0:ℝ) ≤ 1 - lam)
    have m2 := mul_le_mul_of_nonneg_left c1 l0
    linarith
  have hGh : 0 ≤ G * h := by positivity
  have pl : |(A0 + (A1 - A0) * lam) - I| ≤ G * h := by
    have e6 : (A0 + (A1 - A0) * lam) - I = lam * (A1 - I) - (1 - lam) * (I - A0) := by ring
    have m1 : 0 ≤ lam * (A1 - I) := mul_nonneg l0 i2.1
    have m2 : 0 ≤ (1 - lam) * (I - A0) := mul_nonneg (by linarith) i1.1
    have m3 : lam * (A1 - I) ≤ lam * (G * ((1 - lam) * h)) := mul_le_mul_of_nonneg_left i2.2 l0
    have m4 : (1 - lam) * (I - A0) ≤ (1 - lam) * (G * (lam * h)) := mul_le_mul_of_nonneg_left i1.2 (by linarith)
    have m5 : lam * (1 - lam) * (G * h) ≤ 1 * (G * h) := mul_le_mul_of_nonneg_right (by nlinarith) hGh
    rw [e6, abs_le]
    constructor <;> nlinarith
  rw [abs_le] at *
  constructor <;> linarith [near.1, near.2, poly.1, poly.2, pl.1, pl.2]

/-- C60: normalisations of an array of haloes, for a profile whose `f(x) x²` rises up to some `x = p` and falls afterwards: every halo, not only the most
concentrated one, gets `∫₀ᶜ f x²` with its own concentration, to within seven and a half steps of the 2000-point grid (plus the `10⁻⁶` left out at the centre)
times the maximum of `f x²`.  `C` is the largest concentration. -/
theorem C60_norm_array_unimodal (f cm : ℝ → ℝ) (l : List ℝ) {C p : ℝ} (hC : C ∈ l) (hmax : ∀ x ∈ l, x ≤ C) (hmin : ∀ x ∈ l, 1e-6 ≤ x)
    (hC1 : 1e-6 < C) (h0 : 1e-6 ≤ p) (hpc : p ≤ C)
    (hup : MonotoneOn (fun x => f x * x ^ 2) (Set.Icc 0 p)) (hdown : AntitoneOn (fun x => f x * x ^ 2) (Set.Icc p C))
    (hnn : ∀ x, 0 ≤ x → x ≤ C → 0 ≤ f x * x ^ 2) :
    ∃ w, genericH cubicSpl f cm (some (.arr l)) none = .ok (.arr w) ∧ w.length = l.length ∧
      ∀ i (h : i < l.length) (h' : i < w.length),
        |w[i] - ∫ x in (0 : ℝ)..l[i], f x * x ^ 2| ≤ (15 / 2 * ((C - 1e-6) / 1999) + 1e-6) * (f p * p ^ 2) := by
  have hm : l.max? = some C := by
    rw [List.max?_eq_some_iff]
    exact ⟨hC, fun x hx => hmax x hx⟩
  refine ⟨l.map (cubicSpl 2000 (hGrid C) (hTable f C)), ?_, by simp, ?_⟩
  · simp only [genericH, SA.max, hm, Option.getD_some]
  intro i h h'
  rw [List.getElem_map]
  set c := l[i] with hc
  have hcl : c ∈ l := List.getElem_mem h
  have hc1 := hmin c hcl
  have hc2 := hmax c hcl
  set g : ℝ → ℝ := fun x => f x * x ^ 2 with hg
  have hgp : 0 ≤ g p := hnn p (by linarith) hpc
  have hP : MonotoneOn (fun x => g (min x p)) (Set.Icc 1e-6 C) := by
    intro x hx y hy hxy
    have hx1 : (0:ℝ) ≤ min x p := le_min (by linarith [hx.1]) (by linarith)
    have hy1 : (0:ℝ) ≤ min y p := le_min (by linarith [hy.1]) (by linarith)
    exact hup ⟨hx1, min_le_right _ _⟩ ⟨hy1, min_le_right _ _⟩ (min_le_min_right p hxy)
  have hQ : MonotoneOn (fun x => g p - g (max x p)) (Set.Icc 1e-6 C) := by
    intro x hx y hy hxy
    have := hdown ⟨le_max_right x p, max_le hx.2 hpc⟩ ⟨le_max_right y p, max_le hy.2 hpc⟩ (max_le_max_right p hxy)
    dsimp only at this ⊢
    linarith
  have hpq : ∀ x ∈ Set.Icc (1e-6 : ℝ) C, g x = g (min x p) - (g p - g (max x p)) := by
    intro x _
    rcases le_total x p with h | h
    · rw [min_eq_left h, max_eq_right h]; ring
    · rw [min_eq_right h, max_eq_left h]; ring
  have hrange : ∀ x ∈ Set.Icc (1e-6 : ℝ) C, 0 ≤ g x ∧ g x ≤ g p := by
    intro x hx
    have hx0 : (0:ℝ) ≤ x := by linarith [hx.1]
    refine ⟨hnn x hx0 hx.2, ?_⟩
    rcases le_total x p with h | h
    · exact hup ⟨hx0, h⟩ ⟨by linarith, le_rfl⟩ h
    · exact hdown ⟨le_rfl, hpc⟩ ⟨h, hx.2⟩ h
  have hs : 0 < hStep C := by
    unfold hStep
    have : 0 < C - 1e-6 := by linarith
    positivity
  have hend : (1e-6 : ℝ) + ((2000 - 1 : ℕ) : ℝ) * hStep C = C := by
    unfold hStep; norm_num; ring
  have key := norm_spline (n := 2000) (by norm_num) (g := g) (p := fun x => g (min x p)) (q := fun x => g p - g (max x p)) (a := 1e-6) (G := g p) hs
    (by rwa [hend]) (by rwa [hend]) (by rwa [hend]) (by rwa [hend]) hc1 (by rwa [hend])
  rw [hend] at key
  have egrid : hGrid C = fun i : ℕ => 1e-6 + (i:ℝ) * hStep C := funext fun i => hGrid_eq C i
  have etab : hTable f C = cumSimpson 2000 (hStep C) (fun i : ℕ => g (1e-6 + i * hStep C)) := by
    funext i
    unfold hTable
    simp only [hGrid_eq, hg]
  rw [← egrid, ← etab, min_eq_left h0, max_eq_right h0, min_eq_right hpc, max_eq_left hpc] at key
  have i1 : IntervalIntegrable g volume 0 1e-6 :=
    MonotoneOn.intervalIntegrable (by rw [Set.uIcc_of_le (by norm_num)]; exact hup.mono (Set.Icc_subset_Icc_right h0))
  have i2 : IntervalIntegrable g volume 1e-6 p :=
    MonotoneOn.intervalIntegrable (by rw [Set.uIcc_of_le h0]; exact hup.mono (Set.Icc_subset_Icc_left (by norm_num)))
  have i3 : IntervalIntegrable g volume p C := AntitoneOn.intervalIntegrable (by rwa [Set.uIcc_of_le hpc])
  have i4 : IntervalIntegrable g volume 1e-6 c := (i2.trans i3).mono_set (by
    rw [Set.uIcc_of_le hc1, Set.uIcc_of_le hC1.le]; exact Set.Icc_subset_Icc_right hc2)
  have hsplit : ∫ x in (0 : ℝ)..c, g x = (∫ x in (0 : ℝ)..1e-6, g x) + ∫ x in (1e-6 : ℝ)..c, g x :=
    (intervalIntegral.integral_add_adjacent_intervals i1 i4).symm
  have hlow : 0 ≤ ∫ x in (0 : ℝ)..1e-6, g x :=
    intervalIntegral.integral_nonneg (by norm_num) fun x hx => hnn x hx.1 (by linarith [hx.2])
  have hhigh : ∫ x in (0 : ℝ)..1e-6, g x ≤ 1e-6 * g p := by
    have := intervalIntegral.integral_mono_on (μ := volume) (a := 0) (b := 1e-6) (by norm_num) i1 (intervalIntegrable_const (c := g p))
      fun x hx => hup ⟨hx.1, hx.2.trans h0⟩ ⟨by linarith, le_rfl⟩ (hx.2.trans h0)
    rw [intervalIntegral.integral_const] at this
    simpa using this
  have ha : 0 ≤ g 1e-6 := hnn _ (by norm_num) hC1.le
  have hcc : 0 ≤ g C := hnn _ (by linarith) le_rfl
  have hb2 : 2 * hStep C * (g p - g 1e-6 + (g p - g C - (g p - g p))) ≤ 2 * hStep C * (2 * g p) :=
    mul_le_mul_of_nonneg_left (by linarith) (by positivity)
  have hb3 := key.trans (add_le_add_left hb2 _)
  change |_ - ∫ x in (0 : ℝ)..c, g x| ≤ (15 / 2 * hStep C + 1e-6) * g p
  rw [hsplit]
  generalize cubicSpl 2000 (hGrid C) (hTable f C) c = S at *
  generalize (∫ x in (1e-6 : ℝ)..c, g x) = J at *
  rw [abs_le] at *
  constructor <;> linarith [hb3.1, hb3.2]

/-- C60: normalisations of an array of haloes with the generalised NFW profile, inner slope below 2. -/
theorem C60_norm_array_gnfw (cm : ℝ → ℝ) (α : ℝ) (hα : α ≤ 2 - 1e-6) (l : List ℝ) {C : ℝ} (hC : C ∈ l) (hmax : ∀ x ∈ l, x ≤ C) (hmin : ∀ x ∈ l, 1e-6 ≤ x)
    (hC1 : 1e-6 < C) :
    ∃ w, genericH cubicSpl (gnfwF α) cm (some (.arr l)) none = .ok (.arr w) ∧ w.length = l.length ∧
      ∀ i (h : i < l.length) (h' : i < w.length),
        |w[i] - ∫ x in (0 : ℝ)..l[i], gnfwF α x * x ^ 2| ≤ 15 / 2 * ((C - 1e-6) / 1999) + 1e-6 := by
  set p : ℝ := min (2 - α) C with hp
  have hp0 : 1e-6 ≤ p := le_min (by linarith) hC1.le
  have hpos : 0 < p := by linarith
  have hdown : AntitoneOn (fun x => gnfwF α x * x ^ 2) (Set.Icc p C) := by
    rcases le_total (2 - α) C with h | h
    · exact gnfw_down α p C hpos (by rw [hp, min_eq_left h])
    · rw [hp, min_eq_right h, Set.Icc_self]
      exact Set.subsingleton_singleton.antitoneOn _
  obtain ⟨w, hw, hlen, hb⟩ := C60_norm_array_unimodal (gnfwF α) cm l hC hmax hmin hC1 hp0 (min_le_right _ _) (gnfw_up α p (min_le_left _ _)) hdown
    (by
      intro x hx _
      rcases hx.eq_or_lt with h | h
      · rw [← h]; simp
      · rw [gnfw_exp α h]; exact (Real.exp_pos _).le)
  refine ⟨w, hw, hlen, fun i h h' => (hb i h h').trans ?_⟩
  have h1 := gnfw_le_one α (by linarith) hpos
  have h2 : 0 ≤ 15 / 2 * ((C - 1e-6) / 1999) + 1e-6 := by
    have : 0 < C - 1e-6 := by linarith
    positivity
  nlinarith

/-- C60 for the generalised NFW profile at every wavenumber. -/
theorem C60_gnfw_accuracy {nk nc : ℕ} (α : ℝ) (hα : α < 2) (K : Fin nk → Fin nc → ℝ) (c : Fin nc → ℝ)
    (σ : Fin nc → Fin nc) (hσ : IsArgsort c σ) (hc : ∀ j, 0 ≤ c j) {lo hi : ℝ} (hlo : 0 < lo) (hlh : lo < hi)
    (hlo' : ∀ i j, lo ≤ K i j) (hhi' : ∀ i j, K i j ≤ hi) (hlo1 : ∃ i j, K i j = lo) (hhi1 : ∃ i j, K i j = hi) :
    ∃ out, genericP (fun g a b => ∫ x in a..b, g x) cubicSpl (gnfwF α) K c σ = .ok out ∧
      ∀ i j, |out i j - Spec.fourier (gnfwF α) (K i j) (c j)| ≤
        (1 / 6 + (hi / lo) ^ ((1:ℝ) / 99) / 4) * (((hi / lo) ^ ((1:ℝ) / 99) - 1) * K i j * c j) ^ 2 * ∫ x in (0:ℝ)..c j, gnfwF α x * x ^ 2 :=
  C60_transform_accuracy (gnfwF α) K c σ hσ hc hlo hlh hlo' hhi' hlo1 hhi1
    (fun x hx => by unfold gnfwF; have h1 : 0 < 1 + x := by linarith
                    positivity)
    (fun b hb => gnfw_integrable α hα b hb) (gnfw_pIntegrand α hα)

/-! ### the hypotheses are met -/

/-- three haloes at once: each normalisation to 4 percent of the maximum of `f x²` -/
example (cm : ℝ → ℝ) : ∃ w, genericH cubicSpl (gnfwF 1) cm (some (.arr [3, 10, 5])) none = .ok (.arr w) ∧ w.length = 3 ∧
    ∀ i (h : i < 3) (h' : i < w.length), |w[i] - ∫ x in (0 : ℝ)..([3, 10, 5] : List ℝ)[i], gnfwF 1 x * x ^ 2| ≤ 0.04 := by
  obtain ⟨w, hw, hl, hb⟩ := C60_norm_array_gnfw cm 1 (by norm_num) [3, 10, 5] (C := 10) (by simp) (by simp; norm_num) (by simp; norm_num) (by norm_num)
  exact ⟨w, hw, hl, fun i h h' => (hb i h h').trans (by norm_num)⟩

/-- a wavenumber inside the range: the error is far below the normalisation -/
example : ∃ out, genericP (fun g a b => ∫ x in a..b, g x) cubicSpl (gnfwF 1.5) (fun (i : Fin 3) (_ : Fin 3) => ((i : ℕ) : ℝ) + 1)
    ![5, 3, 3] ![1, 2, 0] = .ok out ∧ |out 1 1 - Spec.fourier (gnfwF 1.5) 2 3| ≤
      (1 / 6 + (3:ℝ) ^ ((1:ℝ) / 99) / 4) * (((3:ℝ) ^ ((1:ℝ) / 99) - 1) * 2 * 3) ^ 2 * ∫ x in (0:ℝ)..3, gnfwF 1.5 x * x ^ 2 := by
  obtain ⟨out, ho, h⟩ := C60_gnfw_accuracy (nk := 3) (nc := 3) 1.5 (by norm_num)
    (fun i _ => ((i : ℕ) : ℝ) + 1) _ _ demo_argsort (by intro j; fin_cases j <;> simp) (lo := 1) (hi := 3) (by norm_num) (by norm_num)
    (by intro i _; simp) (by intro i _; fin_cases i <;> norm_num) ⟨0, 0, by simp⟩ ⟨2, 0, by norm_num⟩
  refine ⟨out, ho, ?_⟩
  have := h 1 1
  norm_num at this ⊢
  exact this

end Halomod.Profiles
