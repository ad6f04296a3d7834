import Verif.Lemmas.Spline2
import Verif.Lemmas.SplTrap
import Verif.Props.Converge2
import Verif.Props.ScaleDep
import Mathlib.Analysis.Calculus.ContDiff.Deriv

/-! # C62: interpolation between tabulated values

The package interpolates every table with the cubic spline of scipy.  Here the spline itself is modelled (`Model/Spline.lean`), shown to
be the one curve the documentation of scipy describes (`Spec/Spline.lean`), and shown to have the properties that the other theorems
assume of an external spline. -/
namespace Halomod.Tools

open Finset Halomod.Spec Filter Topology

/-- C62: for every increasing table of at least five entries, the interpolant passes through the entries, is a cubic polynomial between
neighbours, has continuous value, slope and curvature, is not broken at the second and last but one entry, and continues its end
pieces outside the table; and it is the only such function. -/
theorem C62_characterised {n : ℕ} (hn : 5 ≤ n) {x : ℕ → ℝ} (hx : ∀ i j, i < j → j < n → x i < x j) (y : ℕ → ℝ) :
    (∃ p, IsSpline n x y (cubicSpl n x y) p) ∧ ∀ S p, IsSpline n x y S p → S = cubicSpl n x y :=
  ⟨⟨_, cubicSpl_isSpline hn hx y⟩, fun _ _ h => isSpline_unique hn hx h (cubicSpl_isSpline hn hx y)⟩

/-- C62: with any number of entries the interpolant passes through every entry. -/
theorem C62_through (n : ℕ) (x y : ℕ → ℝ) (hx : ∀ i j, i < j → j < n → x i < x j) : ∀ i < n, cubicSpl n x y (x i) = y i :=
  fun _ hi => cubicSpl_interp hx y hi

theorem contDiff_plus_cube (a : ℝ) : ContDiff ℝ 2 fun t : ℝ => max 0 (t - a) ^ 3 := by
  have h1 : ContDiff ℝ 0 fun t : ℝ => 6 * max 0 (t - a) := by rw [contDiff_zero]; fun_prop
  have d2 : ∀ t, HasDerivAt (fun t : ℝ => 3 * max 0 (t - a) ^ 2) (6 * max 0 (t - a)) t := by
    intro t
    rcases lt_trichotomy t a with h | h | h
    · rw [max_eq_left (by linarith)]
      refine ((hasDerivAt_const t (0:ℝ)).congr_of_eventuallyEq ?_).congr_deriv (by ring)
      filter_upwards [Iio_mem_nhds h] with s hs
      rw [max_eq_left (by linarith [Set.mem_Iio.1 hs])]; ring
    · subst h
      rw [sub_self, max_self, mul_zero, hasDerivAt_iff_isLittleO]
      simp only [sub_self, max_self, smul_zero, sub_zero, ne_eq, OfNat.ofNat_ne_zero, not_false_eq_true, zero_pow, mul_zero]
      refine Asymptotics.IsBigO.trans_isLittleO (g := fun s : ℝ => (s - t) ^ 2) ?_ ?_
      · refine Asymptotics.IsBigO.of_bound 3 (Filter.Eventually.of_forall fun s => ?_)
        rw [Real.norm_of_nonneg (by positivity), Real.norm_of_nonneg (sq_nonneg _)]
        have : max 0 (s - t) ^ 2 ≤ (s - t) ^ 2 := by
          rcases le_total 0 (s - t) with h | h
          · rw [max_eq_right h]
          · rw [max_eq_left h]; nlinarith [sq_nonneg (s - t)]
        linarith
      · have h3 : HasDerivAt (fun s : ℝ => (s - t) ^ 2) 0 t := by
          exact (((hasDerivAt_id t).sub_const t).pow 2).congr_deriv (by simp)
        rw [hasDerivAt_iff_isLittleO] at h3
        simpa using h3
    · rw [max_eq_right (by linarith)]
      have h3 : HasDerivAt (fun t : ℝ => 3 * (t - a) ^ 2) (6 * (t - a)) t := by
        have := (((hasDerivAt_id t).sub_const a).pow 2).const_mul 3
        refine this.congr_deriv ?_
        simp; ring
      refine h3.congr_of_eventuallyEq ?_
      filter_upwards [Ioi_mem_nhds h] with s hs
      rw [max_eq_right (by linarith [Set.mem_Ioi.1 hs])]
  have d1 : ∀ t, HasDerivAt (fun t : ℝ => max 0 (t - a) ^ 3) (3 * max 0 (t - a) ^ 2) t := by
    intro t
    rcases lt_trichotomy t a with h | h | h
    · rw [max_eq_left (by linarith)]
      refine ((hasDerivAt_const t (0:ℝ)).congr_of_eventuallyEq ?_).congr_deriv (by ring)
      filter_upwards [Iio_mem_nhds h] with s hs
      rw [max_eq_left (by linarith [Set.mem_Iio.1 hs])]; ring
    · subst h
      rw [sub_self, max_self, hasDerivAt_iff_isLittleO]
      simp only [sub_self, max_self, smul_zero, sub_zero, ne_eq, OfNat.ofNat_ne_zero, not_false_eq_true, zero_pow, mul_zero]
      refine Asymptotics.IsBigO.trans_isLittleO (g := fun s : ℝ => (s - t) ^ 3) ?_ ?_
      · refine Asymptotics.IsBigO.of_bound 1 (Filter.Eventually.of_forall fun s => ?_)
        rw [Real.norm_of_nonneg (by positivity), one_mul]
        rcases le_total 0 (s - t) with h | h
        · rw [max_eq_right h]; exact le_abs_self _
        · rw [max_eq_left h]; simp
      · have h3 : HasDerivAt (fun s : ℝ => (s - t) ^ 3) 0 t := by
          exact (((hasDerivAt_id t).sub_const t).pow 3).congr_deriv (by simp)
        rw [hasDerivAt_iff_isLittleO] at h3
        simpa using h3
    · rw [max_eq_right (by linarith)]
      have h3 : HasDerivAt (fun t : ℝ => (t - a) ^ 3) (3 * (t - a) ^ 2) t := by
        have := (((hasDerivAt_id t).sub_const a).pow 3)
        refine this.congr_deriv ?_
        simp
      refine h3.congr_of_eventuallyEq ?_
      filter_upwards [Ioi_mem_nhds h] with s hs
      rw [max_eq_right (by linarith [Set.mem_Ioi.1 hs])]
  have e1 : deriv (fun t : ℝ => max 0 (t - a) ^ 3) = fun t => 3 * max 0 (t - a) ^ 2 := funext fun t => (d1 t).deriv
  have e2 : deriv (fun t : ℝ => 3 * max 0 (t - a) ^ 2) = fun t => 6 * max 0 (t - a) := funext fun t => (d2 t).deriv
  have c1 : ContDiff ℝ 1 fun t : ℝ => 3 * max 0 (t - a) ^ 2 := by
    rw [show (1 : WithTop ℕ∞) = 0 + 1 from rfl, contDiff_succ_iff_deriv]
    exact ⟨fun t => (d2 t).differentiableAt, by simp, by rw [e2]; exact h1⟩
  rw [show (2 : WithTop ℕ∞) = 1 + 1 by norm_num, contDiff_succ_iff_deriv]
  exact ⟨fun t => (d1 t).differentiableAt, by simp, by rw [e1]; exact c1⟩

/-- C62: the interpolant is twice continuously differentiable on the whole line, whatever the data. -/
theorem C62_smooth (n : ℕ) (x y : ℕ → ℝ) : ContDiff ℝ 2 (cubicSpl n x y) := by
  unfold cubicSpl
  refine ContDiff.sum fun k _ => ContDiff.mul contDiff_const ?_
  unfold splBasis
  split_ifs
  · fun_prop
  · exact contDiff_plus_cube _

/-- C62: samples of a polynomial of degree at most three are interpolated and extrapolated exactly. -/
theorem C62_exact_cubic {n : ℕ} (hn : 4 ≤ n) {x : ℕ → ℝ} (hx : ∀ i j, i < j → j < n → x i < x j) (a b c d : ℝ) (t : ℝ) :
    cubicSpl n x (fun i => a + b * x i + c * x i ^ 2 + d * x i ^ 3) t = a + b * t + c * t ^ 2 + d * t ^ 3 :=
  cubicSpl_cubic hn hx ⟨a, b, c, d⟩ t

/-- C62: `spline_integral` is exact for polynomials of degree at most three, between any limits inside the table. -/
theorem C62_integral_exact {n : ℕ} (hn : 4 ≤ n) {x : ℕ → ℝ} (hx : ∀ i j, i < j → j < n → x i < x j) (a b c d : ℝ) {u v : ℝ}
    (hu : x 0 ≤ u) (huv : u ≤ v) (hv : v ≤ x (n - 1)) (hu0 : u ≠ 0) (hv0 : v ≠ 0) :
    splineIntegral cubicSpl n x (fun i => a + b * x i + c * x i ^ 2 + d * x i ^ 3) (some u) (some v) false =
      ∫ t in u..v, (a + b * t + c * t ^ 2 + d * t ^ 3) := by
  unfold splineIntegral splIntegral
  rw [if_neg (by simp), if_pos ⟨u, rfl, hu0⟩, if_pos ⟨v, rfl, hv0⟩]
  change (∫ t in u..v, _) = _
  refine intervalIntegral.integral_congr fun t ht => ?_
  rw [Set.uIcc_of_le huv] at ht
  have hm : t ∈ Set.Icc (x 0) (x (n - 1)) := ⟨hu.trans ht.1, ht.2.trans hv⟩
  rw [Set.indicator_of_mem hm]
  exact C62_exact_cubic hn hx a b c d t

/-- C62: the interpolant is a linear function of the data. -/
theorem C62_linear (n : ℕ) (x y z : ℕ → ℝ) (a b t : ℝ) :
    cubicSpl n x (fun i => a * y i + b * z i) t = a * cubicSpl n x y t + b * cubicSpl n x z t := by
  rw [cubicSpl_lin.add n x (fun i => a * y i) (fun i => b * z i) t, cubicSpl_ok.smul, cubicSpl_ok.smul]

/-- C62: no run-away oscillation: between two entries the interpolant differs from the straight line joining them by at most
`18 (hi/lo)³` times the largest jump between neighbouring entries, if the steps of the table lie between `lo` and `hi`. -/
theorem C62_stable {n : ℕ} (hn : 5 ≤ n) {x : ℕ → ℝ} (y : ℕ → ℝ) {lo hi D : ℝ} (hlo : 0 < lo)
    (hl : ∀ i, i + 1 < n → lo ≤ x (i + 1) - x i) (hu : ∀ i, i + 1 < n → x (i + 1) - x i ≤ hi) (hD : ∀ i, i + 1 < n → |y (i + 1) - y i| ≤ D)
    {j : ℕ} (hj : j + 1 < n) {t : ℝ} (h1 : x j ≤ t) (h2 : t ≤ x (j + 1)) :
    |cubicSpl n x y t - (y j + (y (j + 1) - y j) * ((t - x j) / (x (j + 1) - x j)))| ≤ 18 * (hi / lo) ^ 3 * D := by
  have hx : Inc n x := by
    intro i k hik
    induction k with
    | zero => omega
    | succ k ih =>
      intro hk
      have := hl k hk
      rcases Nat.lt_or_ge i k with h | h
      · linarith [ih h (by omega)]
      · rw [show i = k by omega]; linarith
  exact spline_near_polygon hn (cubicSpl_isSpline hn hx y) hlo hl hu hD hj h1 h2

/-- C62: a jump in the data costs at most the step: on a uniform table, whatever the data, the integral of the interpolant up to the last entry differs
from that of the broken line through the entries by at most 40 steps times the largest entry. -/
theorem C62_integral_jumps {n : ℕ} (hn : 5 ≤ n) (A : ℝ) {s : ℝ} (hs : 0 < s) (y : ℕ → ℝ) {M : ℝ} (hM : ∀ i < n, |y i| ≤ M) {c : ℝ}
    (hc : A ≤ c) (hc' : c ≤ A + ((n - 1 : ℕ):ℝ) * s) :
    |(∫ t in c..A + ((n - 1 : ℕ):ℝ) * s, cubicSpl n (fun i : ℕ => A + i * s) y t) -
      ∫ t in c..A + ((n - 1 : ℕ):ℝ) * s, linSpl n (fun i : ℕ => A + i * s) y t| ≤ 40 * M * s := by
  have := cubicSpl_quad_bound n A s y M c hn hs hM ⟨hc, hc'⟩
  rwa [splIntegral_inside hc' hc le_rfl, splIntegral_inside hc' hc le_rfl] at this

/-- C62: tables of a continuous function that get denser, with bounded ratio between the longest and the shortest step (uniform and
logarithmic tables over a fixed range have this), are interpolated ever more accurately, uniformly over the range. -/
theorem C62_converges {a b : ℝ} {v : ℝ → ℝ} (hv : ContinuousOn v (Set.Icc a b)) {R : ℝ} (hR : 1 ≤ R) {ε : ℝ} (hε : 0 < ε) :
    ∃ δ > 0, ∀ (n : ℕ) (x : ℕ → ℝ), 5 ≤ n → (∀ i j, i < j → j < n → x i < x j) → x 0 = a → x (n - 1) = b →
      (∀ i, i + 1 < n → x (i + 1) - x i ≤ δ) → (∀ i j, i + 1 < n → j + 1 < n → x (i + 1) - x i ≤ R * (x (j + 1) - x j)) →
      ∀ t ∈ Set.Icc a b, |cubicSpl n x (fun i => v (x i)) t - v t| ≤ ε :=
  spline_converges hv hR hε

/-- the logarithmic tables of the package (`n + 2` points from `a` to `b`) meet the conditions of `C62_converges`. -/
theorem geom_grid {a b : ℝ} (ha : 0 < a) (hab : a < b) {δ : ℝ} (hδ : 0 < δ) : ∀ᶠ n : ℕ in atTop, ∃ x : ℕ → ℝ,
    (∀ i : ℕ, x i = Real.exp (Real.log a + i * stp (Real.log a) (Real.log b) n)) ∧ 5 ≤ n + 2 ∧ (∀ i j, i < j → j < n + 2 → x i < x j) ∧
    x 0 = a ∧ x (n + 1) = b ∧ (∀ i, i + 1 < n + 2 → x (i + 1) - x i ≤ δ) ∧
    ∀ i j, i + 1 < n + 2 → j + 1 < n + 2 → x (i + 1) - x i ≤ b / a * (x (j + 1) - x j) := by
  have hb : 0 < b := ha.trans hab
  have hl : Real.log a < Real.log b := Real.log_lt_log ha hab
  have ht : Tendsto (fun n => b * (Real.exp (stp (Real.log a) (Real.log b) n) - 1)) atTop (𝓝 0) := by
    have h1 := (Real.continuous_exp.tendsto 0).comp (stp_tendsto (Real.log a) (Real.log b))
    have h2 := (h1.sub_const 1).const_mul b
    simpa using h2
  filter_upwards [ht.eventually_lt_const hδ, eventually_ge_atTop 3] with n hn hn3
  set s := stp (Real.log a) (Real.log b) n with hs
  have hs0 : 0 < s := div_pos (by linarith) (by positivity)
  have hse : Real.log a + ((n + 1 : ℕ):ℝ) * s = Real.log b := by rw [hs, stp]; push_cast; field_simp; ring
  set x : ℕ → ℝ := fun i => Real.exp (Real.log a + i * s) with hx
  have hinc : Inc (n + 2) x := by
    intro i j hij _
    have : (i:ℝ) < j := by exact_mod_cast hij
    exact Real.exp_lt_exp.2 (by nlinarith)
  have x0 : x 0 = a := by simp [hx, Real.exp_log ha]
  have xn : x (n + 1) = b := by simp only [hx]; rw [hse, Real.exp_log hb]
  have hstep : ∀ i, x (i + 1) - x i = x i * (Real.exp s - 1) := by
    intro i
    simp only [hx]
    rw [show Real.log a + ((i + 1 : ℕ):ℝ) * s = (Real.log a + i * s) + s by push_cast; ring, Real.exp_add]
    ring
  have he : 0 ≤ Real.exp s - 1 := by linarith [Real.add_one_le_exp s]
  have hlow : ∀ i, i < n + 2 → a ≤ x i := fun i hi => x0 ▸ hinc.le (Nat.zero_le i) hi
  have hup : ∀ i, i < n + 2 → x i ≤ b := fun i hi => xn ▸ hinc.le (by omega) (by omega)
  refine ⟨x, fun i => rfl, by omega, hinc, x0, xn, fun i hi => ?_, fun i j hi hj => ?_⟩
  · rw [hstep]
    refine le_trans ?_ hn.le
    exact mul_le_mul_of_nonneg_right (hup i (by omega)) he
  · rw [hstep, hstep, ← mul_assoc]
    refine mul_le_mul_of_nonneg_right ?_ he
    calc x i ≤ b := hup i (by omega)
      _ = b / a * a := by field_simp
      _ ≤ b / a * x j := by have := hlow j (by omega); gcongr

/-- C62: the value of an `ExtendedSpline` anywhere inside its table tends to the tabulated function as a logarithmic table is refined:
every tabulated power spectrum and correlation function is arbitrarily accurate between the entries if the table is dense enough. -/
theorem C62_extended_spline {a b : ℝ} (ha : 0 < a) (hab : a < b) {v : ℝ → ℝ} (hv : ContinuousOn v (Set.Icc a b)) (us : USpl) (lower upper : Ext)
    (es : ℕ → ES) (hes : ∀ n, esInit cubicSpl us { n := n + 2, x := fun i : ℕ => Real.exp (Real.log a + i * stp (Real.log a) (Real.log b) n), y := fun i : ℕ => v (Real.exp (Real.log a + i * stp (Real.log a) (Real.log b) n)), lower := lower, upper := upper } = some (es n)) :
    TendstoUniformlyOn (fun n t => (es n).call t) v atTop (Set.Icc a b) := by
  rw [Metric.tendstoUniformlyOn_iff]
  intro ε hε
  have hR : 1 ≤ b / a := by rw [le_div_iff₀ ha]; linarith
  obtain ⟨δ, hδ, hc⟩ := C62_converges hv hR (half_pos hε)
  filter_upwards [geom_grid ha hab hδ] with n hn t ht
  obtain ⟨x, hxe, h5, hinc, x0, xn, hst, hra⟩ := hn
  have hxf : (fun i : ℕ => Real.exp (Real.log a + i * stp (Real.log a) (Real.log b) n)) = x := funext fun i => (hxe i).symm
  have key := hc (n + 2) x h5 hinc x0 xn hst hra t ht
  have hcall := (C12_branches cubicSpl us cubicSpl_ok _ (es n) (hes n) (by
    intro i j hij hj
    have := hinc i j hij hj
    rwa [hxe, hxe] at this)).2.1 t (by rw [← x0, hxe] at ht; exact ht.1) (by rw [← xn, hxe] at ht; exact ht.2)
  rw [hcall, dist_comm, Real.dist_eq]
  have : (fun i : ℕ => v (Real.exp (Real.log a + i * stp (Real.log a) (Real.log b) n))) = fun i => v (x i) := by
    funext i; rw [hxe]
  simp only [this]
  rw [hxf]
  linarith

/-- C62, limits of the interpolation: it does not preserve sign or order.  There are tables of any length, increasing and non-negative,
whose interpolant is negative and decreasing between the first two entries. -/
theorem C62_overshoots (n : ℕ) (hn : 4 ≤ n) : ∃ x y : ℕ → ℝ, (∀ i j, i < j → j < n → x i < x j ∧ y i < y j) ∧ (∀ i < n, 0 ≤ y i) ∧
    ∃ s t, x 0 < s ∧ s < t ∧ t < x 1 ∧ cubicSpl n x y t < cubicSpl n x y s ∧ cubicSpl n x y t < 0 := by
  have hx : ∀ i j, i < j → j < n → ((i:ℕ):ℝ) < ((j:ℕ):ℝ) := fun i j h _ => by exact_mod_cast h
  have hval : ∀ t, cubicSpl n (fun i : ℕ => (i:ℝ)) (fun i : ℕ => 0 + 0.51 * (i:ℝ) + (-1.5) * (i:ℝ) ^ 2 + 1 * (i:ℝ) ^ 3) t =
      0 + 0.51 * t + (-1.5) * t ^ 2 + 1 * t ^ 3 := fun t => C62_exact_cubic hn hx 0 0.51 (-1.5) 1 t
  have hstep : ∀ i : ℕ, 0 + 0.51 * (i:ℝ) + (-1.5) * (i:ℝ) ^ 2 + 1 * (i:ℝ) ^ 3 <
      0 + 0.51 * ((i + 1 : ℕ):ℝ) + (-1.5) * ((i + 1 : ℕ):ℝ) ^ 2 + 1 * ((i + 1 : ℕ):ℝ) ^ 3 := by
    intro i
    have h0 : (0:ℝ) ≤ i := Nat.cast_nonneg i
    push_cast
    nlinarith
  have hmono := strictMono_nat_of_lt_succ hstep
  refine ⟨fun i => i, fun i => 0 + 0.51 * (i:ℝ) + (-1.5) * (i:ℝ) ^ 2 + 1 * (i:ℝ) ^ 3, fun i j hij hj => ⟨hx i j hij hj, hmono hij⟩,
    fun i _ => ?_, 0.5, 0.75, by norm_num, by norm_num, by norm_num, ?_, ?_⟩
  · have := hmono.monotone (Nat.zero_le i)
    simpa using this
  · rw [hval, hval]; norm_num
  · rw [hval]; norm_num

/-- C62: the spline has every property that the other theorems assume of the external interpolant (`SplOk`, `SplLin`, `SplConv` and,
for its integral, `IusOk`), so those theorems hold for it. -/
theorem C62_assumptions : SplOk cubicSpl ∧ SplLin cubicSpl ∧ SplConv cubicSpl ∧
    Exclusion.IusOk (fun n x y a b => splIntegral cubicSpl n x y a b) :=
  ⟨cubicSpl_ok, cubicSpl_lin, cubicSpl_conv, HaloModel.ius_ok (E := { isp := cubicSpl, us := fun _ _ _ => 0, hankel := fun _ _ => 0 }) cubicSpl_lin⟩

/-- C62: for example, with the spline that is used, and no assumption about interpolation left: refining the mass grid of a model with
the Zheng05 HOD, the mean tracer density, the effective bias and the satellite fraction converge to the documented integrals. -/
theorem C62_tracer_converges (E : HaloModel.Env) (hE : E.isp = cubicSpl) (h : HaloModel.HM) (p : HOD.ZhengP) (hα : 0 < p.alpha) (central : Bool)
    (hh : h.hod = HOD.zheng05 p central) (M0 M1 : ℝ) (h0 : 0 < M0) (h1 : M0 < M1) (D B : ℝ → ℝ) (U T Λ : ℕ → ℝ → ℝ)
    (hD : ContinuousOn D (Set.Icc M0 M1)) (hB : ContinuousOn B (Set.Icc M0 M1)) (hpos : ∀ m ∈ Set.Icc M0 M1, 0 < D m) :
    Tendsto (fun n => (HaloModel.fine h M0 M1 D B U T Λ n).meanTracerDen E) atTop (𝓝 (∫ m in M0..M1, D m * (h.hod.cenOcc m + h.hod.satOcc m))) ∧
    Tendsto (fun n => (HaloModel.fine h M0 M1 D B U T Λ n).biasEffTracer E) atTop
      (𝓝 ((∫ m in M0..M1, D m * (h.hod.cenOcc m + h.hod.satOcc m) * B m) / ∫ m in M0..M1, D m * (h.hod.cenOcc m + h.hod.satOcc m))) ∧
    Tendsto (fun n => (HaloModel.fine h M0 M1 D B U T Λ n).satFrac E) atTop
      (𝓝 ((∫ m in M0..M1, D m * h.hod.satOcc m) / ∫ m in M0..M1, D m * (h.hod.cenOcc m + h.hod.satOcc m))) :=
  (HaloModel.C56_tracer_zheng05 E (hE ▸ cubicSpl_lin) (hE ▸ cubicSpl_conv) h p hα central hh M0 M1 h0 h1 D B U T Λ hD hB hpos).2

/-- the conditions of the theorems above are met by a table of six entries -/
example : 5 ≤ 6 ∧ (∀ i j : ℕ, i < j → j < 6 → ((i:ℕ):ℝ) < ((j:ℕ):ℝ)) ∧ ContinuousOn Real.exp (Set.Icc 0 1) :=
  ⟨by norm_num, fun i j h _ => by exact_mod_cast h, Real.continuous_exp.continuousOn⟩

/-- tables with constant extension at both ends are always accepted by `ExtendedSpline` -/
example (us : USpl) (n : ℕ) (x y : ℕ → ℝ) :
    ∃ es, esInit cubicSpl us { n := n + 2, x := x, y := y, lower := .boundary, upper := .boundary } = some es := by
  refine ⟨{ xmin := x 0, xmax := x (n + 1), spl := cubicSpl (n + 2) x y, lfunc := fun _ => 1 * cubicSpl (n + 2) x y (x 0), ufunc := fun _ => 1 * cubicSpl (n + 2) x y (x (n + 1)) }, ?_⟩
  unfold esInit
  rw [if_neg (by simp)]
  rfl

/-- and the interpolant is not trivial: through `i ↦ i²` it takes the value 12.25 at 3.5. -/
example : cubicSpl 6 (fun i : ℕ => (i:ℝ)) (fun i : ℕ => 0 + 0 * (i:ℝ) + 1 * (i:ℝ) ^ 2 + 0 * (i:ℝ) ^ 3) 3.5 = 12.25 := by
  rw [C62_exact_cubic (by norm_num) (fun i j h _ => by exact_mod_cast h)]; norm_num

end Halomod.Tools
