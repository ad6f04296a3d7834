import Verif.Props.Threshold

/-! # C74 for the occupation of Zheng05: a smooth threshold

The mean number of centrals is a Gaussian distribution function of log mass, so the threshold enters through a ratio of error functions, which increases
with mass because the distribution function of a Gaussian is log-concave. -/
namespace Halomod

open Filter Topology MeasureTheory Set

theorem erf_atBot : Tendsto erf atBot (𝓝 (-1)) := by
  have hI : IntegrableOn (fun t : ℝ => Real.exp (-t ^ 2)) (Ioi 0) := by
    have := (integrable_exp_neg_mul_sq (b := 1) one_pos).integrableOn (s := Ioi (0:ℝ))
    simpa using this
  have h2 : ∫ t in Ioi (0:ℝ), Real.exp (-t ^ 2) = √Real.pi / 2 := by
    have := integral_gaussian_Ioi 1
    simpa using this
  have t := (intervalIntegral_tendsto_integral_Ioi (0:ℝ) hI tendsto_neg_atBot_atTop).const_mul (-(2 / √Real.pi))
  rw [h2] at t
  have hs : 0 < √Real.pi := Real.sqrt_pos.mpr Real.pi_pos
  rw [show -(2 / √Real.pi) * (√Real.pi / 2) = -1 by field_simp] at t
  refine t.congr fun x => ?_
  have := erf_neg (-x)
  rw [neg_neg] at this
  rw [this]
  unfold erf
  ring

theorem erf_deriv (x : ℝ) : HasDerivAt erf (2 / √Real.pi * Real.exp (-x ^ 2)) x := by
  unfold erf
  exact (intervalIntegral.integral_hasDerivAt_right (erf_cont.intervalIntegrable _ _) (erf_cont.stronglyMeasurableAtFilter _ _) erf_cont.continuousAt).const_mul _

/-- the distribution function of a Gaussian shifted to the right, over the unshifted one, increases. -/
theorem erf_ratio (δ : ℝ) (hδ : 0 < δ) : StrictMono fun x => (1 + erf (x - δ)) / (1 + erf x) := by
  have c0 : 0 < 2 / √Real.pi := div_pos two_pos (Real.sqrt_pos.mpr Real.pi_pos)
  set c := 2 / √Real.pi
  have dA : ∀ x, HasDerivAt (fun x => 1 + erf x) (c * Real.exp (-x ^ 2)) x := fun x => (erf_deriv x).const_add 1
  have dB : ∀ x, HasDerivAt (fun x => 1 + erf (x - δ)) (c * Real.exp (-(x - δ) ^ 2)) x := fun x =>
    ((erf_deriv (x - δ)).comp_sub_const x δ).const_add 1
  have dG : ∀ x, HasDerivAt (fun x => Real.exp (2 * δ * x - δ ^ 2)) (2 * δ * Real.exp (2 * δ * x - δ ^ 2)) x := fun x =>
    ((((hasDerivAt_id x).const_mul (2 * δ)).sub_const (δ ^ 2)).exp).congr_deriv (by simp; ring)
  have eG : ∀ x, Real.exp (2 * δ * x - δ ^ 2) * Real.exp (-x ^ 2) = Real.exp (-(x - δ) ^ 2) := fun x => by
    rw [← Real.exp_add]; congr 1; ring
  have dH : ∀ x, HasDerivAt (fun x => Real.exp (2 * δ * x - δ ^ 2) * (1 + erf x) - (1 + erf (x - δ))) (2 * δ * Real.exp (2 * δ * x - δ ^ 2) * (1 + erf x)) x := fun x =>
    (((dG x).mul (dA x)).sub (dB x)).congr_deriv (by rw [← eG x]; ring)
  have pA : ∀ x, 0 < 1 + erf x := fun x => by linarith [neg_one_lt_erf x]
  have mH : StrictMono fun x => Real.exp (2 * δ * x - δ ^ 2) * (1 + erf x) - (1 + erf (x - δ)) := by
    refine strictMono_of_deriv_pos fun x => ?_
    rw [(dH x).deriv]
    exact mul_pos (mul_pos (by linarith) (Real.exp_pos _)) (pA x)
  have lH : Tendsto (fun x => Real.exp (2 * δ * x - δ ^ 2) * (1 + erf x) - (1 + erf (x - δ))) atBot (𝓝 0) := by
    have t1 : Tendsto (fun x => Real.exp (2 * δ * x - δ ^ 2)) atBot (𝓝 0) :=
      Real.tendsto_exp_atBot.comp (tendsto_atBot_add_const_right _ _ (tendsto_id.const_mul_atBot (by linarith)))
    have t2 : Tendsto (fun x => 1 + erf (x - δ)) atBot (𝓝 (1 + -1)) :=
      (erf_atBot.comp (tendsto_atBot_add_const_right atBot (-δ) tendsto_id)).const_add 1
    have := (t1.mul (erf_atBot.const_add 1)).sub t2
    simpa using this
  have pH : ∀ x, 0 < Real.exp (2 * δ * x - δ ^ 2) * (1 + erf x) - (1 + erf (x - δ)) := fun x =>
    lt_of_le_of_lt (mH.monotone.le_of_tendsto lH (x - 1)) (mH (by linarith))
  refine strictMono_of_deriv_pos fun x => ?_
  rw [((dB x).fun_div (dA x) (pA x).ne').deriv]
  refine div_pos ?_ (pow_pos (pA x) 2)
  rw [← eG x]
  have := mul_pos (mul_pos c0 (Real.exp_pos (-x ^ 2))) (pH x)
  linarith

namespace HaloModel

open Halomod.Tools Halomod.HOD

/-- Chebyshev's inequality: averages of an increasing function with weights tilted by another one, both possibly flat at first. -/
theorem chebyshev {w s g : ℝ → ℝ} {a b c : ℝ} (hab : a ≤ b) (hbc : b < c) (hw : Tame w a c) (hs : Tame s a c) (hg : Tame g a c)
    (pw : ∀ t, a < t → t < c → 0 < w t) (ms : MonotoneOn s (Icc a c)) (mg : MonotoneOn g (Icc a c))
    (ss : StrictMonoOn s (Icc b c)) (sg : StrictMonoOn g (Icc b c)) :
    (∫ t in a..c, w t * g t) * (∫ t in a..c, w t * s t) < (∫ t in a..c, w t * s t * g t) * ∫ t in a..c, w t := by
  have hac : a < c := hab.trans_lt hbc
  have ha : a ∈ Icc a c := ⟨le_rfl, hac.le⟩
  have hc : c ∈ Icc a c := ⟨hac.le, le_rfl⟩
  have hb : b ∈ Icc a c := ⟨hab, hbc.le⟩
  have ii : ∀ {f : ℝ → ℝ}, Tame f a c → IntervalIntegrable f volume a c := fun h => h.intervalIntegrable ha hc
  have W : 0 < ∫ t in a..c, w t := intervalIntegral.intervalIntegral_pos_of_pos_on (ii hw) (fun t ht => pw t ht.1 ht.2) hac
  set q := (∫ t in a..c, w t * s t) / ∫ t in a..c, w t with hq
  have hqW : q * (∫ t in a..c, w t) = ∫ t in a..c, w t * s t := by rw [hq]; field_simp
  have q1 : s a ≤ q := by
    rw [hq, le_div_iff₀ W, mul_comm, ← intervalIntegral.integral_mul_const]
    refine intervalIntegral.integral_mono_on_of_le_Ioo hac.le ((ii hw).mul_const _) (ii (hw.mul hs)) fun t ht => ?_
    exact mul_le_mul_of_nonneg_left (ms ha ⟨ht.1.le, ht.2.le⟩ ht.1.le) (pw t ht.1 ht.2).le
  have tq : ∀ k : ℝ, Tame (fun t => w t * (s t - k)) a c := fun k => hw.mul (hs.add (tame_const (-k) a c))
  have zero : (∫ t in a..c, w t * (s t - q)) = 0 := by
    rw [show (fun t => w t * (s t - q)) = fun t => w t * s t - w t * q from funext fun t => by ring,
      intervalIntegral.integral_sub (ii (hw.mul hs)) ((ii hw).mul_const _), intervalIntegral.integral_mul_const, ← hqW]
    ring
  -- where s passes its mean
  set A := {t | t ∈ Icc a c ∧ s t ≤ q} with hA
  have neA : A.Nonempty := ⟨a, ha, q1⟩
  have bdA : BddAbove A := ⟨c, fun t ht => ht.1.2⟩
  set x := sSup A with hx
  have xm : x ∈ Icc a c := ⟨le_csSup bdA ⟨ha, q1⟩, csSup_le neA fun t ht => ht.1.2⟩
  have below : ∀ t ∈ Icc a c, t < x → s t ≤ q := fun t ht h => by
    obtain ⟨y, hy, hty⟩ := exists_lt_of_lt_csSup neA h
    exact (ms ht hy.1 hty.le).trans hy.2
  have above : ∀ t ∈ Icc a c, x < t → q < s t := fun t ht h => by
    by_contra hn
    exact absurd (le_csSup bdA ⟨ht, not_lt.1 hn⟩) (not_le.2 h)
  have pos_sub : ∀ {f : ℝ → ℝ} {u v : ℝ}, Tame f a c → u ∈ Icc a c → v ∈ Icc a c → u ≤ v → (∀ t ∈ Ioo u v, t ≠ x → 0 ≤ f t) → 0 ≤ ∫ t in u..v, f t := by
    intro f u v hf hu hv huv hp
    refine intervalIntegral.integral_nonneg_of_ae_restrict huv ?_
    rw [Filter.EventuallyLE, ae_restrict_iff' measurableSet_Icc]
    have n0 := not_mem_ae (s := {u, x, v}) (Set.toFinite _).countable
    filter_upwards [n0] with t ht hm
    simp only [Set.mem_insert_iff, Set.mem_singleton_iff, not_or] at ht
    exact hp t ⟨lt_of_le_of_ne hm.1 (Ne.symm ht.1), lt_of_le_of_ne hm.2 ht.2.2⟩ ht.2.1
  have xc : x < c := by
    by_contra hn
    have ex : x = c := le_antisymm xm.2 (not_lt.1 hn)
    -- then s stays below its mean, and strictly so somewhere
    set e := (b + c) / 2 with he
    have hbe : b < e := by rw [he]; linarith
    have hec : e < c := by rw [he]; linarith
    have em : e ∈ Icc a c := ⟨hab.trans hbe.le, hec.le⟩
    have n1 : 0 ≤ ∫ t in e..c, w t * (q - s t) := by
      have := pos_sub (f := fun t => w t * (q - s t)) (hw.mul ((tame_const q a c).add (by simpa using (tame_const (-1) a c).mul hs))) em hc hec.le
        (fun t ht _ => mul_nonneg (pw t (em.1.trans_lt ht.1) ht.2).le (sub_nonneg.2 (below t ⟨em.1.trans ht.1.le, ht.2.le⟩ (by rw [ex]; exact ht.2))))
      exact this
    have tt : Tame (fun t => w t * (q - s t)) a c := hw.mul ((tame_const q a c).add (by simpa using (tame_const (-1) a c).mul hs))
    have n2 : 0 ≤ ∫ t in a..b, w t * (q - s t) := pos_sub tt ha hb hab fun t ht _ =>
      mul_nonneg (pw t ht.1 (ht.2.trans hbc)).le (sub_nonneg.2 (below t ⟨ht.1.le, (ht.2.trans hbc).le⟩ (by rw [ex]; exact ht.2.trans hbc)))
    have n3 : 0 < ∫ t in b..e, w t * (q - s t) := by
      refine intervalIntegral.intervalIntegral_pos_of_pos_on (tt.intervalIntegrable hb em) (fun t ht => ?_) hbe
      have htc : t < c := ht.2.trans hec
      have hs1 := ss ⟨ht.1.le, htc.le⟩ ⟨hbe.le, hec.le⟩ ht.2
      have hs2 := below e em (by rw [ex]; exact hec)
      exact mul_pos (pw t (hab.trans_lt ht.1) htc) (by linarith)
    have sum := intervalIntegral.integral_add_adjacent_intervals (tt.intervalIntegrable ha hb) (tt.intervalIntegrable hb em)
    have sum2 := intervalIntegral.integral_add_adjacent_intervals (tt.intervalIntegrable ha em) (tt.intervalIntegrable em hc)
    have neg : (∫ t in a..c, w t * (q - s t)) = 0 := by
      rw [show (fun t => w t * (q - s t)) = fun t => -(w t * (s t - q)) from funext fun t => by ring, intervalIntegral.integral_neg, zero, neg_zero]
    linarith
  have key : 0 < ∫ t in a..c, w t * ((s t - q) * (g t - g x)) := by
    have tt : Tame (fun t => w t * ((s t - q) * (g t - g x))) a c :=
      hw.mul ((hs.add (tame_const (-q) a c)).mul (hg.add (tame_const (-g x) a c)))
    have n1 : 0 ≤ ∫ t in a..x, w t * ((s t - q) * (g t - g x)) := pos_sub tt ha xm xm.1 fun t ht _ => by
      have htm : t ∈ Icc a c := ⟨ht.1.le, ht.2.le.trans xm.2⟩
      exact mul_nonneg (pw t ht.1 (ht.2.trans_le xm.2)).le (mul_nonneg_of_nonpos_of_nonpos (sub_nonpos.2 (below t htm ht.2)) (sub_nonpos.2 (mg htm xm ht.2.le)))
    set y := max x b with hy
    have hyc : y < c := max_lt xc hbc
    have ym : y ∈ Icc a c := ⟨xm.1.trans (le_max_left _ _), hyc.le⟩
    have n2 : 0 ≤ ∫ t in x..y, w t * ((s t - q) * (g t - g x)) := pos_sub tt xm ym (le_max_left _ _) fun t ht _ => by
      have htm : t ∈ Icc a c := ⟨xm.1.trans ht.1.le, ht.2.le.trans hyc.le⟩
      exact mul_nonneg (pw t (xm.1.trans_lt ht.1) (ht.2.trans hyc)).le (mul_nonneg (sub_nonneg.2 (above t htm ht.1).le) (sub_nonneg.2 (mg xm htm ht.1.le)))
    have n3 : 0 < ∫ t in y..c, w t * ((s t - q) * (g t - g x)) := by
      refine intervalIntegral.intervalIntegral_pos_of_pos_on (tt.intervalIntegrable ym hc) (fun t ht => ?_) hyc
      have hxt : x < t := (le_max_left _ _).trans_lt ht.1
      have hbt : b < t := (le_max_right _ _).trans_lt ht.1
      have htm : t ∈ Icc a c := ⟨xm.1.trans hxt.le, ht.2.le⟩
      have g1 : g x ≤ g y := mg xm ym (le_max_left _ _)
      have g2 : g y < g t := sg ⟨le_max_right _ _, hyc.le⟩ ⟨hbt.le, ht.2.le⟩ ht.1
      exact mul_pos (pw t (xm.1.trans_lt hxt) ht.2) (mul_pos (sub_pos.2 (above t htm hxt)) (by linarith))
    have s1 := intervalIntegral.integral_add_adjacent_intervals (tt.intervalIntegrable ha xm) (tt.intervalIntegrable xm ym)
    have s2 := intervalIntegral.integral_add_adjacent_intervals (tt.intervalIntegrable ha ym) (tt.intervalIntegrable ym hc)
    linarith
  have e : (∫ t in a..c, w t * ((s t - q) * (g t - g x))) =
      (∫ t in a..c, w t * s t * g t) - q * (∫ t in a..c, w t * g t) - g x * ((∫ t in a..c, w t * s t) - q * ∫ t in a..c, w t) := by
    rw [show (fun t => w t * ((s t - q) * (g t - g x))) = fun t => ((w t * s t * g t) - q * (w t * g t)) - ((g x) * (w t * s t) - (g x * q) * w t) from
      funext fun t => by ring]
    rw [intervalIntegral.integral_sub, intervalIntegral.integral_sub, intervalIntegral.integral_sub, intervalIntegral.integral_const_mul,
      intervalIntegral.integral_const_mul, intervalIntegral.integral_const_mul]
    · ring
    · exact (ii (hw.mul hs)).const_mul _
    · exact (ii hw).const_mul _
    · exact ii ((hw.mul hs).mul hg)
    · exact (ii (hw.mul hg)).const_mul _
    · exact (ii ((hw.mul hs).mul hg)).sub ((ii (hw.mul hg)).const_mul _)
    · exact ((ii (hw.mul hs)).const_mul _).sub ((ii hw).const_mul _)
  rw [e, hqW] at key
  rw [← hqW]
  have h2 : q * (∫ t in a..c, w t * g t) < ∫ t in a..c, w t * s t * g t := by linarith
  have := mul_lt_mul_of_pos_right h2 W
  linarith [this]

/-! ## The limits of the tracer averages for Zheng05 with satellites only beside a central -/

/-- expected number of tracers of a halo of mass `m`. -/
noncomputable def zhengN (p : ZhengP) (m : ℝ) : ℝ := zhengCen p m * (1 + zhengSat p m)

theorem zhengCen_pos (p : ZhengP) (m : ℝ) : 0 < zhengCen p m := by
  unfold zhengCen
  have := neg_one_lt_erf ((log10 m - p.M_min) / p.sig_logm)
  norm_num
  linarith

theorem zhengSat_nonneg (p : ZhengP) (m : ℝ) : 0 ≤ zhengSat p m := by
  unfold zhengSat
  split_ifs with h
  · have := sub_pos.2 h
    positivity
  · exact le_rfl

theorem zhengSat_monotone (p : ZhengP) (ha : 0 < p.alpha) : Monotone (zhengSat p) := by
  intro x y hxy
  unfold zhengSat
  split_ifs with h1 h2
  · have := sub_pos.2 h1
    exact Real.rpow_le_rpow (by positivity) (div_le_div_of_nonneg_right (by linarith) (by positivity)) ha.le
  · exact absurd (h1.trans_le hxy) h2
  · have := sub_pos.2 (show y > (10:ℝ) ^ p.M_0 by assumption)
    positivity
  · exact le_rfl

theorem zhengSat_strict (p : ZhengP) (ha : 0 < p.alpha) {b c : ℝ} (hb : (10:ℝ) ^ p.M_0 ≤ b) : StrictMonoOn (zhengSat p) (Icc b c) := by
  intro x hx y _ hxy
  have hy : (10:ℝ) ^ p.M_0 < y := (hb.trans hx.1).trans_lt hxy
  unfold zhengSat
  rw [if_pos hy]
  have h2 := sub_pos.2 hy
  split_ifs with h1
  · have := sub_pos.2 h1
    exact Real.rpow_lt_rpow (by positivity) (div_lt_div_of_pos_right (by linarith) (by positivity)) ha
  · positivity

theorem zhengN_pos (p : ZhengP) (m : ℝ) : 0 < zhengN p m := mul_pos (zhengCen_pos p m) (by linarith [zhengSat_nonneg p m])

theorem zheng_limits (E : Env) (hs : SplLin E.isp) (hc : SplQuad E.isp) (h : HM) (p : ZhengP) (hh : h.hod = zheng05 p true) (ha : 0 < p.alpha) {lo hi : ℝ}
    (hlh : lo < hi) (D B : ℝ → ℝ) (U T Λ : ℕ → ℝ → ℝ)
    (hD : Tame D ((10:ℝ) ^ lo) ((10:ℝ) ^ hi)) (hB : Tame B ((10:ℝ) ^ lo) ((10:ℝ) ^ hi)) (hpos : ∀ m, (10:ℝ) ^ lo < m → m < (10:ℝ) ^ hi → 0 < D m) :
    Tame (zhengCen p) ((10:ℝ) ^ lo) ((10:ℝ) ^ hi) ∧ Tame (zhengN p) ((10:ℝ) ^ lo) ((10:ℝ) ^ hi) ∧
    Tame (fun m => zhengCen p m * zhengSat p m) ((10:ℝ) ^ lo) ((10:ℝ) ^ hi) ∧ Tame (zhengSat p) ((10:ℝ) ^ lo) ((10:ℝ) ^ hi) ∧
    0 < (∫ m in (10:ℝ) ^ lo..(10:ℝ) ^ hi, D m * zhengN p m) ∧
    Tendsto (fun d => (mesh h lo hi D B U T Λ d).meanTracerDen E) (𝓝[>] 0) (𝓝 (∫ m in (10:ℝ) ^ lo..(10:ℝ) ^ hi, D m * zhengN p m)) ∧
    Tendsto (fun d => (mesh h lo hi D B U T Λ d).biasEffTracer E) (𝓝[>] 0)
      (𝓝 ((∫ m in (10:ℝ) ^ lo..(10:ℝ) ^ hi, D m * zhengN p m * B m) / ∫ m in (10:ℝ) ^ lo..(10:ℝ) ^ hi, D m * zhengN p m)) ∧
    Tendsto (fun d => (mesh h lo hi D B U T Λ d).satFrac E) (𝓝[>] 0)
      (𝓝 ((∫ m in (10:ℝ) ^ lo..(10:ℝ) ^ hi, D m * (zhengCen p m * zhengSat p m)) / ∫ m in (10:ℝ) ^ lo..(10:ℝ) ^ hi, D m * zhengN p m)) ∧
    Tendsto (fun d => (10:ℝ) ^ (mesh h lo hi D B U T Λ d).massEff E) (𝓝[>] 0)
      (𝓝 ((∫ m in (10:ℝ) ^ lo..(10:ℝ) ^ hi, D m * zhengN p m * m) / ∫ m in (10:ℝ) ^ lo..(10:ℝ) ^ hi, D m * zhengN p m)) := by
  have hac : (10:ℝ) ^ lo < 10 ^ hi := pow_lt hlh
  have ht : HodTame h.hod ((10:ℝ) ^ lo) ((10:ℝ) ^ hi) := by rw [hh]; exact hod_tame (.zheng05 p) true ha.le (by positivity) hac.le
  have ht2 : HodTame (zheng05 p false) ((10:ℝ) ^ lo) ((10:ℝ) ^ hi) := hod_tame (.zheng05 p) false ha.le (by positivity) hac.le
  have enum : ∀ m, tracerNumber h.hod m = zhengN p m := fun m => by
    rw [hh]
    unfold tracerNumber zhengN
    simp only [zheng05, poisson, satelliteOccupation]
    simp
    ring
  have esat : ∀ m, h.hod.satOcc m = zhengCen p m * zhengSat p m := fun m => by
    rw [hh]
    simp [zheng05, poisson, satelliteOccupation]
  have tS : Tame (zhengSat p) ((10:ℝ) ^ lo) ((10:ℝ) ^ hi) := ht2.2.1.congr fun m _ => by simp [zheng05, poisson, satelliteOccupation]
  have tC : Tame (zhengCen p) ((10:ℝ) ^ lo) ((10:ℝ) ^ hi) := by
    have := ht2.1.add ((tame_const (-1) _ _).mul tS)
    exact this.congr fun m _ => by
      unfold tracerNumber
      simp [zheng05, poisson, satelliteOccupation]
  have tN : Tame (zhengN p) ((10:ℝ) ^ lo) ((10:ℝ) ^ hi) := ht.1.congr fun m _ => (enum m).symm
  have tCS : Tame (fun m => zhengCen p m * zhengSat p m) ((10:ℝ) ^ lo) ((10:ℝ) ^ hi) := tC.mul tS
  have hlow : tracerLow h.hod ((10:ℝ) ^ lo) = 10 ^ lo := by
    rw [hh]; unfold tracerLow; simp [zheng05, poisson]
  have ii : ∀ {f : ℝ → ℝ}, Tame f ((10:ℝ) ^ lo) ((10:ℝ) ^ hi) → IntervalIntegrable f volume ((10:ℝ) ^ lo) ((10:ℝ) ^ hi) := fun hf =>
    hf.intervalIntegrable ⟨le_rfl, hac.le⟩ ⟨hac.le, le_rfl⟩
  have p1 : 0 < ∫ m in (10:ℝ) ^ lo..(10:ℝ) ^ hi, D m * zhengN p m :=
    intervalIntegral.intervalIntegral_pos_of_pos_on (ii (hD.mul tN)) (fun m hm => mul_pos (hpos m hm.1 hm.2) (zhengN_pos p m)) hac
  have p2 : 0 < ∫ m in (10:ℝ) ^ lo..(10:ℝ) ^ hi, D m * zhengN p m * m :=
    intervalIntegral.intervalIntegral_pos_of_pos_on (ii ((hD.mul tN).mul (tame_id _ _))) (fun m hm =>
      mul_pos (mul_pos (hpos m hm.1 hm.2) (zhengN_pos p m)) (lt_trans (by positivity) hm.1)) hac
  have e2 : (∫ m in (10:ℝ) ^ lo..(10:ℝ) ^ hi, m * D m * zhengN p m) = ∫ m in (10:ℝ) ^ lo..(10:ℝ) ^ hi, D m * zhengN p m * m :=
    intervalIntegral.integral_congr fun m _ => by ring
  obtain ⟨t1, rest⟩ := C56_mesh_tracer E hs hc h hlh (by rw [hh]; intro hx; simp [zheng05, poisson] at hx) D B U T Λ hD hB ht.1 ht.2.1
  rw [hlow] at t1 rest
  simp only [enum, esat] at t1 rest
  obtain ⟨t2, t3, t4⟩ := rest p1.ne'
  rw [e2] at t4
  have t4 := t4 p2.ne'
  rw [abs_of_pos (div_pos p2 p1)] at t4
  exact ⟨tC, tN, tCS, tS, p1, t1, t2, t3, t4⟩

/-- C74: for Zheng05 with satellites only beside a central, a higher `M_min` (all else equal) means, on mass tables that are fine enough and for any
halo bias that increases with mass: a lower mean tracer density, a higher effective bias, a higher effective mass and (if the satellite cut lies inside
the mass range) a higher satellite fraction. -/
theorem C74_zheng_threshold (E : Env) (hs : SplLin E.isp) (hc : SplQuad E.isp) (h h' : HM) (p p' : ZhengP) (hh : h.hod = zheng05 p true)
    (hh' : h'.hod = zheng05 p' true) {lo hi : ℝ} (hlh : lo < hi) (hlt : p.M_min < p'.M_min)
    (hM1 : p'.M_1 = p.M_1) (hM0 : p'.M_0 = p.M_0) (hal : p'.alpha = p.alpha) (hsig : p'.sig_logm = p.sig_logm) (hsp : 0 < p.sig_logm) (ha : 0 < p.alpha)
    (D B : ℝ → ℝ) (U T Λ : ℕ → ℝ → ℝ)
    (hD : Tame D ((10:ℝ) ^ lo) ((10:ℝ) ^ hi)) (hB : Tame B ((10:ℝ) ^ lo) ((10:ℝ) ^ hi)) (hpos : ∀ m, (10:ℝ) ^ lo < m → m < (10:ℝ) ^ hi → 0 < D m)
    (hmono : StrictMonoOn B (Icc ((10:ℝ) ^ lo) ((10:ℝ) ^ hi))) :
    ∀ᶠ d in 𝓝[>] (0:ℝ), (mesh h' lo hi D B U T Λ d).meanTracerDen E < (mesh h lo hi D B U T Λ d).meanTracerDen E ∧
      (mesh h lo hi D B U T Λ d).biasEffTracer E < (mesh h' lo hi D B U T Λ d).biasEffTracer E ∧
      (mesh h lo hi D B U T Λ d).massEff E < (mesh h' lo hi D B U T Λ d).massEff E ∧
      (p.M_0 < hi → (mesh h lo hi D B U T Λ d).satFrac E < (mesh h' lo hi D B U T Λ d).satFrac E) := by
  obtain ⟨tC, tN, tCS, tS, p1, t1, b1, s1, m1⟩ := zheng_limits E hs hc h p hh ha hlh D B U T Λ hD hB hpos
  obtain ⟨tC', tN', tCS', _, p2, t2, b2, s2, m2⟩ := zheng_limits E hs hc h' p' hh' (by rw [hal]; exact ha) hlh D B U T Λ hD hB hpos
  have esat : zhengSat p' = zhengSat p := by funext m; unfold zhengSat; rw [hM1, hM0, hal]
  rw [esat] at s2
  have hac : (10:ℝ) ^ lo < 10 ^ hi := pow_lt hlh
  have l0 : 0 < (10:ℝ) ^ lo := by positivity
  have lm : (10:ℝ) ^ lo ∈ Icc ((10:ℝ) ^ lo) ((10:ℝ) ^ hi) := ⟨le_rfl, hac.le⟩
  have hm : (10:ℝ) ^ hi ∈ Icc ((10:ℝ) ^ lo) ((10:ℝ) ^ hi) := ⟨hac.le, le_rfl⟩
  have ii : ∀ {f : ℝ → ℝ}, Tame f ((10:ℝ) ^ lo) ((10:ℝ) ^ hi) → IntervalIntegrable f volume ((10:ℝ) ^ lo) ((10:ℝ) ^ hi) := fun hf => hf.intervalIntegrable lm hm
  -- the ratio of the two numbers of centrals
  set δ := (p'.M_min - p.M_min) / p.sig_logm with hδ
  have δ0 : 0 < δ := div_pos (sub_pos.2 hlt) hsp
  have ec : ∀ m, zhengCen p' m = 0.5 * (1 + erf ((log10 m - p.M_min) / p.sig_logm - δ)) := fun m => by
    unfold zhengCen
    rw [hsig, hδ]
    congr 3
    ring
  set r : ℝ → ℝ := fun m => zhengCen p' m / zhengCen p m with hr
  have rmono : StrictMonoOn r (Icc ((10:ℝ) ^ lo) ((10:ℝ) ^ hi)) := by
    intro x hx y hy hxy
    have key := erf_ratio δ δ0 (show (log10 x - p.M_min) / p.sig_logm < (log10 y - p.M_min) / p.sig_logm by
      refine div_lt_div_of_pos_right (sub_lt_sub_right ?_ _) hsp
      exact Real.logb_lt_logb (by norm_num) (l0.trans_le hx.1) hxy)
    simp only [hr, ec]
    unfold zhengCen
    rw [mul_div_mul_left _ _ (by norm_num), mul_div_mul_left _ _ (by norm_num)]
    exact key
  have clt : ∀ m, zhengCen p' m < zhengCen p m := fun m => by
    rw [ec]
    unfold zhengCen
    have := erf_strictMono (show (log10 m - p.M_min) / p.sig_logm - δ < (log10 m - p.M_min) / p.sig_logm by linarith)
    norm_num
    linarith
  have rt : Tame r ((10:ℝ) ^ lo) ((10:ℝ) ^ hi) := by
    have cont : ∀ q : ZhengP, ContinuousOn (zhengCen q) (Icc ((10:ℝ) ^ lo) ((10:ℝ) ^ hi)) := fun q => by
      unfold zhengCen HOD.log10 Real.logb
      refine continuousOn_const.mul (continuousOn_const.add (erf_continuous.comp_continuousOn (ContinuousOn.div_const (ContinuousOn.sub (ContinuousOn.div_const ?_ _) continuousOn_const) _)))
      exact fun x hx => (Real.continuousAt_log (l0.trans_le hx.1).ne').continuousWithinAt
    exact ContinuousOn.tame ((cont p').div (cont p) fun m _ => (zhengCen_pos p m).ne')
  have eN : ∀ m, zhengN p' m = zhengN p m * r m := fun m => by
    have := (zhengCen_pos p m).ne'
    simp only [hr]
    unfold zhengN
    rw [esat]
    field_simp
  have pw : ∀ t, (10:ℝ) ^ lo < t → t < 10 ^ hi → 0 < D t * zhengN p t := fun t h1 h2 => mul_pos (hpos t h1 h2) (zhengN_pos p t)
  have tw := hD.mul tN
  have den' : (∫ m in (10:ℝ) ^ lo..(10:ℝ) ^ hi, D m * zhengN p' m) = ∫ m in (10:ℝ) ^ lo..(10:ℝ) ^ hi, D m * zhengN p m * r m :=
    intervalIntegral.integral_congr fun m _ => by simp only [eN]; ring
  have num' : ∀ g : ℝ → ℝ, (∫ m in (10:ℝ) ^ lo..(10:ℝ) ^ hi, D m * zhengN p' m * g m) = ∫ m in (10:ℝ) ^ lo..(10:ℝ) ^ hi, D m * zhengN p m * r m * g m := fun g =>
    intervalIntegral.integral_congr fun m _ => by simp only [eN]; ring
  have den : (∫ m in (10:ℝ) ^ lo..(10:ℝ) ^ hi, D m * zhengN p' m) < ∫ m in (10:ℝ) ^ lo..(10:ℝ) ^ hi, D m * zhengN p m := by
    rw [← sub_pos, ← intervalIntegral.integral_sub (ii tw) (ii (hD.mul tN'))]
    refine intervalIntegral.intervalIntegral_pos_of_pos_on ((ii tw).sub (ii (hD.mul tN'))) (fun m hm => ?_) hac
    have : zhengN p' m < zhengN p m := by
      unfold zhengN
      rw [esat]
      exact mul_lt_mul_of_pos_right (clt m) (by linarith [zhengSat_nonneg p m])
    have := mul_pos (hpos m hm.1 hm.2) (sub_pos.2 this)
    linarith
  have bias := chebyshev le_rfl hac tw rt hB pw rmono.monotoneOn hmono.monotoneOn rmono hmono
  have mass := chebyshev le_rfl hac tw rt (tame_id _ _) pw rmono.monotoneOn (fun x _ y _ hxy => hxy) rmono (fun x _ y _ hxy => hxy)
  rw [← num' (fun m => m), ← den'] at mass
  rw [← num', ← den'] at bias
  have bias' := (div_lt_div_iff₀ p1 p2).2 bias
  have mass' := (div_lt_div_iff₀ p1 p2).2 mass
  have sat : p.M_0 < hi → (∫ m in (10:ℝ) ^ lo..(10:ℝ) ^ hi, D m * (zhengCen p m * zhengSat p m)) / (∫ m in (10:ℝ) ^ lo..(10:ℝ) ^ hi, D m * zhengN p m) <
      (∫ m in (10:ℝ) ^ lo..(10:ℝ) ^ hi, D m * (zhengCen p' m * zhengSat p m)) / ∫ m in (10:ℝ) ^ lo..(10:ℝ) ^ hi, D m * zhengN p' m := by
    intro hM
    have hb : max ((10:ℝ) ^ lo) (10 ^ p.M_0) < 10 ^ hi := max_lt hac (pow_lt hM)
    have quot : ∀ {x y : ℝ}, 0 ≤ x → x ≤ y → x / (1 + x) ≤ y / (1 + y) := fun hx hxy => by
      rw [div_le_div_iff₀ (by linarith) (by linarith)]; nlinarith
    have quot' : ∀ {x y : ℝ}, 0 ≤ x → x < y → x / (1 + x) < y / (1 + y) := fun hx hxy => by
      rw [div_lt_div_iff₀ (by linarith) (by linarith)]; nlinarith
    have tg : Tame (fun m => zhengSat p m / (1 + zhengSat p m)) ((10:ℝ) ^ lo) ((10:ℝ) ^ hi) := by
      obtain ⟨-, S, hS, hS'⟩ := tS
      refine ⟨⟨1, fun m _ => ?_⟩, S, hS, fun m hm hn => ?_⟩
      · have := zhengSat_nonneg p m
        rw [abs_of_nonneg (by positivity), div_le_one (by linarith)]
        linarith
      · exact (hS' m hm hn).div (continuousWithinAt_const.add (hS' m hm hn)) (by have := zhengSat_nonneg p m; linarith)
    have key := chebyshev (le_max_left _ _) hb tw rt tg pw rmono.monotoneOn
      (fun x _ y _ hxy => quot (zhengSat_nonneg p x) (zhengSat_monotone p ha hxy)) (rmono.mono (Icc_subset_Icc (le_max_left _ _) le_rfl))
      (fun x hx y hy hxy => quot' (zhengSat_nonneg p x) (zhengSat_strict p ha (le_max_right _ _) hx hy hxy))
    rw [← num', ← den'] at key
    have e : ∀ q : ZhengP, zhengSat q = zhengSat p → (∫ m in (10:ℝ) ^ lo..(10:ℝ) ^ hi, D m * zhengN q m * (zhengSat p m / (1 + zhengSat p m))) =
        ∫ m in (10:ℝ) ^ lo..(10:ℝ) ^ hi, D m * (zhengCen q m * zhengSat p m) := fun q hq =>
      intervalIntegral.integral_congr fun m _ => by
        have := zhengSat_nonneg p m
        have : 1 + zhengSat p m ≠ 0 := by linarith
        simp only [zhengN, hq]
        field_simp
    rw [e p rfl, e p' esat] at key
    exact (div_lt_div_iff₀ p1 p2).2 key
  have f1 := t2.eventually_lt t1 den
  have f2 := b1.eventually_lt b2 bias'
  have f3 := m1.eventually_lt m2 mass'
  by_cases hM : p.M_0 < hi
  · filter_upwards [f1, f2, f3, s1.eventually_lt s2 (sat hM)] with d g1 g2 g3 g4
    exact ⟨g1, g2, (Real.rpow_lt_rpow_left_iff (by norm_num)).1 g3, fun _ => g4⟩
  · filter_upwards [f1, f2, f3] with d g1 g2 g3
    exact ⟨g1, g2, (Real.rpow_lt_rpow_left_iff (by norm_num)).1 g3, fun h => absurd h hM⟩

/-- C74: under the same conditions, more numerous satellites (a smaller `M_1`) raise all four averages. -/
theorem C74_zheng_satellites (E : Env) (hs : SplLin E.isp) (hc : SplQuad E.isp) (h h' : HM) (p p' : ZhengP) (hh : h.hod = zheng05 p true)
    (hh' : h'.hod = zheng05 p' true) {lo hi : ℝ} (hlh : lo < hi) (hM : p'.M_min = p.M_min)
    (hM1 : p'.M_1 < p.M_1) (hM0 : p'.M_0 = p.M_0) (hcut : p.M_0 < hi) (hal : p'.alpha = p.alpha) (hsig : p'.sig_logm = p.sig_logm) (ha : 0 < p.alpha)
    (D B : ℝ → ℝ) (U T Λ : ℕ → ℝ → ℝ)
    (hD : Tame D ((10:ℝ) ^ lo) ((10:ℝ) ^ hi)) (hB : Tame B ((10:ℝ) ^ lo) ((10:ℝ) ^ hi)) (hpos : ∀ m, (10:ℝ) ^ lo < m → m < (10:ℝ) ^ hi → 0 < D m)
    (hmono : StrictMonoOn B (Icc ((10:ℝ) ^ lo) ((10:ℝ) ^ hi))) :
    ∀ᶠ d in 𝓝[>] (0:ℝ), (mesh h lo hi D B U T Λ d).meanTracerDen E < (mesh h' lo hi D B U T Λ d).meanTracerDen E ∧
      (mesh h lo hi D B U T Λ d).biasEffTracer E < (mesh h' lo hi D B U T Λ d).biasEffTracer E ∧
      (mesh h lo hi D B U T Λ d).massEff E < (mesh h' lo hi D B U T Λ d).massEff E ∧
      (mesh h lo hi D B U T Λ d).satFrac E < (mesh h' lo hi D B U T Λ d).satFrac E := by
  obtain ⟨tC, tN, tCS, tS, p1, t1, b1, s1, m1⟩ := zheng_limits E hs hc h p hh ha hlh D B U T Λ hD hB hpos
  obtain ⟨_, tN', tCS', _, p2, t2, b2, s2, m2⟩ := zheng_limits E hs hc h' p' hh' (by rw [hal]; exact ha) hlh D B U T Λ hD hB hpos
  have ecen : zhengCen p' = zhengCen p := by funext m; unfold zhengCen; rw [hM, hsig]
  -- the other satellite number is a multiple of this one
  set k : ℝ := ((10:ℝ) ^ p.M_1 / 10 ^ p'.M_1) ^ p.alpha with hk
  have k1 : 1 < k := Real.one_lt_rpow (by rw [one_lt_div (by positivity)]; exact pow_lt hM1) ha
  have esat : ∀ m, zhengSat p' m = k * zhengSat p m := fun m => by
    unfold zhengSat
    rw [hM0, hal]
    split_ifs with hm
    · have h0 := sub_pos.2 hm
      rw [hk, ← Real.mul_rpow (by positivity) (by positivity)]
      congr 1
      field_simp
    · ring
  have hac : (10:ℝ) ^ lo < 10 ^ hi := pow_lt hlh
  have lm : (10:ℝ) ^ lo ∈ Icc ((10:ℝ) ^ lo) ((10:ℝ) ^ hi) := ⟨le_rfl, hac.le⟩
  have hm : (10:ℝ) ^ hi ∈ Icc ((10:ℝ) ^ lo) ((10:ℝ) ^ hi) := ⟨hac.le, le_rfl⟩
  have ii : ∀ {f : ℝ → ℝ}, Tame f ((10:ℝ) ^ lo) ((10:ℝ) ^ hi) → IntervalIntegrable f volume ((10:ℝ) ^ lo) ((10:ℝ) ^ hi) := fun hf => hf.intervalIntegrable lm hm
  have tw := hD.mul tC
  have pw : ∀ t, (10:ℝ) ^ lo < t → t < 10 ^ hi → 0 < D t * zhengCen p t := fun t h1 h2 => mul_pos (hpos t h1 h2) (zhengCen_pos p t)
  have hb : max ((10:ℝ) ^ lo) (10 ^ p.M_0) < 10 ^ hi := max_lt hac (pow_lt hcut)
  have bm : max ((10:ℝ) ^ lo) (10 ^ p.M_0) ∈ Icc ((10:ℝ) ^ lo) ((10:ℝ) ^ hi) := ⟨le_max_left _ _, hb.le⟩
  have W : 0 < ∫ m in (10:ℝ) ^ lo..(10:ℝ) ^ hi, D m * zhengCen p m := intervalIntegral.intervalIntegral_pos_of_pos_on (ii tw) (fun m hm => pw m hm.1 hm.2) hac
  have S : 0 < ∫ m in (10:ℝ) ^ lo..(10:ℝ) ^ hi, D m * zhengCen p m * zhengSat p m := by
    have t := tw.mul tS
    rw [← intervalIntegral.integral_add_adjacent_intervals (t.intervalIntegrable lm bm) (t.intervalIntegrable bm hm)]
    have n1 : 0 ≤ ∫ m in (10:ℝ) ^ lo..max ((10:ℝ) ^ lo) (10 ^ p.M_0), D m * zhengCen p m * zhengSat p m := by
      refine le_trans (by rw [intervalIntegral.integral_zero]) (intervalIntegral.integral_mono_on_of_le_Ioo bm.1 (by simp : IntervalIntegrable (fun _ => (0:ℝ)) volume _ _)
        (t.intervalIntegrable lm bm) fun m hm => mul_nonneg (pw m hm.1 (hm.2.trans hb)).le (zhengSat_nonneg p m))
    have n2 : 0 < ∫ m in max ((10:ℝ) ^ lo) (10 ^ p.M_0)..(10:ℝ) ^ hi, D m * zhengCen p m * zhengSat p m := by
      refine intervalIntegral.intervalIntegral_pos_of_pos_on (t.intervalIntegrable bm hm) (fun m hm => mul_pos (pw m (bm.1.trans_lt hm.1) hm.2) ?_) hb
      exact lt_of_le_of_lt (zhengSat_nonneg p _) (zhengSat_strict p ha (le_max_right _ _) ⟨le_rfl, hb.le⟩ ⟨hm.1.le, hm.2.le⟩ hm.1)
    linarith
  have split : ∀ (q : ZhengP) (c : ℝ), zhengCen q = zhengCen p → (∀ m, zhengSat q m = c * zhengSat p m) → ∀ g : ℝ → ℝ, Tame g ((10:ℝ) ^ lo) ((10:ℝ) ^ hi) →
      (∫ m in (10:ℝ) ^ lo..(10:ℝ) ^ hi, D m * zhengN q m * g m) =
      (∫ m in (10:ℝ) ^ lo..(10:ℝ) ^ hi, D m * zhengCen p m * g m) + c * ∫ m in (10:ℝ) ^ lo..(10:ℝ) ^ hi, D m * zhengCen p m * zhengSat p m * g m := by
    intro q c h1 h2 g hg
    rw [← intervalIntegral.integral_const_mul, ← intervalIntegral.integral_add (ii (tw.mul hg)) ((ii ((tw.mul tS).mul hg)).const_mul _)]
    exact intervalIntegral.integral_congr fun m _ => by simp only [zhengN, h1, h2]; ring
  have den : ∀ (q : ZhengP) (c : ℝ), zhengCen q = zhengCen p → (∀ m, zhengSat q m = c * zhengSat p m) →
      (∫ m in (10:ℝ) ^ lo..(10:ℝ) ^ hi, D m * zhengN q m) =
      (∫ m in (10:ℝ) ^ lo..(10:ℝ) ^ hi, D m * zhengCen p m) + c * ∫ m in (10:ℝ) ^ lo..(10:ℝ) ^ hi, D m * zhengCen p m * zhengSat p m := fun q c h1 h2 => by
    have := split q c h1 h2 (fun _ => 1) (tame_const _ _ _)
    simpa only [mul_one] using this
  have satN : ∀ (q : ZhengP) (c : ℝ), zhengCen q = zhengCen p → (∀ m, zhengSat q m = c * zhengSat p m) →
      (∫ m in (10:ℝ) ^ lo..(10:ℝ) ^ hi, D m * (zhengCen q m * zhengSat q m)) = c * ∫ m in (10:ℝ) ^ lo..(10:ℝ) ^ hi, D m * zhengCen p m * zhengSat p m := fun q c h1 h2 => by
    rw [← intervalIntegral.integral_const_mul]
    exact intervalIntegral.integral_congr fun m _ => by simp only [h1, h2]; ring
  have e1 : ∀ m, zhengSat p m = 1 * zhengSat p m := fun m => (one_mul _).symm
  have cheb : ∀ g : ℝ → ℝ, Tame g ((10:ℝ) ^ lo) ((10:ℝ) ^ hi) → StrictMonoOn g (Icc ((10:ℝ) ^ lo) ((10:ℝ) ^ hi)) →
      (∫ m in (10:ℝ) ^ lo..(10:ℝ) ^ hi, D m * zhengCen p m * g m) / (∫ m in (10:ℝ) ^ lo..(10:ℝ) ^ hi, D m * zhengCen p m) <
      (∫ m in (10:ℝ) ^ lo..(10:ℝ) ^ hi, D m * zhengCen p m * zhengSat p m * g m) / ∫ m in (10:ℝ) ^ lo..(10:ℝ) ^ hi, D m * zhengCen p m * zhengSat p m := fun g tg mg => by
    rw [div_lt_div_iff₀ W S]
    exact chebyshev bm.1 hb tw tS tg pw ((zhengSat_monotone p ha).monotoneOn _) mg.monotoneOn (zhengSat_strict p ha (le_max_right _ _))
      (mg.mono (Icc_subset_Icc bm.1 le_rfl))
  have bias := avg_mix W S (cheb B hB hmono) zero_le_one k1
  have mass := avg_mix W S (cheb _ (tame_id _ _) (fun x _ y _ hxy => hxy)) zero_le_one k1
  rw [split p 1 rfl e1 B hB, den p 1 rfl e1] at b1
  rw [split p' k ecen esat B hB, den p' k ecen esat] at b2
  rw [split p 1 rfl e1 _ (tame_id _ _), den p 1 rfl e1] at m1
  rw [split p' k ecen esat _ (tame_id _ _), den p' k ecen esat] at m2
  rw [satN p 1 rfl e1, den p 1 rfl e1] at s1
  rw [satN p' k ecen esat, den p' k ecen esat] at s2
  rw [den p 1 rfl e1] at t1
  rw [den p' k ecen esat] at t2
  filter_upwards [t1.eventually_lt t2 (by linarith [mul_lt_mul_of_pos_right k1 S]), b1.eventually_lt b2 bias, m1.eventually_lt m2 mass,
    s1.eventually_lt s2 (by
      have k0 : 0 < k := by linarith
      rw [div_lt_div_iff₀ (by positivity) (by positivity)]
      nlinarith [mul_lt_mul_of_pos_right k1 (mul_pos S W)])] with d g1 g2 g3 g4
  exact ⟨g1, g2, (Real.rpow_lt_rpow_left_iff (by norm_num)).1 g3, g4⟩

/-- the package's spline and default parameters, against a threshold ten times higher. -/
example : ∀ᶠ d in 𝓝[>] (0:ℝ),
    (mesh { stepHM false with hod := zheng05 {} true } 11 15 (fun m => m⁻¹) (fun m => m) (fun _ _ => 1) (fun _ _ => 1) (fun _ _ => 1) d).satFrac stepE <
    (mesh { stepHM false with hod := zheng05 { M_min := 12.6222 } true } 11 15 (fun m => m⁻¹) (fun m => m) (fun _ _ => 1) (fun _ _ => 1) (fun _ _ => 1) d).satFrac stepE := by
  refine (C74_zheng_threshold stepE cubicSpl_lin cubicSpl_quad { stepHM false with hod := zheng05 {} true } { stepHM false with hod := zheng05 { M_min := 12.6222 } true } {} { M_min := 12.6222 }
    rfl rfl (lo := 11) (hi := 15) (by norm_num) ?_ rfl rfl rfl rfl ?_ ?_ (fun m => m⁻¹) (fun m => m) _ _ _ inv_tame (tame_id _ _) (fun m h1 h2 => inv_pos10 ⟨h1.le, h2.le⟩)
    (fun _ _ _ _ h => h)).mono fun d h => h.2.2.2 ?_
  · change (11.6222:ℝ) < 12.6222; norm_num
  · change (0:ℝ) < 0.26; norm_num
  · change (0:ℝ) < 1.049; norm_num
  · change (11.5047:ℝ) < 15; norm_num

/-- and against satellites ten times as numerous. -/
example : ∀ᶠ d in 𝓝[>] (0:ℝ),
    (mesh { stepHM false with hod := zheng05 {} true } 11 15 (fun m => m⁻¹) (fun m => m) (fun _ _ => 1) (fun _ _ => 1) (fun _ _ => 1) d).biasEffTracer stepE <
    (mesh { stepHM false with hod := zheng05 { M_1 := 11.851 } true } 11 15 (fun m => m⁻¹) (fun m => m) (fun _ _ => 1) (fun _ _ => 1) (fun _ _ => 1) d).biasEffTracer stepE := by
  refine (C74_zheng_satellites stepE cubicSpl_lin cubicSpl_quad { stepHM false with hod := zheng05 {} true } { stepHM false with hod := zheng05 { M_1 := 11.851 } true } {} { M_1 := 11.851 }
    rfl rfl (lo := 11) (hi := 15) (by norm_num) rfl ?_ rfl ?_ rfl rfl ?_ (fun m => m⁻¹) (fun m => m) _ _ _ inv_tame (tame_id _ _) (fun m h1 h2 => inv_pos10 ⟨h1.le, h2.le⟩)
    (fun _ _ _ _ h => h)).mono fun d h => h.2.1
  · change (11.851:ℝ) < 12.851; norm_num
  · change (11.5047:ℝ) < 15; norm_num
  · change (0:ℝ) < 1.049; norm_num

end HaloModel
end Halomod
