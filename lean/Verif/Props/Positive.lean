import Verif.Props.Mesh
import Verif.Props.Outside
import Verif.Props.Spline
import Verif.Props.HodSign

/-!
# C71: auto power spectra are not negative

Two-halo terms are squares times the halo-centre power, one-halo terms integrals of non-negative pair counts.
-/
namespace Halomod.HaloModel

open Halomod.Tools Halomod.HOD Halomod.Exclusion Filter Topology MeasureTheory

variable {E : Env} {h : HM}

theorem power2hTab_nonneg (e : Excl) (b : ℕ → ℝ) (eb : ℝ) (db : Bool) (j : ℕ) (hp : 0 ≤ h.phc (h.k j)) :
    0 ≤ h.power2hTab E (noExclRes E e b) eb db 0 j := by
  unfold HM.power2hTab noExclRes noExclIntegrate noExclDensityMod
  dsimp only
  refine mul_nonneg ?_ hp
  have h1 : 0 ≤ (match e.bias with
      | .d1 b => e.splineIntegrate (fun n x y a c => splIntegral E.isp n x y a c) (fun im => e.pint j im * b im * e.m im) ^ 2
      | .d2 _ => e.splineIntegrate (fun n x y a c => splIntegral E.isp n x y a c) (e.raw 0 j) ^ 2) * 1 := by
    cases e.bias <;> simp only [mul_one] <;> exact sq_nonneg _
  split_ifs
  · exact mul_nonneg h1 (sq_nonneg _)
  · exact h1

/-- C71: without exclusion, if the halo-centre power is not negative and the linear power is positive, the two-halo powers of matter and tracers are not
negative at any tabulated wavenumber nor anywhere outside the table, whatever the mass function, bias, occupation, profiles and resolution. -/
theorem C71_two_halo_partial (hs : SplLin E.isp) (ho : h.Ok) (hp : ∀ j < h.nk, 0 ≤ h.phc (h.k j)) (hl : ∀ t > 0, 0 ≤ h.linPow t) (hl0 : 0 < h.linPow (h.k 0)) :
    ∃ pm pt, h.power2hMatter E = some pm ∧ h.power2hTracer E = some pt ∧
      ∀ t > 0, t < h.k 0 ∨ h.k (h.nk - 1) < t ∨ (∃ j < h.nk, t = h.k j) → 0 ≤ pm t ∧ 0 ≤ pt t := by
  obtain ⟨pm, pt, hm, ht, hlow, hf, hnf⟩ := C61_two_halo (E := E) (h := h) hs ho
  obtain ⟨pm', hm', hmk⟩ := power2hPrim_ok (E := E) (h := h) hs ho (noExclRes E h.matterExcl h.bias) (h.biasEffMatter E) h.forceUnity 0
  obtain ⟨pt', ht', htk⟩ := power2hPrim_ok (E := E) (h := h) hs ho (noExclRes E (h.tracerExcl E) h.bias) (h.biasEffTracer E) false 0
  obtain rfl : pm = pm' := Option.some.inj (hm.symm.trans hm')
  obtain rfl : pt = pt' := Option.some.inj (ht.symm.trans ht')
  have hnode : ∀ j < h.nk, 0 ≤ pm (h.k j) ∧ 0 ≤ pt (h.k j) := fun j hj => by
    rw [hmk j hj, htk j hj]
    exact ⟨power2hTab_nonneg _ _ _ _ _ (hp j hj), power2hTab_nonneg _ _ _ _ _ (hp j hj)⟩
  refine ⟨pm, pt, hm, ht, fun t ht0 htt => ?_⟩
  rcases htt with h1 | h1 | ⟨j, hj, rfl⟩
  · obtain ⟨e1, e2⟩ := hlow hl0.ne' t h1
    have h3 : 0 ≤ h.linPow t / h.linPow (h.k 0) := div_nonneg (hl t ht0) hl0.le
    rw [e1, e2]
    exact ⟨mul_nonneg (hnode 0 ho.nk0).1 h3, mul_nonneg (hnode 0 ho.nk0).2 h3⟩
  · cases hff : h.filtered with
    | true => obtain ⟨e1, e2⟩ := hf hff t h1
              rw [e1, e2]; exact ⟨le_rfl, le_rfl⟩
    | false => exact hnf hff t h1
  · exact hnode j hj

/-- C71 finding: between the tabulated wavenumbers the two-halo power of the tracers can be negative, with the package's spline and a halo-centre power that is
nowhere negative: on the wavenumbers 1, 2, 3, … the halo-centre power `max(0, s (s² - 1.5 s + 0.51))`, `s = k - 1`, gives a negative value at 1.75 in every
model with a tracer density and a bias in which haloes are unresolved at these wavenumbers. -/
theorem C71_negative_between_wavenumbers (hE : E.isp = cubicSpl) (ho : h.Ok) (hnk : 4 ≤ h.nk) (hk : ∀ j : ℕ, h.k j = j + 1) (hu : ∀ j i, h.ut j i = 1)
    (hphc : ∀ t, h.phc t = max 0 ((t - 1) * ((t - 1) ^ 2 - 1.5 * (t - 1) + 0.51))) (hc : h.cut) (h1 : h.m 0 < 10 ^ h.hod.mmin)
    (hd : h.meanTracerDen E ≠ 0) (hb : h.biasEffTracer E ≠ 0) :
    (∀ t, 0 ≤ h.phc t) ∧ ∃ pt, h.power2hTracer E = some pt ∧ h.k 0 < 1.75 ∧ (1.75:ℝ) < h.k 1 ∧ pt 1.75 < 0 := by
  have hs : SplLin E.isp := hE ▸ cubicSpl_lin
  refine ⟨fun t => by rw [hphc]; exact le_max_left _ _, ?_⟩
  obtain ⟨pt, ht, htk, hin⟩ := mkES_ok E hs.toSplOk
    { n := h.nk, x := h.k, y := h.power2hTab E (noExclRes E (h.tracerExcl E) h.bias) (h.biasEffTracer E) false 0, lower := .callable h.linPow, matchLower := true,
      upper := if (noExclRes E (h.tracerExcl E) h.bias).isNone && !h.filtered then .powerLaw else .callable fun _ => 0 }
    rfl rfl ho.k (by simp) (by dsimp only; split <;> simp)
  refine ⟨pt, ht, by rw [hk]; norm_num, by rw [hk]; norm_num, ?_⟩
  dsimp only at htk hin
  have hnn : ∀ i : ℕ, 0 ≤ (i:ℝ) * ((i:ℝ) ^ 2 - 1.5 * i + 0.51) := by
    intro i
    rcases Nat.lt_or_ge i 2 with h2 | h2
    · interval_cases i <;> norm_num
    · have : (2:ℝ) ≤ i := by exact_mod_cast h2
      exact mul_nonneg (by linarith) (by nlinarith)
  have htab : ∀ j < h.nk, h.power2hTab E (noExclRes E (h.tracerExcl E) h.bias) (h.biasEffTracer E) false 0 j =
      h.biasEffTracer E ^ 2 * ((h.k j - 1) * ((h.k j - 1) ^ 2 - 1.5 * (h.k j - 1) + 0.51)) := by
    intro j hj
    obtain ⟨f, hf, hfj⟩ := C44_tracer_large_scale (E := E) (h := h) hs ho hc h1 j hj (fun i _ => hu j i) hd
    obtain rfl : pt = f := Option.some.inj (ht.symm.trans hf)
    rw [← htk j hj, hfj, hphc, max_eq_right]
    rw [hk j, add_sub_cancel_right]
    exact hnn j
  have hlast : (1.75:ℝ) ≤ h.k (h.nk - 1) := by
    rw [hk]
    have : (3:ℝ) ≤ ((h.nk - 1 : ℕ):ℝ) := by exact_mod_cast (by omega : 3 ≤ h.nk - 1)
    linarith
  rw [hin 1.75 (by rw [hk]; norm_num) hlast, hE]
  set b := h.biasEffTracer E with hbd
  have hcub := C62_exact_cubic hnk (x := h.k) (fun i j hij hj => ho.k.inc i j hij hj) (b ^ 2 * (-(1 + 1.5 + 0.51))) (b ^ 2 * (3 + 3 + 0.51)) (b ^ 2 * (-3 - 1.5)) (b ^ 2) 1.75
  have hcong : cubicSpl h.nk h.k (h.power2hTab E (noExclRes E (h.tracerExcl E) h.bias) b false 0) 1.75 =
      cubicSpl h.nk h.k (fun i => b ^ 2 * (-(1 + 1.5 + 0.51)) + b ^ 2 * (3 + 3 + 0.51) * h.k i + b ^ 2 * (-3 - 1.5) * h.k i ^ 2 + b ^ 2 * h.k i ^ 3) 1.75 := by
    refine congrFun (cubicSpl_ok.congr h.nk h.k h.k _ _ fun i hi => ⟨rfl, ?_⟩) 1.75
    rw [htab i hi]
    ring
  rw [hcong, hcub]
  have : 0 < b ^ 2 := by positivity
  nlinarith

/-- a model with four masses and four wavenumbers, the package's spline and the halo-centre power of the finding. -/
noncomputable def posHM : HM := { demoHM with nm := 4, nk := 4, k := fun j => j + 1, ut := fun _ _ => 1, bias := fun _ => 1, phc := fun t => max 0 ((t - 1) * ((t - 1) ^ 2 - 1.5 * (t - 1) + 0.51)) }

/-- the package's spline, with trivial other quadratures. -/
noncomputable def posE : Env := { isp := cubicSpl, us := fun _ _ _ _ => 0, hankel := fun _ _ => 0 }

theorem pos_ok : posHM.Ok where
  m := ⟨fun i _ => by simp only [posHM, demoHM]; positivity, fun i j hij _ => by
    simp only [posHM, demoHM]
    apply Real.rpow_lt_rpow_of_exponent_lt (by norm_num)
    have : (i:ℝ) < j := by exact_mod_cast hij
    linarith⟩
  k := ⟨fun i _ => by simp only [posHM]; positivity, fun i j hij _ => by
    simp only [posHM]
    have : (i:ℝ) < j := by exact_mod_cast hij
    linarith⟩
  r := demo_ok.r
  nm0 := by norm_num [posHM]
  nk0 := by norm_num [posHM]
  nr0 := demo_ok.nr0

theorem pos_integrand (i : ℕ) : posHM.m i * (posHM.dndm i * posHM.totOccInt i) = 1 := by
  have hm : 0 < posHM.m i := by simp only [posHM, demoHM]; positivity
  have hsat : 0 ≤ posHM.hod.satOcc (posHM.m i) := demo_sat i
  have h1 : posHM.totOccInt i = 1 + posHM.hod.satOcc (posHM.m i) := by
    unfold HM.totOccInt HM.cenOccInt
    rw [if_pos (by rfl)]
  have h2 : posHM.dndm i = 1 / (posHM.m i * (1 + posHM.hod.satOcc (posHM.m i))) := rfl
  rw [h1, h2]
  generalize posHM.hod.satOcc (posHM.m i) = s at *
  have : 1 + s ≠ 0 := by positivity
  field_simp

theorem pos_den : 0 < posHM.meanTracerDen posE := by
  unfold HM.meanTracerDen HM.S splineIntegral
  rw [if_pos rfl, show posHM.tracerMmin = some (10 ^ (12:ℝ)) from demo_mmin]
  dsimp only [Option.elim]
  rw [show posE.isp = cubicSpl from rfl, splIntegral_congr cubicSpl_ok _ _ _ (fun i => 1 + 0 * Real.log (posHM.m i) + 0 * Real.log (posHM.m i) ^ 2 + 0 * Real.log (posHM.m i) ^ 3) _ _
    (fun i _ => by rw [pos_integrand]; ring)]
  have h1 : Real.log (posHM.m 0) ≤ Real.log (10 ^ (12:ℝ)) := Real.log_le_log (pos_ok.m.pos 0 (by norm_num [posHM])) demo_low.le
  have h2 : Real.log (10 ^ (12:ℝ)) < Real.log (posHM.m (posHM.nm - 1)) := by
    apply Real.log_lt_log (by positivity)
    change (10:ℝ) ^ (12:ℝ) < 10 ^ ((11.5:ℝ) + (3:ℕ))
    apply Real.rpow_lt_rpow_of_exponent_lt <;> norm_num
  unfold splIntegral
  rw [intervalIntegral.integral_congr (g := fun _ => (1:ℝ))]
  · rw [intervalIntegral.integral_const, smul_eq_mul, mul_one]; linarith
  · intro t ht
    rw [Set.uIcc_of_le h2.le] at ht
    have hmem : t ∈ Set.Icc (Real.log (posHM.m 0)) (Real.log (posHM.m (posHM.nm - 1))) := ⟨h1.trans ht.1, ht.2⟩
    dsimp only
    rw [Set.indicator_of_mem hmem]
    refine (C62_exact_cubic (n := posHM.nm) (by norm_num [posHM]) (x := fun i => Real.log (posHM.m i)) (fun i j hij hj => pos_ok.m.log_inc i j hij hj) 1 0 0 0 t).trans ?_
    ring

theorem pos_bias : posHM.biasEffTracer posE = 1 := by
  unfold HM.biasEffTracer
  have : (fun i => posHM.dndm i * posHM.totOccInt i * posHM.bias i) = fun i => posHM.dndm i * posHM.totOccInt i := by
    ext i; simp [posHM]
  rw [this]
  exact div_self pos_den.ne'

/-- this model meets the hypotheses of the finding, and with the absolute value as linear power those of C71_two_halo_partial. -/
example : (∃ pt, posHM.power2hTracer posE = some pt ∧ pt 1.75 < 0) ∧ ∃ pm pt, posHM.power2hMatter posE = some pm ∧ posHM.power2hTracer posE = some pt ∧ 0 ≤ pm 2 ∧ 0 ≤ pt 2 := by
  obtain ⟨h1, pt, h2, _, _, h3⟩ := C71_negative_between_wavenumbers (E := posE) (h := posHM) rfl pos_ok le_rfl (fun _ => rfl) (fun _ _ => rfl) (fun _ => rfl) demo_cut demo_low
    pos_den.ne' (by rw [pos_bias]; norm_num)
  refine ⟨⟨pt, h2, h3⟩, ?_⟩
  obtain ⟨pm, pt, e1, e2, e3⟩ := C71_two_halo_partial (E := posE) (h := posHM) cubicSpl_lin pos_ok (fun j _ => h1 _) (fun t ht => ht.le) (by norm_num [posHM, demoHM])
  have := e3 2 (by norm_num) (Or.inr (Or.inr ⟨1, by norm_num [posHM], by norm_num [posHM]⟩))
  exact ⟨pm, pt, e1, e2, this⟩

/-- C71: as the mass table is refined, the one-halo powers are not negative: for every HOD of the package with parameters in range, a non-negative mass function and
(for the tracers) non-negative profile transforms, every negative bound `-ε` is eventually exceeded, and the one-halo matter power is eventually positive when the
mass function and the transforms do not vanish. -/
theorem C71_one_halo_refined_partial (E : Env) (hs : SplLin E.isp) (hc : SplQuad E.isp) (h : HM) (ho : h.Ok) (i : HodInst) (central : Bool) (hr : i.Regular central)
    (hleg : i.Legal) (hh : h.hod = i.mk central) {lo hi : ℝ} (hlh : lo < hi) (hcut : h.hod.sharpCut = true → h.hod.mmin < hi) (D B : ℝ → ℝ) (U T Λ : ℕ → ℝ → ℝ)
    (hD : Tame D ((10:ℝ) ^ lo) ((10:ℝ) ^ hi)) (hU : ∀ j, Tame (U j) ((10:ℝ) ^ lo) ((10:ℝ) ^ hi)) (hT : ∀ j, Tame (T j) ((10:ℝ) ^ lo) ((10:ℝ) ^ hi))
    (hD0 : ∀ m, 0 ≤ D m) (hT0 : ∀ j m, 0 ≤ T j m)
    (hpos : (∫ m in tracerLow h.hod ((10:ℝ) ^ lo)..(10:ℝ) ^ hi, D m * tracerNumber h.hod m) ≠ 0)
    (j : ℕ) (hj : j < h.nk) (hlo : h.oneHaloMmin ((10:ℝ) ^ lo) j < (10:ℝ) ^ hi)
    (hlo2 : 0 < h.oneHaloMmin h.hod.mmin j ∧ h.oneHaloMmin h.hod.mmin j < (10:ℝ) ^ hi) :
    ∃ P Q : ℝ → ℝ → ℝ, (∀ d > 0, (mesh h lo hi D B U T Λ d).power1hMatter E = some (P d)) ∧
      (∀ d > 0, (mesh h lo hi D B U T Λ d).power1hTracer E = some (Q d)) ∧
      (∀ ε > 0, ∃ δ > 0, ∀ d, 0 < d → d < δ → -ε < P d (h.k j) ∧ -ε < Q d (h.k j)) ∧
      ((∀ m, (10:ℝ) ^ lo < m → m < (10:ℝ) ^ hi → 0 < D m ∧ U j m ≠ 0) → h.meanDensity0 ≠ 0 → ∃ δ > 0, ∀ d, 0 < d → d < δ → 0 < P d (h.k j)) := by
  have h0 : (0:ℝ) < (10:ℝ) ^ lo := by positivity
  have ht : HodTame h.hod ((10:ℝ) ^ lo) ((10:ℝ) ^ hi) := by rw [hh]; exact hod_tame i central hr h0 (pow_lt hlh).le
  obtain ⟨P, Q, hP, hQ, hPt, hQt⟩ := C56_mesh_one_halo_power E hs hc h ho hlh D B U T Λ hD hU hT ht.1 ht.2.2.1 ht.2.2.2 hcut hpos j hj hlo hlo2
  have hmin : (10:ℝ) ^ lo ≤ h.oneHaloMmin ((10:ℝ) ^ lo) j := by
    unfold HM.oneHaloMmin; dsimp only; split_ifs
    · exact le_max_left _ _
    · exact le_rfl
  have hp0 : 0 ≤ (∫ m in h.oneHaloMmin ((10:ℝ) ^ lo) j..(10:ℝ) ^ hi, D m * m ^ 2 * U j m ^ 2) / h.meanDensity0 ^ 2 :=
    div_nonneg (intervalIntegral.integral_nonneg hlo.le fun m _ => mul_nonneg (mul_nonneg (hD0 m) (sq_nonneg _)) (sq_nonneg _)) (sq_nonneg _)
  have hq0 : 0 ≤ (∫ m in max ((10:ℝ) ^ lo) (h.oneHaloMmin h.hod.mmin j)..(10:ℝ) ^ hi,
        D m * (2 * h.hod.csPairs m * T j m + h.hod.ssPairs m * T j m ^ 2)) /
          (∫ m in tracerLow h.hod ((10:ℝ) ^ lo)..(10:ℝ) ^ hi, D m * tracerNumber h.hod m) ^ 2 := by
    refine div_nonneg (intervalIntegral.integral_nonneg (max_le (pow_lt hlh).le hlo2.2.le) fun m hm => ?_) (sq_nonneg _)
    have hm0 : 0 < m := lt_of_lt_of_le (lt_of_lt_of_le h0 (le_max_left _ _)) hm.1
    have hn := C05_nonneg i hleg central m hm0
    rw [← hh] at hn
    have h1 := hn.csPairs
    have h2 := hn.ssPairs
    have h3 := hT0 j m
    exact mul_nonneg (hD0 m) (by positivity)
  have ev : ∀ {F : ℝ → ℝ} {L c : ℝ}, Tendsto F (𝓝[>] 0) (𝓝 L) → c < L → ∃ δ > 0, ∀ d, 0 < d → d < δ → c < F d := by
    intro F L c hF hc
    have := hF.eventually (lt_mem_nhds hc)
    rw [eventually_nhdsWithin_iff, Metric.eventually_nhds_iff] at this
    obtain ⟨δ, hδ, h1⟩ := this
    exact ⟨δ, hδ, fun d hd hdδ => h1 (by rwa [Real.dist_eq, sub_zero, abs_of_pos hd]) hd⟩
  refine ⟨P, Q, hP, hQ, fun ε hε => ?_, fun hstrict hm0 => ?_⟩
  · obtain ⟨d1, hd1, h1⟩ := ev (c := -ε) hPt (by linarith)
    obtain ⟨d2, hd2, h2⟩ := ev (c := -ε) hQt (by linarith)
    exact ⟨min d1 d2, lt_min hd1 hd2, fun d hd hlt => ⟨h1 d hd (hlt.trans_le (min_le_left _ _)), h2 d hd (hlt.trans_le (min_le_right _ _))⟩⟩
  · refine ev (c := 0) hPt (div_pos ?_ (by positivity))
    refine intervalIntegral.intervalIntegral_pos_of_pos_on
      (((hD.mul (tame_id _ _).pow_two).mul (hU j).pow_two).intervalIntegrable ⟨hmin, hlo.le⟩ ⟨(pow_lt hlh).le, le_rfl⟩) (fun m hm => ?_) hlo
    have h1 : (10:ℝ) ^ lo < m := hmin.trans_lt hm.1
    obtain ⟨h2, h3⟩ := hstrict m h1 hm.2
    have h4 : 0 < m := h0.trans h1
    have h5 : 0 < U j m ^ 2 := by positivity
    positivity

/-- C71 finding: on a fixed mass table the one-halo matter power can be negative although the mass function is positive and the halo profiles are resolved nowhere:
masses `e^i`, a mass function `((N-i)² - 0.9 (N-i) + 0.01) / m³` (`N` the last index), and the documented large-scale turnover with its limit half an e-fold below the
largest mass.  The spline through positive samples is negative on that half interval. -/
theorem C71_one_halo_negative (hE : E.isp = cubicSpl) (ho : h.Ok) (hnm : 4 ≤ h.nm) (hm : ∀ i : ℕ, h.m i = Real.exp i)
    (hd : ∀ i : ℕ, h.dndm i = ((((h.nm - 1 : ℕ):ℝ) - i) ^ 2 - 0.9 * (((h.nm - 1 : ℕ):ℝ) - i) + 0.01) / h.m i ^ 3) (hturn : h.turnover = true)
    (hr : h.meanDensity0 ≠ 0) (j : ℕ) (hj : j < h.nk) (hu : ∀ i, h.uh j i = 1)
    (hlim : 4 * Real.pi * h.meanDensity0 * h.overdensity / 3 * (Real.pi / h.k j / 10) ^ 3 = Real.exp (((h.nm - 1 : ℕ):ℝ) - 1 / 2)) :
    (∀ i < h.nm, 0 < h.dndm i) ∧ ∃ p, h.power1hMatter E = some p ∧ p (h.k j) < 0 := by
  have hs : SplLin E.isp := hE ▸ cubicSpl_lin
  obtain ⟨p, hp, hpk⟩ := power1hMatter_ok (E := E) (h := h) hs ho
  obtain ⟨N, hN⟩ : ∃ N : ℕ, N = h.nm - 1 := ⟨_, rfl⟩
  have hNn : h.nm = N + 1 := by omega
  have hN3 : (3:ℝ) ≤ N := by exact_mod_cast (by omega : 3 ≤ N)
  rw [← hN] at hlim
  refine ⟨fun i hi => ?_, p, hp, ?_⟩
  · rw [hd, hm, ← hN]
    refine div_pos ?_ (by positivity)
    obtain ⟨q, rfl⟩ : ∃ q, N = i + q := ⟨N - i, by omega⟩
    push_cast
    rw [add_sub_cancel_left]
    rcases Nat.eq_zero_or_pos q with rfl | hq
    · norm_num
    · have : (1:ℝ) ≤ q := by exact_mod_cast hq
      nlinarith
  · rw [hpk j hj]
    unfold HM.power1hMatterTab HM.do1halo HM.S
    refine div_neg_of_neg_of_pos ?_ (by positivity)
    have hlow : h.oneHaloMmin (h.m 0) j = Real.exp ((N:ℝ) - 1 / 2) := by
      unfold HM.oneHaloMmin
      rw [hturn]
      dsimp only
      rw [if_pos rfl, hlim, hm]
      refine max_eq_right (Real.exp_le_exp.2 ?_)
      push_cast
      linarith
    rw [hlow]
    unfold splineIntegral
    rw [if_pos rfl]
    dsimp only [Option.elim]
    rw [Real.log_exp, hE, hm, ← hN, Real.log_exp]
    have hx : (fun i => Real.log (h.m i)) = fun i : ℕ => (i:ℝ) := by ext i; rw [hm, Real.log_exp]
    rw [hx, splIntegral_congr cubicSpl_ok _ _ _ (fun i : ℕ => ((N:ℝ) ^ 2 - 0.9 * N + 0.01) + (0.9 - 2 * N) * (i:ℝ) + 1 * (i:ℝ) ^ 2 + 0 * (i:ℝ) ^ 3) _ _ (fun i hi => by
      rw [hd, hu, ← hN]
      have : h.m i ≠ 0 := by rw [hm]; positivity
      field_simp
      ring)]
    have key : splIntegral cubicSpl h.nm (fun i : ℕ => (i:ℝ)) (fun i : ℕ => ((N:ℝ) ^ 2 - 0.9 * N + 0.01) + (0.9 - 2 * N) * (i:ℝ) + 1 * (i:ℝ) ^ 2 + 0 * (i:ℝ) ^ 3) ((N:ℝ) - 1 / 2) N =
        ∫ t in ((N:ℝ) - 1 / 2)..N, (((N:ℝ) ^ 2 - 0.9 * N + 0.01) + (0.9 - 2 * N) * t + 1 * t ^ 2 + 0 * t ^ 3) := by
      unfold splIntegral
      refine intervalIntegral.integral_congr fun t ht => ?_
      rw [Set.uIcc_of_le (by linarith)] at ht
      have hmem : t ∈ Set.Icc ((0:ℕ):ℝ) (((h.nm - 1 : ℕ)):ℝ) := ⟨by push_cast; linarith [ht.1], by rw [← hN]; exact ht.2⟩
      dsimp only
      rw [Set.indicator_of_mem hmem]
      exact C62_exact_cubic (by omega) (x := fun i : ℕ => (i:ℝ)) (fun a b hab _ => by exact_mod_cast hab) _ _ _ _ t
    rw [key]
    have e : (fun t : ℝ => ((N:ℝ) ^ 2 - 0.9 * N + 0.01) + (0.9 - 2 * N) * t + 1 * t ^ 2 + 0 * t ^ 3) = fun t : ℝ => (t - N) ^ 2 + 0.9 * (t - N) + 0.01 := by
      ext t; ring
    rw [e, intervalIntegral.integral_comp_sub_right (fun u : ℝ => u ^ 2 + 0.9 * u + 0.01) (N:ℝ), sub_self]
    have e2 : (N:ℝ) - 1 / 2 - N = -(1 / 2) := by ring
    rw [e2, intervalIntegral.integral_add (Continuous.intervalIntegrable (by fun_prop) _ _) (Continuous.intervalIntegrable (by fun_prop) _ _), intervalIntegral.integral_add (Continuous.intervalIntegrable (by fun_prop) _ _) (Continuous.intervalIntegrable (by fun_prop) _ _), intervalIntegral.integral_const_mul,
      integral_pow, integral_id, intervalIntegral.integral_const]
    norm_num

/-- masses `1, e, e², e³`, mean density 1, wavenumbers 1 and 2: an overdensity puts the turnover of the first wavenumber half an e-fold below the last mass. -/
example : ∃ (h : HM) (p : ℝ → ℝ), (∀ i < h.nm, 0 < h.dndm i) ∧ h.power1hMatter posE = some p ∧ p (h.k 0) < 0 := by
  let h : HM := { demoHM with nm := 4, m := fun i => Real.exp i, dndm := fun i => (((3:ℕ) - (i:ℝ)) ^ 2 - 0.9 * ((3:ℕ) - (i:ℝ)) + 0.01) / Real.exp i ^ 3, uh := fun _ _ => 1, turnover := true, overdensity := Real.exp (((3:ℕ):ℝ) - 1 / 2) * 3 / (4 * Real.pi) / (Real.pi / (1 + (0:ℕ)) / 10) ^ 3 }
  have ho : h.Ok := { m := ⟨fun i _ => Real.exp_pos _, fun i j hij _ => Real.exp_lt_exp.2 (by exact_mod_cast hij)⟩, k := demo_ok.k, r := demo_ok.r, nm0 := by norm_num [h], nk0 := demo_ok.nk0, nr0 := demo_ok.nr0 }
  obtain ⟨h1, p, h2, h3⟩ := C71_one_halo_negative (E := posE) (h := h) rfl ho le_rfl (fun _ => rfl) (fun _ => rfl) rfl one_ne_zero 0 demo_ok.nk0 (fun _ => rfl) (by
    change 4 * Real.pi * 1 * (Real.exp (((3:ℕ):ℝ) - 1 / 2) * 3 / (4 * Real.pi) / (Real.pi / (1 + (0:ℕ)) / 10) ^ 3) / 3 * (Real.pi / (1 + (0:ℕ)) / 10) ^ 3 = Real.exp (((3:ℕ):ℝ) - 1 / 2)
    have hpi := Real.pi_pos.ne'
    generalize Real.exp (((3:ℕ):ℝ) - 1 / 2) = e
    rw [Nat.cast_zero, add_zero, div_one]
    field_simp)
  exact ⟨h, p, h1, h2, h3⟩

/-- the refined statement applies to the default occupation with mass function `1/m` and unresolved haloes. -/
example : ∃ P : ℝ → ℝ → ℝ, (∀ d > 0, (mesh { posHM with hod := zehavi05 {} true } 11 15 (fun m => |m|⁻¹) (fun m => m) (fun _ _ => 1) (fun _ _ => 1) (fun _ _ => 1) d).power1hMatter posE = some (P d)) ∧
    ∃ δ > 0, ∀ d, 0 < d → d < δ → 0 < P d 1 := by
  have h0 : (0:ℝ) < 10 ^ (11:ℝ) := by positivity
  have hD : Tame (fun m : ℝ => |m|⁻¹) ((10:ℝ) ^ (11:ℝ)) ((10:ℝ) ^ (15:ℝ)) := ContinuousOn.tame (continuous_abs.continuousOn.inv₀ fun m hm => abs_ne_zero.2 (h0.trans_le hm.1).ne')
  have ht := hod_tame (.zehavi05 {}) true trivial h0 (pow_lt (lo := 11) (hi := 15) (by norm_num)).le
  have hpos := mesh_positive (hod := zehavi05 {} true) (lo := 11) (hi := 15) (by norm_num) (fun _ => by change (11.6222:ℝ) < 15; norm_num) hD ht.1 (fun m hm _ => by
    have hm0 : 0 < m := h0.trans hm
    refine mul_pos (by positivity) ?_
    unfold tracerNumber
    have h5 := (C05_nonneg (.zehavi05 {}) trivial true m hm0).satOcc
    have h6 : 0 ≤ (zehavi05 {} true).satOcc m := h5
    rw [if_pos (by rfl)]
    linarith)
  obtain ⟨P, Q, h1, _, _, h2⟩ := C71_one_halo_refined_partial posE cubicSpl_lin cubicSpl_quad { posHM with hod := zehavi05 {} true }
    { m := pos_ok.m, k := pos_ok.k, r := pos_ok.r, nm0 := pos_ok.nm0, nk0 := pos_ok.nk0, nr0 := pos_ok.nr0 } (.zehavi05 {}) true trivial trivial rfl (lo := 11) (hi := 15) (by norm_num)
    (fun _ => by change (11.6222:ℝ) < 15; norm_num) (fun m => |m|⁻¹) (fun m => m) (fun _ _ => 1) (fun _ _ => 1) (fun _ _ => 1) hD (fun _ => tame_const _ _ _) (fun _ => tame_const _ _ _)
    (fun m => by positivity) (fun _ _ => zero_le_one) hpos.ne' 0 (by norm_num [posHM]) (by
      unfold HM.oneHaloMmin; dsimp only; rw [if_neg (by simp [posHM, demoHM])]; exact pow_lt (by norm_num)) (by
      unfold HM.oneHaloMmin; dsimp only; rw [if_neg (by simp [posHM, demoHM])]
      change (0:ℝ) < 11.6222 ∧ (11.6222:ℝ) < 10 ^ (15:ℝ)
      refine ⟨by norm_num, ?_⟩
      calc (11.6222:ℝ) < 10 ^ (2:ℝ) := by norm_num
        _ ≤ _ := Real.rpow_le_rpow_of_exponent_le (by norm_num) (by norm_num))
  obtain ⟨δ, hδ, h3⟩ := h2 (fun m hm _ => ⟨by have := h0.trans hm; positivity, one_ne_zero⟩) one_ne_zero
  refine ⟨P, h1, δ, hδ, fun d hd hlt => ?_⟩
  have h4 := h3 d hd hlt
  have e : (({ posHM with hod := zehavi05 {} true } : HM).k 0) = 1 := by simp [posHM]
  rwa [e] at h4

end Halomod.HaloModel
