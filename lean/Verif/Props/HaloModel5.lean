import Verif.Props.HaloModel3

/-! # C46: tracer-matter cross spectra -/
namespace Halomod.HaloModel

open Finset Halomod.Tools Halomod.HOD Halomod.Exclusion

noncomputable section

section
variable {E : Env} {h : HM}

/-- C46: the two cross terms and their sum exist for every model with proper grids; the one-halo term at
a grid wavenumber is the mass integral of abundance times mass (times halo profile) times
centrals-plus-profile-weighted-satellites; the two-halo term is the product of the tracer's and the matter's
bias-weighted integrals and the halo-centre power; both are normalised by the tracer density times the mean
matter density; the total is their sum at every wavenumber. -/
theorem C46_formula (hs : SplLin E.isp) (ho : h.Ok) :
    ∃ p1 p2 p, h.power1hCross E = some p1 ∧ h.power2hCross E = some p2 ∧ h.powerCross E = some p ∧
      (∀ k, p k = p1 k + p2 k) ∧
      ∀ j < h.nk,
        p1 (h.k j) = splineIntegral E.isp h.nm h.m
            (fun i => h.dndm i * h.m i * h.uh j i * (h.cenOccInt i + h.hod.satOcc (h.m i) * h.ut j i))
            h.tracerMmin none true / (h.meanTracerDen E * h.meanDensity0) ∧
        p2 (h.k j) = splineIntegral E.isp h.nm h.m
            (fun i => h.dndm i * h.bias i * (h.cenOccInt i + h.hod.satOcc (h.m i) * h.ut j i))
            h.tracerMmin none true / h.meanTracerDen E *
          (splineIntegral E.isp h.nm h.m (fun i => h.dndm i * h.bias i * h.m i * h.uh j i) none none true
            / h.meanDensity0) * h.phc (h.k j) := by
  obtain ⟨p1, e1, f1, -⟩ := mkES_ok E hs.toSplOk
    { n := h.nk, x := h.k, y := h.power1hCrossTab E, lower := .powerLaw, upper := .powerLaw } rfl rfl ho.k
    (by simp) (by simp)
  obtain ⟨p2, e2, f2, -⟩ := mkES_ok E hs.toSplOk
    { n := h.nk, x := h.k, y := h.power2hCrossTab E, lower := .powerLaw,
      upper := if h.filtered then .callable fun _ => 0 else .powerLaw } rfl rfl ho.k
    (by simp) (by dsimp only; split_ifs <;> simp)
  refine ⟨p1, p2, fun k => p1 k + p2 k, e1, e2, ?_, fun _ => rfl, fun j hj => ⟨f1 j hj, ?_⟩⟩
  · unfold HM.powerCross
    rw [show h.power1hCross E = some p1 from e1, show h.power2hCross E = some p2 from e2]
    unfold sumC sumCallable
    simp
  · rw [f2 j hj]
    dsimp only
    unfold HM.power2hCrossTab HM.S
    rw [div_mul_div_comm, div_mul_eq_mul_div]

/-- C46: where both profiles are unity (large scales) the one-halo cross power is the mean mass of the
haloes hosting the tracer, `10**mass_effective`, divided by the mean matter density. -/
theorem C46_one_halo_large_scale (hs : SplLin E.isp) (ho : h.Ok) (j : ℕ) (hj : j < h.nk)
    (hu : ∀ i < h.nm, h.uh j i = 1 ∧ h.ut j i = 1)
    (hpos : 0 < h.S E (fun i => h.m i * h.dndm i * h.totOccInt i) h.tracerMmin / h.meanTracerDen E) :
    ∃ p1, h.power1hCross E = some p1 ∧ p1 (h.k j) = (10:ℝ) ^ h.massEff E / h.meanDensity0 := by
  obtain ⟨p1, p2, p, e1, e2, e, -, hf⟩ := C46_formula hs ho
  refine ⟨p1, e1, ?_⟩
  have hM : (10:ℝ) ^ h.massEff E
      = h.S E (fun i => h.m i * h.dndm i * h.totOccInt i) h.tracerMmin / h.meanTracerDen E := by
    unfold HM.massEff log10
    exact Real.rpow_logb (by norm_num) (by norm_num) hpos
  rw [(hf j hj).1, hM, div_div]
  congr 1
  change h.S E _ _ = _
  refine S_congr hs _ fun i hi => ?_
  obtain ⟨a, b⟩ := hu i hi
  rw [a, b]
  unfold HM.totOccInt
  ring

/-- C46: where both profiles are unity the two-halo cross power is the tracer's effective bias times the
halo-centre power times the mass-weighted bias integral divided by the mean matter density. -/
theorem C46_two_halo_large_scale (hs : SplLin E.isp) (ho : h.Ok) (j : ℕ) (hj : j < h.nk)
    (hu : ∀ i < h.nm, h.uh j i = 1 ∧ h.ut j i = 1) :
    ∃ p2, h.power2hCross E = some p2 ∧
      p2 (h.k j) = h.biasEffTracer E *
        (h.S E (fun i => h.m i * h.dndm i * h.bias i) none / h.meanDensity0) * h.phc (h.k j) := by
  obtain ⟨p1, p2, p, e1, e2, e, -, hf⟩ := C46_formula hs ho
  refine ⟨p2, e2, ?_⟩
  rw [(hf j hj).2]
  congr 2
  · unfold HM.biasEffTracer
    congr 1
    refine S_congr hs _ fun i hi => ?_
    rw [(hu i hi).2]; unfold HM.totOccInt; ring
  · congr 1
    refine S_congr hs _ fun i hi => ?_
    rw [(hu i hi).1]; ring

/-- C46 finding: the cross power uses the matter bias *as integrated* and normalised by the mean matter
density, whatever `force_unity_dm_bias` says, while `bias_effective_matter` (used in the matter auto power)
is one when forced and is otherwise normalised by the density in haloes.  The documented large-scale
relation `P_tm = b_t b_m P` therefore holds iff the bias integral happens to equal the mean density (forced),
or the density in haloes does (not forced). -/
theorem C46_two_halo_consistent_iff (hs : SplLin E.isp) (ho : h.Ok) (j : ℕ) (hj : j < h.nk)
    (hu : ∀ i < h.nm, h.uh j i = 1 ∧ h.ut j i = 1) (hb : h.biasEffTracer E ≠ 0) (hp : h.phc (h.k j) ≠ 0)
    (h0 : h.meanDensity0 ≠ 0) (hr : h.rhoGtm ≠ 0)
    (hB : h.S E (fun i => h.m i * h.dndm i * h.bias i) none ≠ 0) :
    ∃ p2, h.power2hCross E = some p2 ∧
      (p2 (h.k j) = h.biasEffTracer E * h.biasEffMatter E * h.phc (h.k j) ↔
        if h.forceUnity then h.S E (fun i => h.m i * h.dndm i * h.bias i) none = h.meanDensity0
        else h.rhoGtm = h.meanDensity0) := by
  obtain ⟨p2, e2, hv⟩ := C46_two_halo_large_scale hs ho j hj hu
  refine ⟨p2, e2, ?_⟩
  rw [hv, mul_left_inj' hp, mul_right_inj' hb]
  unfold HM.biasEffMatter
  cases h.forceUnity
  · simp only [Bool.false_eq_true, if_false]
    rw [div_eq_div_iff h0 hr, mul_right_inj' hB]
  · simp only [if_true]
    rw [div_eq_one_iff_eq h0]

/-- C46: with non-negative quadrature weights, abundances and occupations, and profiles between 0 and 1, the
one-halo cross power is non-negative and never exceeds its large-scale value. -/
theorem C46_one_halo_bounds (hs : SplLin E.isp) (ho : h.Ok) (j : ℕ) (hj : j < h.nk)
    (hw : ∀ i < h.nm, 0 ≤ siW E.isp h.nm h.m h.tracerMmin none i) (hn : ∀ i < h.nm, 0 ≤ h.dndm i)
    (hc : ∀ i < h.nm, 0 ≤ h.cenOccInt i ∧ 0 ≤ h.hod.satOcc (h.m i))
    (hu : ∀ i < h.nm, 0 ≤ h.uh j i ∧ h.uh j i ≤ 1 ∧ 0 ≤ h.ut j i ∧ h.ut j i ≤ 1)
    (hd : 0 < h.meanTracerDen E) (h0 : 0 < h.meanDensity0) :
    ∃ p1, h.power1hCross E = some p1 ∧ 0 ≤ p1 (h.k j) ∧
      p1 (h.k j) ≤ h.S E (fun i => h.m i * h.dndm i * h.totOccInt i) h.tracerMmin / h.meanTracerDen E
        / h.meanDensity0 := by
  obtain ⟨p1, p2, p, e1, e2, e, -, hf⟩ := C46_formula hs ho
  refine ⟨p1, e1, ?_⟩
  rw [(hf j hj).1, div_div]
  have hden : 0 < h.meanTracerDen E * h.meanDensity0 := mul_pos hd h0
  constructor
  · apply div_nonneg _ hden.le
    change 0 ≤ h.S E _ _
    rw [S_sum hs ho]
    refine sum_nonneg fun i hi => ?_
    have hi := mem_range.mp hi
    obtain ⟨u1, u2, u3, u4⟩ := hu i hi
    have := hn i hi; have := hw i hi; have := ho.m.pos i hi
    obtain ⟨c1, c2⟩ := hc i hi
    positivity
  · rw [div_le_div_iff_of_pos_right hden]
    change h.S E _ _ ≤ _
    rw [S_sum hs ho, S_sum hs ho]
    refine sum_le_sum fun i hi => ?_
    have hi := mem_range.mp hi
    obtain ⟨u1, u2, u3, u4⟩ := hu i hi
    have h1 := hn i hi; have h2 := hw i hi; have h3 := (ho.m.pos i hi).le
    obtain ⟨c1, c2⟩ := hc i hi
    apply mul_le_mul_of_nonneg_right _ h2
    have hA : 0 ≤ h.dndm i * h.m i := mul_nonneg h1 h3
    have hB : h.cenOccInt i + h.hod.satOcc (h.m i) * h.ut j i ≤ h.totOccInt i := by
      unfold HM.totOccInt
      have := mul_le_of_le_one_right c2 u4
      linarith
    have hB0 : 0 ≤ h.cenOccInt i + h.hod.satOcc (h.m i) * h.ut j i := by positivity
    calc h.dndm i * h.m i * h.uh j i * (h.cenOccInt i + h.hod.satOcc (h.m i) * h.ut j i)
        ≤ h.dndm i * h.m i * 1 * (h.cenOccInt i + h.hod.satOcc (h.m i) * h.ut j i) := by
          apply mul_le_mul_of_nonneg_right _ hB0
          exact mul_le_mul_of_nonneg_left u2 hA
      _ ≤ h.dndm i * h.m i * 1 * h.totOccInt i := by
          apply mul_le_mul_of_nonneg_left hB; linarith
      _ = h.m i * h.dndm i * h.totOccInt i := by ring

/-- C46: if the tracer is the matter itself (no centrals, satellites proportional to halo mass, the halo
profile, no mass cut, no turnover), the one-halo cross power is the one-halo matter power times the ratio of
the mean matter density to the matter density integrated over the mass grid. -/
theorem C46_matter_as_tracer (hs : SplLin E.isp) (ho : h.Ok) (a : ℝ) (ha : a ≠ 0) (hc : ¬ h.cut)
    (ht : h.turnover = false)
    (hcen : ∀ i < h.nm, h.hod.cenOcc (h.m i) = 0) (hsat : ∀ i < h.nm, h.hod.satOcc (h.m i) = a * h.m i)
    (hu : ∀ j < h.nk, ∀ i < h.nm, h.ut j i = h.uh j i) (h0 : h.meanDensity0 ≠ 0) :
    ∃ pc pm, h.power1hCross E = some pc ∧ h.power1hMatter E = some pm ∧
      ∀ j < h.nk, pc (h.k j) = pm (h.k j) *
        (h.meanDensity0 / h.S E (fun i => h.dndm i * h.m i) none) := by
  obtain ⟨p1, p2, p, e1, e2, e, -, hf⟩ := C46_formula hs ho
  obtain ⟨pm, em, fm, -⟩ := mkES_ok E hs.toSplOk
    { n := h.nk, x := h.k, y := h.power1hMatterTab E, lower := h.oneHaloLower, upper := .powerLaw } rfl rfl ho.k
    (by unfold HM.oneHaloLower; dsimp only; split_ifs <;> simp) (by simp)
  refine ⟨p1, pm, e1, em, fun j hj => ?_⟩
  have hm : h.tracerMmin = none := by unfold HM.tracerMmin; rw [cut_false hc]; simp
  have hci : ∀ i < h.nm, h.cenOccInt i = 0 := fun i hi => by
    unfold HM.cenOccInt; rw [cut_false hc]; simpa using hcen i hi
  have hden : h.meanTracerDen E = a * h.S E (fun i => h.dndm i * h.m i) none := by
    unfold HM.meanTracerDen
    rw [hm, ← S_smul hs]
    refine S_congr hs _ fun i hi => ?_
    unfold HM.totOccInt
    rw [hci i hi, hsat i hi]; ring
  have hnum : splineIntegral E.isp h.nm h.m
            (fun i => h.dndm i * h.m i * h.uh j i * (h.cenOccInt i + h.hod.satOcc (h.m i) * h.ut j i))
            h.tracerMmin none true
      = a * h.S E (fun i => h.dndm i * h.m i ^ 2 * h.uh j i ^ 2) none := by
    rw [hm, ← S_smul hs]
    change h.S E _ none = _
    refine S_congr hs _ fun i hi => ?_
    rw [hci i hi, hsat i hi, hu j hj i hi]; ring
  have htab : pm (h.k j) = h.S E (fun i => h.dndm i * h.m i ^ 2 * h.uh j i ^ 2) none / h.meanDensity0 ^ 2 := by
    rw [fm j hj]
    dsimp only
    unfold HM.power1hMatterTab HM.do1halo HM.oneHaloMmin
    simp only [ht, Bool.false_eq_true, if_false]
    have hlow : h.S E (fun i => h.dndm i * h.m i ^ 2 * h.uh j i ^ 2) (some (h.m 0))
        = h.S E (fun i => h.dndm i * h.m i ^ 2 * h.uh j i ^ 2) none :=
      si_xmin_low hs ho.m _ _ (ho.m.pos 0 ho.nm0) le_rfl _ fun i _ => rfl
    rw [hlow]
  rw [(hf j hj).1, hnum, hden, htab]
  by_cases hS : h.S E (fun i => h.dndm i * h.m i) none = 0
  · rw [hS]; simp
  · field_simp

/-- C46 finding: for a tracer without satellites the tracer factor of the two-halo *cross* power does not
depend on the wavenumber (centrals sit at the halo centre), but in the two-halo tracer *auto* power the
centrals are smeared with the tracer profile as well. -/
theorem C46_centrals_not_smeared (hs : SplLin E.isp) (ho : h.Ok) (hc : h.cut)
    (hsat : ∀ i < h.nm, h.hod.satOcc (h.m i) = 0) (h1 : h.m 0 < 10 ^ h.hod.mmin) (v : ℝ)
    (j : ℕ) (hj : j < h.nk) (hu : ∀ i < h.nm, h.ut j i = v) (hd : h.meanTracerDen E ≠ 0) :
    ∃ p2 q2, h.power2hCross E = some p2 ∧ h.power2hTracer E = some q2 ∧
      p2 (h.k j) = h.biasEffTracer E *
        (h.S E (fun i => h.dndm i * h.bias i * h.m i * h.uh j i) none / h.meanDensity0) * h.phc (h.k j) ∧
      q2 (h.k j) = v ^ 2 * h.biasEffTracer E ^ 2 * h.phc (h.k j) := by
  obtain ⟨p1, p2, p, e1, e2, e, -, hf⟩ := C46_formula hs ho
  obtain ⟨q2, hq, hfn⟩ := power2hPrim_ok (E := E) (h := h) hs ho (noExclRes E (h.tracerExcl E) h.bias)
    (h.biasEffTracer E) false 0
  refine ⟨p2, q2, e2, hq, ?_, ?_⟩
  · rw [(hf j hj).2]
    congr 2
    unfold HM.biasEffTracer
    congr 1
    refine S_congr hs _ fun i hi => ?_
    unfold HM.totOccInt
    rw [hsat i hi]; ring
  · rw [hfn j hj, power2hTab_noExcl _ _ rfl]
    congr 1
    rw [← mul_pow]
    congr 1
    have hm : h.tracerMmin = some (10 ^ h.hod.mmin) := by
      unfold HM.tracerMmin; rw [cut_true hc, if_pos rfl]
    have hx : (h.tracerExcl E).xmin = some (10 ^ h.hod.mmin) := by
      unfold Excl.xmin
      rw [show (h.tracerExcl E).xminArg = some (10 ^ h.hod.mmin) from hm]
      exact if_pos h1
    unfold Excl.splineIntegrate
    rw [hx]
    change splIntegral E.isp h.nm (fun i => Real.log (h.m i)) _ _ (Real.log (h.m (h.nm - 1))) = _
    unfold HM.biasEffTracer HM.S splineIntegral
    rw [hm]
    simp only [if_true, Option.elim]
    rw [mul_div_assoc', eq_div_iff hd, mul_comm, ← splIntegral_smul hs.toSplOk,
      ← splIntegral_smul hs.toSplOk]
    apply splIntegral_congr hs.toSplOk
    intro i hi
    change h.meanTracerDen E * (h.dndm i * h.totOccInt i / h.meanTracerDen E * h.ut j i * h.bias i * h.m i) = _
    rw [hu i hi]
    field_simp

end

/-! ### the hypotheses are met -/

/-- C46_one_halo_large_scale applies to the demo model at its first wavenumber (there both profiles are 1):
its mean host mass is positive. -/
theorem demo_mass_pos : 0 < demoHM.S demoE (fun i => demoHM.m i * demoHM.dndm i * demoHM.totOccInt i)
    demoHM.tracerMmin / demoHM.meanTracerDen demoE := by
  refine div_pos ?_ demo_den
  unfold HM.S splineIntegral splIntegral
  simp only [if_true]
  rw [demo_mmin]
  simp only [Option.elim]
  have hlog := demo_ok.m.log_inc 0 1 (by norm_num) (by norm_num [demoHM])
  have h1 : Real.log (demoHM.m 0) < Real.log (10 ^ (12:ℝ)) :=
    Real.log_lt_log (demo_ok.m.pos 0 (by norm_num [demoHM])) demo_low
  have h2 : Real.log (10 ^ (12:ℝ)) < Real.log (demoHM.m (demoHM.nm - 1)) := by
    apply Real.log_lt_log (by positivity)
    change (10:ℝ) ^ (12:ℝ) < 10 ^ ((11.5:ℝ) + (1:ℕ))
    apply Real.rpow_lt_rpow_of_exponent_lt <;> norm_num
  have p0 := demo_ok.m.pos 0 (by norm_num [demoHM])
  have p1 := demo_ok.m.pos 1 (by norm_num [demoHM])
  have d01 : Real.log (demoHM.m 0) - Real.log (demoHM.m 1) < 0 := by linarith
  have d10 : 0 < Real.log (demoHM.m 1) - Real.log (demoHM.m 0) := by linarith
  have hI : ∀ t, demoE.isp demoHM.nm (fun i => Real.log (demoHM.m i))
      (fun i => demoHM.m i * (demoHM.m i * demoHM.dndm i * demoHM.totOccInt i)) t
      = demoHM.m 0 * ((t - Real.log (demoHM.m 1)) / (Real.log (demoHM.m 0) - Real.log (demoHM.m 1)))
        + demoHM.m 1 * ((t - Real.log (demoHM.m 0)) / (Real.log (demoHM.m 1) - Real.log (demoHM.m 0))) := by
    intro t
    rw [show demoE.isp = polySpl from rfl, show demoHM.nm = 2 from rfl, poly2]
    have e : ∀ i, demoHM.m i * (demoHM.m i * demoHM.dndm i * demoHM.totOccInt i) = demoHM.m i := by
      intro i
      have := demo_integrand i
      linear_combination demoHM.m i * this
    simp only [e]
  rw [intervalIntegral.integral_congr (g := fun t =>
      demoHM.m 0 * ((t - Real.log (demoHM.m 1)) / (Real.log (demoHM.m 0) - Real.log (demoHM.m 1)))
        + demoHM.m 1 * ((t - Real.log (demoHM.m 0)) / (Real.log (demoHM.m 1) - Real.log (demoHM.m 0))))]
  · apply intervalIntegral.intervalIntegral_pos_of_pos_on
    · apply Continuous.intervalIntegrable; fun_prop
    · intro t ht
      have e1 : 0 ≤ (t - Real.log (demoHM.m 1)) / (Real.log (demoHM.m 0) - Real.log (demoHM.m 1)) :=
        div_nonneg_of_nonpos (by have := ht.2; change t < Real.log (demoHM.m 1) at this; linarith) d01.le
      have e2 : 0 < (t - Real.log (demoHM.m 0)) / (Real.log (demoHM.m 1) - Real.log (demoHM.m 0)) :=
        div_pos (by have := ht.1; linarith) d10
      positivity
    · exact h2
  · intro t ht
    rw [Set.uIcc_of_le h2.le] at ht
    simp only
    rw [Set.indicator_of_mem (show t ∈ Set.Icc _ _ from ⟨by linarith [ht.1], ht.2⟩)]
    exact hI t

example : ∃ p1, demoHM.power1hCross demoE = some p1 ∧
    p1 (demoHM.k 0) = (10:ℝ) ^ demoHM.massEff demoE / demoHM.meanDensity0 :=
  C46_one_halo_large_scale demoE_lin demo_ok 0 (by norm_num [demoHM])
    (fun i _ => by simp [demoHM]) demo_mass_pos

example : ∃ p2, demoHM.power2hCross demoE = some p2 ∧ p2 (demoHM.k 0) = demoHM.biasEffTracer demoE *
    (demoHM.S demoE (fun i => demoHM.m i * demoHM.dndm i * demoHM.bias i) none / 1) * 1 := by
  have := C46_two_halo_large_scale demoE_lin demo_ok 0 (by norm_num [demoHM])
    (fun i _ => by simp [demoHM])
  simpa [demoHM] using this

/-- a model without satellites meets the hypotheses of C46_centrals_not_smeared (same grids; satellites
switched off, constant profile 1/2 at the second wavenumber). -/
example (h : HM) (hh : h = { demoHM with hod := { demoHM.hod with satOcc := fun _ => 0 } }) :
    h.cut ∧ h.Ok ∧ (∀ i < h.nm, h.hod.satOcc (h.m i) = 0) ∧ h.m 0 < 10 ^ h.hod.mmin ∧
      ∀ i < h.nm, h.ut 1 i = 1 / 2 := by
  subst hh
  exact ⟨demo_cut, ⟨demo_ok.m, demo_ok.k, demo_ok.r, demo_ok.nm0, demo_ok.nk0, demo_ok.nr0⟩, fun _ _ => rfl,
    demo_low, fun i _ => by simp [demoHM]⟩

/-- C46_one_halo_bounds: its pointwise hypotheses hold for the demo model. -/
example : (∀ i < demoHM.nm, 0 ≤ demoHM.cenOccInt i ∧ 0 ≤ demoHM.hod.satOcc (demoHM.m i)) ∧
    (∀ j i, 0 ≤ demoHM.uh j i ∧ demoHM.uh j i ≤ 1 ∧ 0 ≤ demoHM.ut j i ∧ demoHM.ut j i ≤ 1) := by
  refine ⟨fun i _ => ⟨?_, demo_sat i⟩, fun j i => ?_⟩
  · unfold HM.cenOccInt; rw [cut_true demo_cut, if_pos rfl]; exact zero_le_one
  · simp only [demoHM]; split <;> norm_num

/-- an HOD whose satellites are proportional to halo mass and without a sharp cut (a bulk tracer) meets the
hypotheses of C46_matter_as_tracer. -/
example (h : HM) (hh : h = { demoHM with hod := bulk false (fun m => 3 * m) (fun _ => 0) 11 false, turnover := false }) :
    ¬ h.cut ∧ h.turnover = false ∧ (∀ i < h.nm, h.hod.cenOcc (h.m i) = 0) ∧
      (∀ i < h.nm, h.hod.satOcc (h.m i) = 3 * h.m i) ∧ ∀ j < h.nk, ∀ i < h.nm, h.ut j i = h.uh j i := by
  subst hh
  refine ⟨?_, rfl, fun _ _ => rfl, fun _ _ => rfl, fun _ _ _ _ => rfl⟩
  rintro ⟨h1, -⟩
  exact absurd h1 (by simp [bulk])

end
end Halomod.HaloModel
