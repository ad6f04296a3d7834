import Verif.Props.Converge
import Verif.Lemmas.Converge3
import Verif.Lemmas.Converge4
import Verif.Props.HaloModel2

/-! # C56 continued: number-matched exclusion, and the one-halo correlation of matter -/
namespace Halomod.HaloModel

open Halomod.Exclusion Filter Topology MeasureTheory

theorem ellDens_nonneg (ius : Ius) (junk : Mat) (cls : ExclCls) (hcls : cls = .ngMatched ∨ cls = .ngMatched_) (e : Excl) (ir : ℕ) :
    0 ≤ exclDensityMod ius junk cls e ir := by
  rcases hcls with rfl | rfl
  · change 0 ≤ ellDensityMod ius e ir
    unfold ellDensityMod
    dsimp only
    split <;> exact Real.sqrt_nonneg _
  · exact Real.sqrt_nonneg _

open Classical in
/-- C56: with the number-matched exclusion classes the bias-weighted integral converges to the square of the single
integral over the masses up to which the cumulated number density does not exceed the modified density of the
ellipsoidal exclusion (by more than one part in ten thousand). -/
theorem C56_ng_integrals (ius : Ius) (hi : IusOk ius) (junk : Mat) (cls : ExclCls) (hcls : cls = .ngMatched ∨ cls = .ngMatched_)
    (M0 M1 ρ r : ℝ) (h0 : 0 < M0) (h1 : M0 < M1) (hρ : 0 < ρ) (hr : 0 ≤ r) (D P B : ℝ → ℝ)
    (hD : ContinuousOn D (Set.Icc M0 M1)) (hDpos : ∀ m ∈ Set.Icc M0 M1, 0 < D m)
    (hP : ContinuousOn P (Set.Icc M0 M1)) (hB : ContinuousOn B (Set.Icc M0 M1)) (ir ik : ℕ) :
    Tendsto (fun n => exclIntegrate ius junk cls (refined M0 M1 ρ r D P B n) ir ik) atTop
      (𝓝 ((∫ m in M0..M1, if (∫ x in M0..m, D x) ≤ 1.0001 *
          Real.sqrt (∫ m1 in M0..M1, ∫ m2 in M0..M1, Spec.ellipsoidP (r / (haloRadius ρ m1 + haloRadius ρ m2)) * (D m1 * D m2))
        then P m * B m else 0) ^ 2)) := by
  have hl : Real.log M0 < Real.log M1 := Real.log_lt_log h0 h1
  set a := Real.log M0 with ha
  set b := Real.log M1 with hb
  have hne : cls ≠ .noExclusion := by rcases hcls with rfl | rfl <;> simp
  set S := Real.sqrt (∫ m1 in M0..M1, ∫ m2 in M0..M1, Spec.ellipsoidP (r / (haloRadius ρ m1 + haloRadius ρ m2)) * (D m1 * D m2)) with hS
  have hdens : Tendsto (fun n => exclDensityMod ius junk cls (refined M0 M1 ρ r D P B n) ir) atTop (𝓝 S) := by
    have := C56_densities ius hi junk cls hne M0 M1 ρ r h0 h1 hρ hr D P B hD ir
    have e : (fun n => |exclDensityMod ius junk cls (refined M0 M1 ρ r D P B n) ir|) = fun n => exclDensityMod ius junk cls (refined M0 M1 ρ r D P B n) ir := by
      funext n; exact abs_of_nonneg (ellDens_nonneg ius junk cls hcls _ ir)
    rw [e] at this
    rcases hcls with rfl | rfl <;> exact this
  -- continuous extensions
  have hmemexp : ∀ t ∈ Set.Icc a b, Real.exp t ∈ Set.Icc M0 M1 := fun t ht =>
    ⟨(Real.log_le_iff_le_exp h0).mp ht.1, (Real.le_log_iff_exp_le (h0.trans h1)).mp ht.2⟩
  have hvc := continuousOn_log h0 h1.le hD
  have huc := continuousOn_log h0 h1.le (hP.mul hB)
  set v : ℝ → ℝ := Set.IccExtend hl.le (Set.domRestrict (Set.Icc a b) fun t => D (Real.exp t) * Real.exp t) with hv
  set u : ℝ → ℝ := Set.IccExtend hl.le (Set.domRestrict (Set.Icc a b) fun t => (P * B) (Real.exp t) * Real.exp t) with hu
  have hvC : Continuous v := (continuousOn_iff_continuous_domRestrict.mp hvc).Icc_extend'
  have huC : Continuous u := (continuousOn_iff_continuous_domRestrict.mp huc).Icc_extend'
  have hve : ∀ t ∈ Set.Icc a b, v t = D (Real.exp t) * Real.exp t := fun t ht => by rw [hv, Set.IccExtend_of_mem _ _ ht]; rfl
  have hue : ∀ t ∈ Set.Icc a b, u t = P (Real.exp t) * B (Real.exp t) * Real.exp t := fun t ht => by rw [hu, Set.IccExtend_of_mem _ _ ht]; rfl
  have hvp : ∀ t, 0 < v t := by
    intro t
    rw [hv]
    simp only [Set.IccExtend, Function.comp]
    have := (Set.projIcc a b hl.le t).2
    exact mul_pos (hDpos _ (hmemexp _ this)) (Real.exp_pos _)
  have key := (threshold_tendsto simpson_rule hl huC hvC hvp (fun n => 1.0001 * exclDensityMod ius junk cls (refined M0 M1 ρ r D P B n) ir)
    (1.0001 * S) (hdens.const_mul _) (fun n => mul_nonneg (by norm_num) (ellDens_nonneg ius junk cls hcls _ ir))).pow 2
  have hlim : (∫ t in a..b, if (∫ s in a..t, v s) ≤ 1.0001 * S then u t else 0) =
      ∫ m in M0..M1, if (∫ x in M0..m, D x) ≤ 1.0001 * S then P m * B m else 0 := by
    rw [← log_subst _ h0 h1.le]
    apply intervalIntegral.integral_congr
    intro t ht
    rw [Set.uIcc_of_le hl.le] at ht
    have e1 : ∫ s in a..t, v s = ∫ x in M0..Real.exp t, D x := by
      rw [← log_subst _ h0 (hmemexp t ht).1, Real.log_exp]
      apply intervalIntegral.integral_congr
      intro s hs
      rw [Set.uIcc_of_le ht.1] at hs
      exact hve s ⟨hs.1, hs.2.trans ht.2⟩
    simp only [e1, hue t ht, ite_mul, zero_mul]
  rw [hlim] at key
  refine key.congr fun n => ?_
  obtain ⟨f1, f2, f3⟩ := refined_facts M0 M1 ρ r D P B n
  have hn : (refined M0 M1 ρ r D P B n).n = n + 2 := rfl
  have hgoal : exclIntegrate ius junk cls (refined M0 M1 ρ r D P B n) ir ik =
      simpsonDx (n + 2) (stp a b n) (fun im => masked (ngMask (refined M0 M1 ρ r D P B n) (exclDensityMod ius junk cls (refined M0 M1 ρ r D P B n) ir) im)
        ((refined M0 M1 ρ r D P B n).raw ir ik im)) ^ 2 := by
    rcases hcls with rfl | rfl
    · change ngIntegrate ius _ ir ik = _
      unfold ngIntegrate Excl.splineIntegrate
      rw [f2]; simp only [f1, hn]; rfl
    · change ngIntegrate_ junk _ ir ik = _
      unfold ngIntegrate_
      rw [f1, hn]; rfl
  rw [hgoal]
  congr 1
  refine simpsonDx_congr (by omega) ?_
  intro i hi
  have hcum : ∀ i < n + 2, cumtrapz0 (stp a b n) (fun i => v (a + i * stp a b n)) i =
      cumtrapz0 (stp a b n) (fun i => (refined M0 M1 ρ r D P B n).density i * (refined M0 M1 ρ r D P B n).m i) i := by
    intro i hi
    unfold cumtrapz0
    apply Finset.sum_congr rfl
    intro j hj
    have hj' := Finset.mem_range.mp hj
    beta_reduce
    rw [hve _ (grid_mem hl n j (by omega)), hve _ (grid_mem hl n (j + 1) (by omega))]
    rfl
  have hmask : ngMask (refined M0 M1 ρ r D P B n) (exclDensityMod ius junk cls (refined M0 M1 ρ r D P B n) ir) i ↔
      ¬ cumtrapz0 (stp a b n) (fun i => v (a + i * stp a b n)) i ≤ 1.0001 * exclDensityMod ius junk cls (refined M0 M1 ρ r D P B n) ir := by
    unfold ngMask
    rw [f1, hcum i hi, not_le, one_mul, mul_one]
  unfold masked
  rw [hue _ (grid_mem hl n i hi)]
  by_cases h : cumtrapz0 (stp a b n) (fun i => v (a + i * stp a b n)) i ≤ 1.0001 * exclDensityMod ius junk cls (refined M0 M1 ρ r D P B n) ir
  · rw [if_pos h, if_neg (by rw [hmask]; exact not_not.mpr h)]
    simp only [refined, Excl.raw, one_mul, ← ha, ← hb]
  · rw [if_neg h, if_pos (hmask.mpr h)]

open Halomod.Tools

/-- a halo model on `n + 2` masses spaced evenly in logarithm from `M0` to `M1`, whose mass function, bias and halo
self-convolution are sampled from functions of mass; everything else as in `h`. -/
noncomputable def fine (h : HM) (M0 M1 : ℝ) (D B : ℝ → ℝ) (U T Λ : ℕ → ℝ → ℝ) (n : ℕ) : HM :=
  { h with
    nm := n + 2
    m := fun i => Real.exp (Real.log M0 + i * stp (Real.log M0) (Real.log M1) n)
    dndm := fun i => D (Real.exp (Real.log M0 + i * stp (Real.log M0) (Real.log M1) n))
    bias := fun i => B (Real.exp (Real.log M0 + i * stp (Real.log M0) (Real.log M1) n))
    uh := fun j i => U j (Real.exp (Real.log M0 + i * stp (Real.log M0) (Real.log M1) n))
    ut := fun j i => T j (Real.exp (Real.log M0 + i * stp (Real.log M0) (Real.log M1) n))
    lamH := some fun j i => Λ j (Real.exp (Real.log M0 + i * stp (Real.log M0) (Real.log M1) n))
    dlog10m := stp (Real.log M0) (Real.log M1) n / Real.log 10 }

/-- expected number of tracers the integrals use: where the occupation has a sharp cut and satellites need a central,
one central plus the satellites (the integrals then start at the cut). -/
noncomputable def tracerNumber (hod : HOD.Hod) (m : ℝ) : ℝ :=
  (if hod.sharpCut && (hod.central || hod.inherent) then 1 else hod.cenOcc m) + hod.satOcc m

/-- lowest mass of the integrals. -/
noncomputable def tracerLow (hod : HOD.Hod) (M0 : ℝ) : ℝ :=
  if hod.sharpCut && (hod.central || hod.inherent) then max M0 (10 ^ hod.mmin) else M0

theorem fine_S (E : Env) (hs : SplLin E.isp) (hc : SplConv E.isp) (h : HM) (M0 M1 : ℝ) (h0 : 0 < M0) (h1 : M0 < M1)
    (hcut : h.hod.sharpCut = true → (10:ℝ) ^ h.hod.mmin ≤ M1) (D B : ℝ → ℝ) (U T Λ : ℕ → ℝ → ℝ) (f : ℝ → ℝ) (hf : ContinuousOn f (Set.Icc M0 M1)) :
    Tendsto (fun n => (fine h M0 M1 D B U T Λ n).S E (fun i => f ((fine h M0 M1 D B U T Λ n).m i)) (fine h M0 M1 D B U T Λ n).tracerMmin) atTop
      (𝓝 (∫ m in tracerLow h.hod M0..M1, f m)) := by
  have hmmin : ∀ n, (fine h M0 M1 D B U T Λ n).tracerMmin = if h.hod.sharpCut && (h.hod.central || h.hod.inherent) then some (10 ^ h.hod.mmin) else none := fun n => rfl
  have hlow : tracerLow h.hod M0 = max M0 ((if h.hod.sharpCut && (h.hod.central || h.hod.inherent) then some ((10:ℝ) ^ h.hod.mmin) else none).getD M0) := by
    unfold tracerLow
    split_ifs <;> simp
  rw [hlow]
  refine (si_tendsto hs hc h0 h1 _ ?_ hf)
  intro x hx
  split_ifs at hx with hb
  · rw [Option.mem_some_iff] at hx
    subst hx
    exact ⟨by positivity, hcut (by rw [Bool.and_eq_true] at hb; exact hb.1)⟩
  · simp at hx

theorem C56_tracer_mean (E : Env) (hs : SplLin E.isp) (hc : SplConv E.isp) (h : HM) (M0 M1 : ℝ) (h0 : 0 < M0) (h1 : M0 < M1)
    (hcut : h.hod.sharpCut = true → (10:ℝ) ^ h.hod.mmin ≤ M1) (D B : ℝ → ℝ) (U T Λ : ℕ → ℝ → ℝ)
    (hD : ContinuousOn D (Set.Icc M0 M1)) (hN : ContinuousOn (tracerNumber h.hod) (Set.Icc M0 M1)) :
    Tendsto (fun n => (fine h M0 M1 D B U T Λ n).meanTracerDen E) atTop (𝓝 (∫ m in tracerLow h.hod M0..M1, D m * tracerNumber h.hod m)) :=
  fine_S E hs hc h M0 M1 h0 h1 hcut D B U T Λ (fun m => D m * tracerNumber h.hod m) (hD.mul hN)

/-- C56: on finer and finer mass grids the mean tracer density, the effective bias, the effective mass and the satellite
fraction converge to the documented integrals over halo mass, for every spline that converges to the continuous
functions it samples. -/
theorem C56_tracer (E : Env) (hs : SplLin E.isp) (hc : SplConv E.isp) (h : HM) (M0 M1 : ℝ) (h0 : 0 < M0) (h1 : M0 < M1)
    (hcut : h.hod.sharpCut = true → (10:ℝ) ^ h.hod.mmin ≤ M1) (D B : ℝ → ℝ) (U T Λ : ℕ → ℝ → ℝ)
    (hD : ContinuousOn D (Set.Icc M0 M1)) (hB : ContinuousOn B (Set.Icc M0 M1))
    (hN : ContinuousOn (tracerNumber h.hod) (Set.Icc M0 M1)) (hS : ContinuousOn h.hod.satOcc (Set.Icc M0 M1)) :
    Tendsto (fun n => (fine h M0 M1 D B U T Λ n).meanTracerDen E) atTop (𝓝 (∫ m in tracerLow h.hod M0..M1, D m * tracerNumber h.hod m)) ∧
    ((∫ m in tracerLow h.hod M0..M1, D m * tracerNumber h.hod m) ≠ 0 →
      Tendsto (fun n => (fine h M0 M1 D B U T Λ n).biasEffTracer E) atTop
        (𝓝 ((∫ m in tracerLow h.hod M0..M1, D m * tracerNumber h.hod m * B m) / ∫ m in tracerLow h.hod M0..M1, D m * tracerNumber h.hod m)) ∧
      Tendsto (fun n => (fine h M0 M1 D B U T Λ n).satFrac E) atTop
        (𝓝 ((∫ m in tracerLow h.hod M0..M1, D m * h.hod.satOcc m) / ∫ m in tracerLow h.hod M0..M1, D m * tracerNumber h.hod m)) ∧
      ((∫ m in tracerLow h.hod M0..M1, m * D m * tracerNumber h.hod m) ≠ 0 →
        Tendsto (fun n => (10:ℝ) ^ (fine h M0 M1 D B U T Λ n).massEff E) atTop
          (𝓝 (|(∫ m in tracerLow h.hod M0..M1, m * D m * tracerNumber h.hod m) / ∫ m in tracerLow h.hod M0..M1, D m * tracerNumber h.hod m|)))) := by
  have hgen := fine_S E hs hc h M0 M1 h0 h1 hcut D B U T Λ
  have hmean := C56_tracer_mean E hs hc h M0 M1 h0 h1 hcut D B U T Λ hD hN
  refine ⟨hmean, fun hne => ⟨?_, ?_, fun hne2 => ?_⟩⟩
  · exact (hgen (fun m => D m * tracerNumber h.hod m * B m) ((hD.mul hN).mul hB)).div hmean hne
  · exact (hgen (fun m => D m * h.hod.satOcc m) (hD.mul hS)).div hmean hne
  · have hr := ((hgen (fun m => m * D m * tracerNumber h.hod m) ((continuousOn_id.mul hD).mul hN)).div hmean hne)
    have hne3 : (∫ m in tracerLow h.hod M0..M1, m * D m * tracerNumber h.hod m) / (∫ m in tracerLow h.hod M0..M1, D m * tracerNumber h.hod m) ≠ 0 := div_ne_zero hne2 hne
    refine (hr.abs).congr' ?_
    filter_upwards [hr.eventually_ne hne3] with n hn
    unfold HM.massEff HOD.log10 Real.logb
    rw [Real.rpow_def_of_pos (by norm_num : (0:ℝ) < 10), mul_div_cancel₀ _ (by have := Real.log_pos (by norm_num : (1:ℝ) < 10); linarith), Real.exp_log_eq_abs]
    · rfl
    · exact hn

/-- C56: the effective bias of matter converges to the documented integral over halo mass, divided by the mean density in
haloes. -/
theorem C56_matter_bias (E : Env) (hs : SplLin E.isp) (hc : SplConv E.isp) (h : HM) (hu : h.forceUnity = false) (M0 M1 : ℝ) (h0 : 0 < M0) (h1 : M0 < M1)
    (D B : ℝ → ℝ) (U T Λ : ℕ → ℝ → ℝ) (hD : ContinuousOn D (Set.Icc M0 M1)) (hB : ContinuousOn B (Set.Icc M0 M1)) :
    Tendsto (fun n => (fine h M0 M1 D B U T Λ n).biasEffMatter E) atTop (𝓝 ((∫ m in M0..M1, m * D m * B m) / h.rhoGtm)) := by
  have key := (si_tendsto hs hc h0 h1 none (by simp) ((continuousOn_id.mul hD).mul hB)).div_const h.rhoGtm
  rw [Option.getD_none, max_self] at key
  refine key.congr fun n => ?_
  unfold HM.biasEffMatter
  rw [if_neg (by simp [fine, hu])]
  rfl

theorem fine_ok (h : HM) (ho : h.Ok) (M0 M1 : ℝ) (h0 : 0 < M0) (h1 : M0 < M1) (D B : ℝ → ℝ) (U T Λ : ℕ → ℝ → ℝ) (n : ℕ) :
    (fine h M0 M1 D B U T Λ n).Ok := by
  have hh := stp_pos (Real.log_lt_log h0 h1) n
  refine { m := ⟨fun i _ => Real.exp_pos _, fun i k hik _ => Real.exp_lt_exp.mpr ?_⟩, k := ho.k, r := ho.r, nm0 := by simp [fine], nk0 := ho.nk0, nr0 := ho.nr0 }
  have : (i:ℝ) < k := by exact_mod_cast hik
  nlinarith

theorem fine_m0 (h : HM) (M0 M1 : ℝ) (h0 : 0 < M0) (D B : ℝ → ℝ) (U T Λ : ℕ → ℝ → ℝ) (n : ℕ) :
    (fine h M0 M1 D B U T Λ n).m 0 = M0 := by
  simp [fine, Real.exp_log h0]

/-- C56: for every wavenumber of the grid the one-halo power spectra of matter and of the tracers converge to the
documented integrals over halo mass, from the lowest mass (the turnover of large scales included) up. -/
theorem C56_one_halo_power (E : Env) (hs : SplLin E.isp) (hc : SplConv E.isp) (h : HM) (ho : h.Ok) (M0 M1 : ℝ)
    (h0 : 0 < M0) (h1 : M0 < M1) (D B : ℝ → ℝ) (U T Λ : ℕ → ℝ → ℝ) (hD : ContinuousOn D (Set.Icc M0 M1))
    (hU : ∀ j, ContinuousOn (U j) (Set.Icc M0 M1)) (hT : ∀ j, ContinuousOn (T j) (Set.Icc M0 M1))
    (hN : ContinuousOn (tracerNumber h.hod) (Set.Icc M0 M1)) (hcs : ContinuousOn h.hod.csPairs (Set.Icc M0 M1))
    (hss : ContinuousOn h.hod.ssPairs (Set.Icc M0 M1)) (hcut : h.hod.sharpCut = true → (10:ℝ) ^ h.hod.mmin ≤ M1)
    (hne : (∫ m in tracerLow h.hod M0..M1, D m * tracerNumber h.hod m) ≠ 0)
    (j : ℕ) (hj : j < h.nk) (hlo : h.oneHaloMmin M0 j ≤ M1) (hlo2 : 0 < h.oneHaloMmin h.hod.mmin j ∧ h.oneHaloMmin h.hod.mmin j ≤ M1) :
    ∃ P Q : ℕ → ℝ → ℝ, (∀ n, (fine h M0 M1 D B U T Λ n).power1hMatter E = some (P n)) ∧
      (∀ n, (fine h M0 M1 D B U T Λ n).power1hTracer E = some (Q n)) ∧
      Tendsto (fun n => P n (h.k j)) atTop (𝓝 ((∫ m in h.oneHaloMmin M0 j..M1, D m * m ^ 2 * U j m ^ 2) / h.meanDensity0 ^ 2)) ∧
      Tendsto (fun n => Q n (h.k j)) atTop (𝓝 ((∫ m in max M0 (h.oneHaloMmin h.hod.mmin j)..M1,
        D m * (2 * h.hod.csPairs m * T j m + h.hod.ssPairs m * T j m ^ 2)) / (∫ m in tracerLow h.hod M0..M1, D m * tracerNumber h.hod m) ^ 2)) := by
  have hok := fine_ok h ho M0 M1 h0 h1 D B U T Λ
  choose P hP using fun n => power1hMatter_ok (E := E) hs (hok n)
  choose Q cs ss hQ using fun n => C36_one_halo_power (E := E) hs (hok n)
  refine ⟨P, Q, fun n => (hP n).1, fun n => (hQ n).1, ?_, ?_⟩
  · have hmin : M0 ≤ h.oneHaloMmin M0 j := by
      unfold HM.oneHaloMmin; dsimp only; split_ifs
      · exact le_max_left _ _
      · exact le_rfl
    have key := (si_tendsto hs hc h0 h1 (some (h.oneHaloMmin M0 j)) (by
      intro x hx
      rw [Option.mem_some_iff] at hx; subst hx
      exact ⟨h0.trans_le hmin, hlo⟩) ((hD.mul (continuousOn_id.pow 2)).mul ((hU j).pow 2))).div_const (h.meanDensity0 ^ 2)
    rw [Option.getD_some, max_eq_right hmin] at key
    refine key.congr fun n => ?_
    have e := (hP n).2 j hj
    have e0 : (fine h M0 M1 D B U T Λ n).k j = h.k j := rfl
    rw [← e0, e]
    unfold HM.power1hMatterTab HM.do1halo
    rw [fine_m0 h M0 M1 h0]
    rfl
  · have key := (si_tendsto hs hc h0 h1 (some (h.oneHaloMmin h.hod.mmin j)) (by
      intro x hx
      rw [Option.mem_some_iff] at hx; subst hx
      exact hlo2) (hD.mul (((continuousOn_const (c := (2:ℝ))).mul hcs |>.mul (hT j)).add (hss.mul ((hT j).pow 2))))).div
      ((C56_tracer_mean E hs hc h M0 M1 h0 h1 hcut D B U T Λ hD hN).pow 2) (pow_ne_zero 2 hne)
    rw [Option.getD_some] at key
    refine key.congr fun n => ?_
    have e := (hQ n).2.2.2.2 j hj
    have e0 : (fine h M0 M1 D B U T Λ n).k j = h.k j := rfl
    rw [← e0, e]
    rfl

/-- C56: at every tabulated separation the one-halo correlation of matter, for profiles with an analytic
self-convolution, converges to the documented integral over halo mass. -/
theorem C56_one_halo_corr (E : Env) (hs : SplLin E.isp) (h : HM) (ho : h.Ok) (M0 M1 : ℝ) (h0 : 0 < M0) (h1 : M0 < M1)
    (D B : ℝ → ℝ) (U T Λ : ℕ → ℝ → ℝ) (hD : ContinuousOn D (Set.Icc M0 M1)) (hΛ : ∀ j, ContinuousOn (Λ j) (Set.Icc M0 M1)) (j : ℕ) (hj : j < h.nr) :
    ∃ ξ : ℕ → ℝ → ℝ, (∀ n, (fine h M0 M1 D B U T Λ n).corr1hMatter E = some (ξ n)) ∧
      Tendsto (fun n => ξ n (h.rt j)) atTop (𝓝 ((∫ m in M0..M1, D m * m ^ 2 * Λ j m) / h.meanDensity0 ^ 2 - 1)) := by
  have hok := fine_ok h ho M0 M1 h0 h1 D B U T Λ
  choose ξ hξ using fun n => corrES_ok (E := E) hs (hok n) fun i =>
    trapzDx (fine h M0 M1 D B U T Λ n).nm (Real.log 10 * (fine h M0 M1 D B U T Λ n).dlog10m)
      (fun j => (fine h M0 M1 D B U T Λ n).dndm j * (fine h M0 M1 D B U T Λ n).m j ^ 3 *
        Λ i (Real.exp (Real.log M0 + j * stp (Real.log M0) (Real.log M1) n))) / h.meanDensity0 ^ 2 - 1
  refine ⟨ξ, fun n => (hξ n).1, ?_⟩
  have hcont := continuousOn_log h0 h1.le ((hD.mul (continuousOn_id.pow 2)).mul (hΛ j))
  have key := ((rule_tendsto trapz_rule (Real.log_lt_log h0 h1) hcont).div_const (h.meanDensity0 ^ 2)).sub_const 1
  rw [log_subst _ h0 h1.le] at key
  refine key.congr fun n => ?_
  have e := (hξ n).2 j hj
  have e0 : (fine h M0 M1 D B U T Λ n).rt j = h.rt j := rfl
  rw [← e0, e]
  have e1 : Real.log 10 * (fine h M0 M1 D B U T Λ n).dlog10m = stp (Real.log M0) (Real.log M1) n := by
    have := Real.log_pos (by norm_num : (1:ℝ) < 10)
    simp only [fine]; field_simp
  rw [e1]
  simp only [fine, Pi.mul_apply, Pi.pow_apply, id]
  congr 3
  funext i
  ring

/-- the occupation of the Zheng05 HOD is continuous in mass, with or without the central condition. -/
theorem zheng_continuous (p : HOD.ZhengP) (hα : 0 < p.alpha) (central : Bool) (M0 M1 : ℝ) (h0 : 0 < M0) :
    ContinuousOn (tracerNumber (HOD.zheng05 p central)) (Set.Icc M0 M1) ∧ ContinuousOn (HOD.zheng05 p central).satOcc (Set.Icc M0 M1) ∧
    ContinuousOn (HOD.zheng05 p central).csPairs (Set.Icc M0 M1) ∧ ContinuousOn (HOD.zheng05 p central).ssPairs (Set.Icc M0 M1) := by
  have hlog : ContinuousOn (fun m => HOD.log10 m) (Set.Icc M0 M1) := by
    unfold HOD.log10
    intro m hm
    have : m ≠ 0 := (h0.trans_le hm.1).ne'
    exact ((Real.continuousAt_log this).div_const _).continuousWithinAt
  have hcen : ContinuousOn (HOD.zhengCen p) (Set.Icc M0 M1) := by
    unfold HOD.zhengCen
    exact continuousOn_const.mul (continuousOn_const.add (erf_continuous.comp_continuousOn ((hlog.sub continuousOn_const).div_const _)))
  have hsatE : HOD.zhengSat p = fun m => (max 0 ((m - 10 ^ p.M_0) / 10 ^ p.M_1)) ^ p.alpha := by
    funext m
    have hp : (0:ℝ) < 10 ^ p.M_1 := by positivity
    unfold HOD.zhengSat
    split_ifs with h
    · rw [max_eq_right (div_nonneg (by linarith) hp.le)]
    · rw [max_eq_left (div_nonpos_of_nonpos_of_nonneg (by linarith [not_lt.mp h]) hp.le), Real.zero_rpow hα.ne']
  have hsat : Continuous (HOD.zhengSat p) := by
    rw [hsatE]
    apply Continuous.rpow_const
    · fun_prop
    · intro m; right; exact hα.le
  have hs : ContinuousOn (HOD.zheng05 p central).satOcc (Set.Icc M0 M1) := by
    cases central with
    | false => exact hsat.continuousOn
    | true => exact (hcen.div_const 1).mul hsat.continuousOn
  refine ⟨?_, hs, ?_, hs.pow 2⟩
  · exact hcen.add hs
  · cases central with
    | false => exact hcen.mul hs
    | true => exact hs.mul continuousOn_const

/-- C56: with the Zheng05 HOD and any mass function and bias continuous in mass, the derived tracer quantities converge
to the documented integrals. -/
theorem C56_tracer_zheng05 (E : Env) (hs : SplLin E.isp) (hc : SplConv E.isp) (h : HM) (p : HOD.ZhengP) (hα : 0 < p.alpha) (central : Bool)
    (hh : h.hod = HOD.zheng05 p central) (M0 M1 : ℝ) (h0 : 0 < M0) (h1 : M0 < M1) (D B : ℝ → ℝ) (U T Λ : ℕ → ℝ → ℝ)
    (hD : ContinuousOn D (Set.Icc M0 M1)) (hB : ContinuousOn B (Set.Icc M0 M1)) (hpos : ∀ m ∈ Set.Icc M0 M1, 0 < D m) :
    0 < ∫ m in M0..M1, D m * (h.hod.cenOcc m + h.hod.satOcc m) ∧
    Tendsto (fun n => (fine h M0 M1 D B U T Λ n).meanTracerDen E) atTop (𝓝 (∫ m in M0..M1, D m * (h.hod.cenOcc m + h.hod.satOcc m))) ∧
    Tendsto (fun n => (fine h M0 M1 D B U T Λ n).biasEffTracer E) atTop
      (𝓝 ((∫ m in M0..M1, D m * (h.hod.cenOcc m + h.hod.satOcc m) * B m) / ∫ m in M0..M1, D m * (h.hod.cenOcc m + h.hod.satOcc m))) ∧
    Tendsto (fun n => (fine h M0 M1 D B U T Λ n).satFrac E) atTop
      (𝓝 ((∫ m in M0..M1, D m * h.hod.satOcc m) / ∫ m in M0..M1, D m * (h.hod.cenOcc m + h.hod.satOcc m))) := by
  obtain ⟨c1, c2, c3, c4⟩ := zheng_continuous p hα central M0 M1 h0
  have hsc : h.hod.sharpCut = false := by rw [hh]; rfl
  have hlow : tracerLow h.hod M0 = M0 := by unfold tracerLow; simp [hsc]
  have hnum : ∀ m, tracerNumber h.hod m = h.hod.cenOcc m + h.hod.satOcc m := by intro m; unfold tracerNumber; simp [hsc]
  have key := C56_tracer E hs hc h M0 M1 h0 h1 (by rw [hsc]; simp) D B U T Λ hD hB (by rw [hh]; exact c1) (by rw [hh]; exact c2)
  rw [hlow] at key
  simp only [hnum] at key
  have hposN : ∀ m ∈ Set.Ioc M0 M1, 0 < D m * (h.hod.cenOcc m + h.hod.satOcc m) := by
    intro m hm
    have hmI : m ∈ Set.Icc M0 M1 := ⟨hm.1.le, hm.2⟩
    have hcp : 0 < HOD.zhengCen p m := by
      unfold HOD.zhengCen
      have := erf_lt_one (-((HOD.log10 m - p.M_min) / p.sig_logm))
      rw [erf_neg] at this
      have h2 : 0 < 1 + erf ((HOD.log10 m - p.M_min) / p.sig_logm) := by linarith
      linarith
    have hsp : 0 ≤ HOD.zhengSat p m := by
      unfold HOD.zhengSat
      split_ifs with h
      · exact Real.rpow_nonneg (div_nonneg (by linarith) (by positivity)) _
      · exact le_rfl
    have hso : 0 ≤ (HOD.zheng05 p central).satOcc m := by
      cases central with
      | false => exact hsp
      | true => exact mul_nonneg (div_nonneg hcp.le (by norm_num)) hsp
    have : (HOD.zheng05 p central).cenOcc m = HOD.zhengCen p m := rfl
    rw [hh, this]
    exact mul_pos (hpos m hmI) (by linarith)
  have hint : 0 < ∫ m in M0..M1, D m * (h.hod.cenOcc m + h.hod.satOcc m) := by
    apply intervalIntegral.intervalIntegral_pos_of_pos_on _ (fun m hm => hposN m ⟨hm.1, hm.2.le⟩) h1
    have : ContinuousOn (fun m => D m * (h.hod.cenOcc m + h.hod.satOcc m)) (Set.uIcc M0 M1) := by
      rw [Set.uIcc_of_le h1.le]
      have := hD.mul (by rw [← hh] at c1; exact c1)
      refine this.congr fun m _ => by simp only [Pi.mul_apply, hnum]
    exact this.intervalIntegrable
  exact ⟨hint, key.1, (key.2 hint.ne').1, (key.2 hint.ne').2.1⟩

/-- the hypotheses on the spline are met by piecewise-linear interpolation -/
example : SplLin linSpl ∧ SplConv linSpl := ⟨linSpl_lin, linSpl_conv⟩

/-- with the Zheng05 HOD, a power-law mass function, linear bias, and the mass range of the default halo model -/
example (h : HM) : ∃ L, 0 < L ∧
    Tendsto (fun n => (fine { h with hod := HOD.zheng05 {} false } 1e11 1e15 (fun m => m⁻¹) (fun m => m) (fun _ _ => 1) (fun _ _ => 1) (fun _ _ => 1) n).meanTracerDen
      { isp := linSpl, us := fun _ _ _ _ => 0, hankel := fun _ _ => 0 }) atTop (𝓝 L) := by
  have := C56_tracer_zheng05 { isp := linSpl, us := fun _ _ _ _ => 0, hankel := fun _ _ => 0 } linSpl_lin linSpl_conv { h with hod := HOD.zheng05 {} false } {}
    (by norm_num) false rfl 1e11 1e15 (by norm_num) (by norm_num) (fun m => m⁻¹) (fun m => m) (fun _ _ => 1) (fun _ _ => 1) (fun _ _ => 1)
    (continuousOn_inv₀.mono fun m hm => by
      have := hm.1
      simp only [Set.mem_compl_iff, Set.mem_singleton_iff]
      intro h0
      rw [h0] at this
      norm_num at this)
    continuousOn_id (fun m hm => inv_pos.mpr (lt_of_lt_of_le (by norm_num) hm.1))
  exact ⟨_, this.1, this.2.1⟩

end Halomod.HaloModel
