import Verif.Props.Converge3
import Verif.Props.ScaleDep2

/-! # C56 and C44: the two-halo terms on finer and finer mass grids -/
namespace Halomod.HaloModel

open Filter Topology MeasureTheory Halomod.Tools Halomod.HOD Halomod.Exclusion

/-- the mass integral of an exclusion object of the refined halo model, whatever its rule. -/
theorem excl_spline_tendsto {isp : Spl} (hs : SplLin isp) (hc : SplConv isp) {M0 M1 : ℝ} (h0 : 0 < M0) (h1 : M0 < M1) (x : Option ℝ)
    (hx : ∀ v ∈ x, 0 < v ∧ v ≤ M1) (e : ℕ → Excl) (hen : ∀ n, (e n).n = n + 2)
    (hem : ∀ n, (e n).m = fun i : ℕ => Real.exp (Real.log M0 + i * stp (Real.log M0) (Real.log M1) n)) (hex : ∀ n, (e n).xminArg = x)
    {f : ℝ → ℝ} (hf : ContinuousOn f (Set.Icc M0 M1)) :
    Tendsto (fun n => (e n).splineIntegrate (fun n x y a c => splIntegral isp n x y a c) fun i => f ((e n).m i) * (e n).m i) atTop
      (𝓝 (∫ m in (max M0 (x.getD M0))..M1, f m)) := by
  have hl := Real.log_lt_log h0 h1
  have hfl := continuousOn_log h0 h1.le hf
  have em0 : ∀ n, (e n).m 0 = M0 := fun n => by rw [hem]; simp [Real.exp_log h0]
  have edl : ∀ n, (e n).dlnx = stp (Real.log M0) (Real.log M1) n := by
    intro n
    unfold Excl.dlnx
    rw [hem, ← Real.exp_sub, Real.log_exp]
    push_cast; ring
  have base : Tendsto (fun n : ℕ => simpsonDx (e n).n (e n).dlnx fun i => f ((e n).m i) * (e n).m i) atTop (𝓝 (∫ m in M0..M1, f m)) := by
    have key := rule_tendsto simpson_rule hl hfl
    rw [log_subst f h0 h1.le] at key
    refine key.congr fun n => ?_
    rw [edl, hen, hem]
  have none_case : (∀ n, (e n).xmin = none) → Tendsto (fun n => (e n).splineIntegrate (fun n x y a c => splIntegral isp n x y a c) fun i => f ((e n).m i) * (e n).m i) atTop
      (𝓝 (∫ m in M0..M1, f m)) := by
    intro h
    refine base.congr fun n => ?_
    unfold Excl.splineIntegrate
    rw [h]
  cases x with
  | none =>
    rw [Option.getD_none, max_self]
    exact none_case fun n => by unfold Excl.xmin; rw [hex]
  | some v =>
    obtain ⟨hv0, hv1⟩ := hx v rfl
    rw [Option.getD_some]
    by_cases hlt : M0 < v
    · rw [max_eq_right hlt.le]
      have key := spl_tendsto hs hc hl (c := Real.log v) ⟨Real.log_le_log h0 hlt.le, Real.log_le_log hv0 hv1⟩ hfl
      rw [log_subst f hv0 hv1] at key
      refine key.congr fun n => ?_
      unfold Excl.splineIntegrate
      have hxm : (e n).xmin = some v := by
        unfold Excl.xmin; rw [hex]; dsimp only; rw [em0, if_pos hlt]
      rw [hxm]
      dsimp only
      have hlast : Real.log ((e n).m ((e n).n - 1)) = Real.log M1 := by
        rw [hem, hen, Real.log_exp]
        exact glast n
      rw [hlast, hen, hem]
      simp only [Real.log_exp]
    · rw [max_eq_left (not_lt.1 hlt)]
      refine none_case fun n => ?_
      unfold Excl.xmin; rw [hex]; dsimp only; rw [em0, if_neg hlt]

theorem tracerLow_eq (hod : Hod) (M0 : ℝ) : tracerLow hod M0 =
    max M0 ((if hod.sharpCut && (hod.central || hod.inherent) then some ((10:ℝ) ^ hod.mmin) else none).getD M0) := by
  unfold tracerLow
  split_ifs <;> simp

/-- C56: for every wavenumber of the grid and without halo exclusion, the two-halo power spectra of the tracers and of
matter converge to the square of the documented bias-weighted integral over halo mass, times the power of halo centres;
when the matter bias is forced to unity, divided by the square of the same integral without profile. -/
theorem C56_two_halo_power (E : Env) (hs : SplLin E.isp) (hc : SplConv E.isp) (h : HM) (ho : h.Ok) (M0 M1 : ℝ) (h0 : 0 < M0) (h1 : M0 < M1)
    (hcut : h.hod.sharpCut = true → (10:ℝ) ^ h.hod.mmin ≤ M1) (D B : ℝ → ℝ) (U T Λ : ℕ → ℝ → ℝ)
    (hD : ContinuousOn D (Set.Icc M0 M1)) (hB : ContinuousOn B (Set.Icc M0 M1))
    (hU : ∀ j, ContinuousOn (U j) (Set.Icc M0 M1)) (hT : ∀ j, ContinuousOn (T j) (Set.Icc M0 M1))
    (hN : ContinuousOn (tracerNumber h.hod) (Set.Icc M0 M1)) (hr : h.rhoGtm ≠ 0)
    (hne : (∫ m in tracerLow h.hod M0..M1, D m * tracerNumber h.hod m) ≠ 0) (hmb : (∫ m in M0..M1, m * D m * B m) ≠ 0) :
    ∃ P Q : ℕ → ℝ → ℝ, (∀ n, (fine h M0 M1 D B U T Λ n).power2hTracer E = some (P n)) ∧
      (∀ n, (fine h M0 M1 D B U T Λ n).power2hMatter E = some (Q n)) ∧ ∀ j < h.nk,
      Tendsto (fun n => P n (h.k j)) atTop (𝓝 (((∫ m in tracerLow h.hod M0..M1, D m * tracerNumber h.hod m * B m * T j m) /
        ∫ m in tracerLow h.hod M0..M1, D m * tracerNumber h.hod m) ^ 2 * h.phc (h.k j))) ∧
      Tendsto (fun n => Q n (h.k j)) atTop (𝓝 (((∫ m in M0..M1, m * D m * B m * U j m) /
        (if h.forceUnity then ∫ m in M0..M1, m * D m * B m else h.rhoGtm)) ^ 2 * h.phc (h.k j))) := by
  have hok := fine_ok h ho M0 M1 h0 h1 D B U T Λ
  have hi := ius_ok (E := E) hs
  choose P hP using fun n => power2hPrim_ok (E := E) hs (hok n) (noExclRes E ((fine h M0 M1 D B U T Λ n).tracerExcl E) (fine h M0 M1 D B U T Λ n).bias)
    ((fine h M0 M1 D B U T Λ n).biasEffTracer E) false 0
  choose Q hQ using fun n => power2hPrim_ok (E := E) hs (hok n) (noExclRes E (fine h M0 M1 D B U T Λ n).matterExcl (fine h M0 M1 D B U T Λ n).bias)
    ((fine h M0 M1 D B U T Λ n).biasEffMatter E) (fine h M0 M1 D B U T Λ n).forceUnity 0
  refine ⟨P, Q, fun n => (hP n).1, fun n => (hQ n).1, fun j hj => ⟨?_, ?_⟩⟩
  · have key := excl_spline_tendsto hs hc h0 h1 (if h.hod.sharpCut && (h.hod.central || h.hod.inherent) then some ((10:ℝ) ^ h.hod.mmin) else none)
      (by
        intro v hv
        split_ifs at hv with hb
        · rw [Option.mem_some_iff] at hv
          subst hv
          exact ⟨by positivity, hcut (by rw [Bool.and_eq_true] at hb; exact hb.1)⟩
        · simp at hv) (fun n => (fine h M0 M1 D B U T Λ n).tracerExcl E) (fun n => rfl) (fun n => rfl) (fun n => rfl)
      (((hD.mul hN).mul hB).mul (hT j))
    rw [← tracerLow_eq] at key
    have key2 := ((key.div (C56_tracer_mean E hs hc h M0 M1 h0 h1 hcut D B U T Λ hD hN) hne).pow 2).mul_const (h.phc (h.k j))
    refine key2.congr fun n => ?_
    have e0 : (fine h M0 M1 D B U T Λ n).k j = h.k j := rfl
    rw [← e0, (hP n).2 j hj]
    unfold HM.power2hTab noExclRes noExclIntegrate noExclDensityMod
    simp only [Bool.false_eq_true, if_false, mul_one]
    change _ = _ ^ 2 * h.phc (h.k j)
    congr 2
    rw [Pi.div_apply, div_eq_inv_mul, ← splineIntegrate_smul hi]
    congr 1
    funext i
    simp only [Pi.mul_apply, HM.tracerExcl]
    change _ = D ((fine h M0 M1 D B U T Λ n).m i) * tracerNumber h.hod ((fine h M0 M1 D B U T Λ n).m i) / _ * T j ((fine h M0 M1 D B U T Λ n).m i) *
      B ((fine h M0 M1 D B U T Λ n).m i) * _
    ring
  · have key := excl_spline_tendsto hs hc h0 h1 none (by simp) (fun n => (fine h M0 M1 D B U T Λ n).matterExcl) (fun n => rfl) (fun n => rfl) (fun n => rfl)
      (f := fun m => m * D m * B m * U j m) (((continuousOn_id.mul hD).mul hB).mul (hU j))
    rw [Option.getD_none, max_self] at key
    have hint : ∀ n, (fine h M0 M1 D B U T Λ n).matterExcl.splineIntegrate (fun n x y a c => splIntegral E.isp n x y a c)
        (fun im => (fine h M0 M1 D B U T Λ n).matterExcl.pint j im * (fine h M0 M1 D B U T Λ n).bias im * (fine h M0 M1 D B U T Λ n).matterExcl.m im) =
        ((fine h M0 M1 D B U T Λ n).matterExcl.splineIntegrate (fun n x y a c => splIntegral E.isp n x y a c)
        fun i => (fun m => m * D m * B m * U j m) ((fine h M0 M1 D B U T Λ n).matterExcl.m i) * (fine h M0 M1 D B U T Λ n).matterExcl.m i) / h.rhoGtm := by
      intro n
      rw [div_eq_inv_mul, ← splineIntegrate_smul hi]
      congr 1
      funext i
      simp only [HM.matterExcl, fine]
      ring
    have e0 : ∀ n, (fine h M0 M1 D B U T Λ n).k j = h.k j := fun n => rfl
    have eq : ∀ n, Q n (h.k j) = (((fine h M0 M1 D B U T Λ n).matterExcl.splineIntegrate (fun n x y a c => splIntegral E.isp n x y a c)
        fun i => (fun m => m * D m * B m * U j m) ((fine h M0 M1 D B U T Λ n).matterExcl.m i) * (fine h M0 M1 D B U T Λ n).matterExcl.m i) / h.rhoGtm) ^ 2 *
        (if h.forceUnity then (1 / splineIntegral E.isp (n + 2) (fine h M0 M1 D B U T Λ n).m
          (fun i => (fine h M0 M1 D B U T Λ n).matterExcl.density i * (fine h M0 M1 D B U T Λ n).bias i) none none true) ^ 2 else 1) * h.phc (h.k j) := by
      intro n
      rw [← e0 n, (hQ n).2 j hj, ← hint]
      unfold HM.power2hTab noExclRes noExclIntegrate noExclDensityMod
      rw [show (fine h M0 M1 D B U T Λ n).forceUnity = h.forceUnity from rfl]
      by_cases hf : h.forceUnity = true
      · have hb : (fine h M0 M1 D B U T Λ n).biasEffMatter E = 1 := by unfold HM.biasEffMatter; rw [if_pos (by exact hf)]
        rw [hf, hb]
        simp only [if_true, mul_one]
        rfl
      · rw [Bool.not_eq_true] at hf
        rw [hf]
        simp only [Bool.false_eq_true, if_false, mul_one]
        rfl
    by_cases hf : h.forceUnity = true
    · have hden := si_tendsto hs hc h0 h1 none (by simp) (f := fun m => m * D m * B m * h.rhoGtm⁻¹) (((continuousOn_id.mul hD).mul hB).mul (continuousOn_const (c := h.rhoGtm⁻¹)))
      rw [Option.getD_none, max_self] at hden
      have hd2 : ∫ m in M0..M1, m * D m * B m * h.rhoGtm⁻¹ = (∫ m in M0..M1, m * D m * B m) / h.rhoGtm := by
        rw [div_eq_mul_inv, ← intervalIntegral.integral_mul_const]
      rw [hd2] at hden
      have hne2 : (∫ m in M0..M1, m * D m * B m) / h.rhoGtm ≠ 0 := div_ne_zero hmb hr
      have key2 := (((key.div_const h.rhoGtm).pow 2).mul (((hden.inv₀ hne2)).pow 2)).mul_const (h.phc (h.k j))
      have elim : ((∫ m in M0..M1, m * D m * B m * U j m) / (if h.forceUnity then ∫ m in M0..M1, m * D m * B m else h.rhoGtm)) ^ 2 * h.phc (h.k j) =
          ((∫ m in M0..M1, m * D m * B m * U j m) / h.rhoGtm) ^ 2 * (((∫ m in M0..M1, m * D m * B m) / h.rhoGtm)⁻¹) ^ 2 * h.phc (h.k j) := by
        rw [if_pos hf]
        generalize (∫ m in M0..M1, m * D m * B m * U j m) = A at *
        generalize (∫ m in M0..M1, m * D m * B m) = C at *
        field_simp
      rw [elim]
      refine key2.congr fun n => ?_
      rw [eq n, if_pos hf, one_div]
      congr 4
      congr 1
      funext i
      simp only [HM.matterExcl, fine]
      ring
    · have key2 := ((key.div_const h.rhoGtm).pow 2).mul_const (h.phc (h.k j))
      rw [if_neg hf]
      refine key2.congr fun n => ?_
      rw [eq n, if_neg hf, mul_one]

/-- C44: at a wavenumber where no halo is resolved the two-halo tracer power tends, on finer and finer mass grids and for every
HOD — with or without a sharp cut —, to the power of halo centres times the square of `bias_effective_tracer`; and the
two-halo matter power with unit bias to the power of halo centres itself. -/
theorem C44_large_scale_limit (E : Env) (hs : SplLin E.isp) (hc : SplConv E.isp) (h : HM) (ho : h.Ok) (M0 M1 : ℝ) (h0 : 0 < M0) (h1 : M0 < M1)
    (hcut : h.hod.sharpCut = true → (10:ℝ) ^ h.hod.mmin ≤ M1) (D B : ℝ → ℝ) (U T Λ : ℕ → ℝ → ℝ)
    (hD : ContinuousOn D (Set.Icc M0 M1)) (hB : ContinuousOn B (Set.Icc M0 M1))
    (hU : ∀ j, ContinuousOn (U j) (Set.Icc M0 M1)) (hT : ∀ j, ContinuousOn (T j) (Set.Icc M0 M1))
    (hN : ContinuousOn (tracerNumber h.hod) (Set.Icc M0 M1)) (hr : h.rhoGtm ≠ 0)
    (hne : (∫ m in tracerLow h.hod M0..M1, D m * tracerNumber h.hod m) ≠ 0) (hmb : (∫ m in M0..M1, m * D m * B m) ≠ 0) :
    ∃ P Q : ℕ → ℝ → ℝ, (∀ n, (fine h M0 M1 D B U T Λ n).power2hTracer E = some (P n)) ∧
      (∀ n, (fine h M0 M1 D B U T Λ n).power2hMatter E = some (Q n)) ∧ ∀ j < h.nk,
      ((∀ m ∈ Set.Icc M0 M1, T j m = 1) →
        ∃ b, Tendsto (fun n => (fine h M0 M1 D B U T Λ n).biasEffTracer E) atTop (𝓝 b) ∧ Tendsto (fun n => P n (h.k j)) atTop (𝓝 (b ^ 2 * h.phc (h.k j)))) ∧
      ((∀ m ∈ Set.Icc M0 M1, U j m = 1) →
        ∃ b, Tendsto (fun n => (fine h M0 M1 D B U T Λ n).biasEffMatter E) atTop (𝓝 b) ∧ (h.forceUnity = true → b = 1) ∧
          Tendsto (fun n => Q n (h.k j)) atTop (𝓝 (b ^ 2 * h.phc (h.k j)))) := by
  obtain ⟨P, Q, hP, hQ, hPQ⟩ := C56_two_halo_power E hs hc h ho M0 M1 h0 h1 hcut D B U T Λ hD hB hU hT hN hr hne hmb
  refine ⟨P, Q, hP, hQ, fun j hj => ⟨fun hu => ?_, fun hu => ?_⟩⟩
  · have hlow : M0 ≤ tracerLow h.hod M0 ∧ tracerLow h.hod M0 ≤ M1 := by
      unfold tracerLow
      split_ifs with hb
      · exact ⟨le_max_left _ _, max_le h1.le (hcut (by rw [Bool.and_eq_true] at hb; exact hb.1))⟩
      · exact ⟨le_rfl, h1.le⟩
    refine ⟨_, (fine_S E hs hc h M0 M1 h0 h1 hcut D B U T Λ (fun m => D m * tracerNumber h.hod m * B m) ((hD.mul hN).mul hB)).div
      (C56_tracer_mean E hs hc h M0 M1 h0 h1 hcut D B U T Λ hD hN) hne, ?_⟩
    have := (hPQ j hj).1
    rwa [intervalIntegral.integral_congr (g := fun m => D m * tracerNumber h.hod m * B m)] at this
    intro m hm
    rw [Set.uIcc_of_le hlow.2] at hm
    simp only [hu m ⟨hlow.1.trans hm.1, hm.2⟩, mul_one]
  · have key := (hPQ j hj).2
    rw [intervalIntegral.integral_congr (g := fun m => m * D m * B m)] at key
    · by_cases hf : h.forceUnity = true
      · refine ⟨1, tendsto_const_nhds.congr fun n => ?_, fun _ => rfl, ?_⟩
        · unfold HM.biasEffMatter; rw [if_pos (by exact hf)]
        · rwa [if_pos hf, div_self hmb] at key
      · refine ⟨_, C56_matter_bias E hs hc h (by simpa using hf) M0 M1 h0 h1 D B U T Λ hD hB, fun h' => absurd h' hf, ?_⟩
        rwa [if_neg hf] at key
    · intro m hm
      rw [Set.uIcc_of_le h1.le] at hm
      simp only [hu m hm, mul_one]

/-- a case that meets the hypotheses: the Zheng05 HOD, a power-law mass function, a bias linear in mass and point-like haloes. -/
example (h : HM) (ho : h.Ok) (hr : h.rhoGtm ≠ 0) :
    ∃ P : ℕ → ℝ → ℝ, (∀ n, (fine { h with hod := HOD.zheng05 {} false } 1e11 1e15 (fun m => m⁻¹) (fun m => m) (fun _ _ => 1) (fun _ _ => 1) (fun _ _ => 1) n).power2hTracer
      { isp := linSpl, us := fun _ _ _ _ => 0, hankel := fun _ _ => 0 } = some (P n)) ∧ ∀ j < h.nk, ∃ b, Tendsto (fun n => P n (h.k j)) atTop (𝓝 (b ^ 2 * h.phc (h.k j))) := by
  have hD : ContinuousOn (fun m : ℝ => m⁻¹) (Set.Icc 1e11 1e15) := continuousOn_inv₀.mono fun m hm => by
    have := hm.1
    simp only [Set.mem_compl_iff, Set.mem_singleton_iff]
    intro h0
    rw [h0] at this
    norm_num at this
  have hok : HM.Ok { h with hod := HOD.zheng05 {} false } := { m := ho.m, k := ho.k, r := ho.r, nm0 := ho.nm0, nk0 := ho.nk0, nr0 := ho.nr0 }
  have hdef := (C56_tracer_zheng05 { isp := linSpl, us := fun _ _ _ _ => 0, hankel := fun _ _ => 0 } linSpl_lin linSpl_conv { h with hod := HOD.zheng05 {} false } {}
    (by norm_num) false rfl 1e11 1e15 (by norm_num) (by norm_num) (fun m => m⁻¹) (fun m => m) (fun _ _ => 1) (fun _ _ => 1) (fun _ _ => 1)
    hD continuousOn_id (fun m hm => inv_pos.mpr (lt_of_lt_of_le (by norm_num) hm.1))).1
  obtain ⟨P, Q, h1, h2, h3⟩ := C44_large_scale_limit { isp := linSpl, us := fun _ _ _ _ => 0, hankel := fun _ _ => 0 } linSpl_lin linSpl_conv
    { h with hod := HOD.zheng05 {} false } hok 1e11 1e15 (by norm_num) (by norm_num) (fun h => absurd (show false = true from h) (by simp)) (fun m => m⁻¹) (fun m => m) (fun _ _ => 1)
    (fun _ _ => 1) (fun _ _ => 1) hD continuousOn_id (fun _ => continuousOn_const) (fun _ => continuousOn_const)
    (zheng_continuous {} (by norm_num) false _ _ (by norm_num)).1 hr (by
      have hlow : tracerLow (HOD.zheng05 {} false) 1e11 = 1e11 := if_neg (show ¬ (false && (false || false)) = true by simp)
      simp only [hlow]
      exact hdef.ne') (by
      rw [intervalIntegral.integral_congr (g := fun m => m)]
      · rw [integral_id]; norm_num
      · intro m hm
        rw [Set.uIcc_of_le (by norm_num)] at hm
        have : (0:ℝ) < m := lt_of_lt_of_le (by norm_num) hm.1
        simp only
        field_simp)
  refine ⟨P, h1, fun j hj => ?_⟩
  obtain ⟨b, hb, hb2⟩ := (h3 j hj).1 fun _ _ => rfl
  exact ⟨b, hb2⟩

end Halomod.HaloModel
