import Verif.Props.Converge4
import Verif.Props.HaloModel5
import Mathlib.Algebra.QuadraticDiscriminant

/-! # C64: tracer, matter and cross power spectra are consistent with each other; C56: the tracer-matter power on fine mass grids -/
namespace Halomod.HaloModel

open Filter Topology MeasureTheory Halomod.Tools Halomod.HOD Halomod.Exclusion

theorem cauchy_schwarz_interval {a b : ℝ} (hab : a ≤ b) {w f g : ℝ → ℝ} (hw : ContinuousOn w (Set.Icc a b)) (hf : ContinuousOn f (Set.Icc a b))
    (hg : ContinuousOn g (Set.Icc a b)) (hpos : ∀ t ∈ Set.Icc a b, 0 ≤ w t) :
    (∫ t in a..b, w t * f t * g t) ^ 2 ≤ (∫ t in a..b, w t * f t ^ 2) * ∫ t in a..b, w t * g t ^ 2 := by
  have ii : ∀ {u : ℝ → ℝ}, ContinuousOn u (Set.Icc a b) → IntervalIntegrable u volume a b := fun hu =>
    ContinuousOn.intervalIntegrable (by rwa [Set.uIcc_of_le hab])
  have key : ∀ x : ℝ, 0 ≤ (∫ t in a..b, w t * f t ^ 2) * (x * x) + (2 * ∫ t in a..b, w t * f t * g t) * x + ∫ t in a..b, w t * g t ^ 2 := by
    intro x
    have e : (∫ t in a..b, w t * f t ^ 2) * (x * x) + (2 * ∫ t in a..b, w t * f t * g t) * x + ∫ t in a..b, w t * g t ^ 2
        = ∫ t in a..b, w t * (x * f t + g t) ^ 2 := by
      rw [show (fun t => w t * (x * f t + g t) ^ 2) = fun t => ((x * x) * (w t * f t ^ 2) + (2 * x) * (w t * f t * g t)) + w t * g t ^ 2 from
          funext fun t => by ring]
      rw [intervalIntegral.integral_add, intervalIntegral.integral_add, intervalIntegral.integral_const_mul, intervalIntegral.integral_const_mul]
      · ring
      · exact ii (continuousOn_const.mul (hw.mul (hf.pow 2)))
      · exact ii (continuousOn_const.mul ((hw.mul hf).mul hg))
      · exact ii ((continuousOn_const.mul (hw.mul (hf.pow 2))).add (continuousOn_const.mul ((hw.mul hf).mul hg)))
      · exact ii (hw.mul (hg.pow 2))
    rw [e]
    exact intervalIntegral.integral_nonneg hab fun t ht => mul_nonneg (hpos t ht) (sq_nonneg _)
  have := discrim_le_zero key
  unfold discrim at this
  nlinarith

/-- expected number of centrals the mass integrals use. -/
noncomputable def centralNumber (hod : HOD.Hod) (m : ℝ) : ℝ :=
  if hod.sharpCut && (hod.central || hod.inherent) then 1 else hod.cenOcc m

theorem tracerLow_mem {hod : HOD.Hod} {M0 M1 : ℝ} (h1 : M0 < M1) (hcut : hod.sharpCut = true → (10:ℝ) ^ hod.mmin ≤ M1) :
    M0 ≤ tracerLow hod M0 ∧ tracerLow hod M0 ≤ M1 := by
  unfold tracerLow
  split_ifs with hb
  · exact ⟨le_max_left _ _, max_le h1.le (hcut (by rw [Bool.and_eq_true] at hb; exact hb.1))⟩
  · exact ⟨le_rfl, h1.le⟩

/-- C56: on finer and finer mass grids the one- and two-halo tracer-matter power at every tabulated wavenumber converges to the
documented integrals over halo mass: centrals at the halo centre, satellites and matter with their profiles. -/
theorem C56_tracer_matter_power (E : Env) (hs : SplLin E.isp) (hc : SplConv E.isp) (h : HM) (ho : h.Ok) (M0 M1 : ℝ) (h0 : 0 < M0) (h1 : M0 < M1)
    (hcut : h.hod.sharpCut = true → (10:ℝ) ^ h.hod.mmin ≤ M1) (D B : ℝ → ℝ) (U T Λ : ℕ → ℝ → ℝ)
    (hD : ContinuousOn D (Set.Icc M0 M1)) (hB : ContinuousOn B (Set.Icc M0 M1))
    (hU : ∀ j, ContinuousOn (U j) (Set.Icc M0 M1)) (hT : ∀ j, ContinuousOn (T j) (Set.Icc M0 M1))
    (hC : ContinuousOn (centralNumber h.hod) (Set.Icc M0 M1)) (hS : ContinuousOn h.hod.satOcc (Set.Icc M0 M1))
    (nbar : ℝ) (hn : nbar = ∫ m in tracerLow h.hod M0..M1, D m * (centralNumber h.hod m + h.hod.satOcc m)) (hne : nbar ≠ 0) (hρ : h.meanDensity0 ≠ 0) :
    ∃ P Q : ℕ → ℝ → ℝ, (∀ n, (fine h M0 M1 D B U T Λ n).power1hCross E = some (P n)) ∧
      (∀ n, (fine h M0 M1 D B U T Λ n).power2hCross E = some (Q n)) ∧ ∀ j < h.nk,
      Tendsto (fun n => P n (h.k j)) atTop (𝓝 ((∫ m in tracerLow h.hod M0..M1,
        D m * m * U j m * (centralNumber h.hod m + h.hod.satOcc m * T j m)) / (nbar * h.meanDensity0))) ∧
      Tendsto (fun n => Q n (h.k j)) atTop (𝓝 ((∫ m in tracerLow h.hod M0..M1,
        D m * B m * (centralNumber h.hod m + h.hod.satOcc m * T j m)) / nbar *
        ((∫ m in M0..M1, D m * B m * m * U j m) / h.meanDensity0) * h.phc (h.k j))) := by
  have hok := fine_ok h ho M0 M1 h0 h1 D B U T Λ
  choose P Q R hP using fun n => C46_formula (E := E) hs (hok n)
  have hden : Tendsto (fun n => (fine h M0 M1 D B U T Λ n).meanTracerDen E) atTop (𝓝 nbar) := by
    rw [hn]
    exact fine_S E hs hc h M0 M1 h0 h1 hcut D B U T Λ (fun m => D m * (centralNumber h.hod m + h.hod.satOcc m)) (hD.mul (hC.add hS))
  refine ⟨P, Q, fun n => (hP n).1, fun n => (hP n).2.1, fun j hj => ⟨?_, ?_⟩⟩
  · have key := (fine_S E hs hc h M0 M1 h0 h1 hcut D B U T Λ (fun m => D m * m * U j m * (centralNumber h.hod m + h.hod.satOcc m * T j m))
      (((hD.mul continuousOn_id).mul (hU j)).mul (hC.add (hS.mul (hT j))))).div (hden.mul_const h.meanDensity0) (mul_ne_zero hne hρ)
    refine key.congr fun n => ?_
    have e := ((hP n).2.2.2.2 j hj).1
    have e0 : (fine h M0 M1 D B U T Λ n).k j = h.k j := rfl
    rw [← e0, e]
    rfl
  · have k1 := (fine_S E hs hc h M0 M1 h0 h1 hcut D B U T Λ (fun m => D m * B m * (centralNumber h.hod m + h.hod.satOcc m * T j m))
      ((hD.mul hB).mul (hC.add (hS.mul (hT j))))).div hden hne
    have k2 := (si_tendsto hs hc h0 h1 none (by simp) (((hD.mul hB).mul continuousOn_id).mul (hU j))).div_const h.meanDensity0
    rw [Option.getD_none, max_self] at k2
    refine ((k1.mul k2).mul_const (h.phc (h.k j))).congr fun n => ?_
    have e := ((hP n).2.2.2.2 j hj).2
    have e0 : (fine h M0 M1 D B U T Λ n).k j = h.k j := rfl
    rw [← e0, e]
    rfl

/-! ## the one-halo terms -/

theorem fine_turnover_off (h : HM) (ht : h.turnover = false) (a : ℝ) (j : ℕ) : h.oneHaloMmin a j = a := by
  unfold HM.oneHaloMmin
  simp [ht]

theorem one_halo_bound_limit {M0 M1 low : ℝ} (hl : M0 ≤ low) (hl1 : low ≤ M1) {D U T C S cs ss : ℝ → ℝ}
    (hD : ContinuousOn D (Set.Icc M0 M1)) (hU : ContinuousOn U (Set.Icc M0 M1)) (hT : ContinuousOn T (Set.Icc M0 M1))
    (hC : ContinuousOn C (Set.Icc M0 M1)) (hS : ContinuousOn S (Set.Icc M0 M1)) (hcs : ContinuousOn cs (Set.Icc M0 M1)) (hss : ContinuousOn ss (Set.Icc M0 M1))
    (pD : ∀ m ∈ Set.Icc M0 M1, 0 ≤ D m) (pT : ∀ m ∈ Set.Icc M0 M1, 0 ≤ T m) (pcs : ∀ m ∈ Set.Icc M0 M1, 0 ≤ cs m) (pss : ∀ m ∈ Set.Icc M0 M1, 0 ≤ ss m)
    (pC : ∀ m ∈ Set.Icc low M1, 0 ≤ C m ∧ C m ≤ 1) (pS : ∀ m ∈ Set.Icc low M1, 0 ≤ S m)
    (qcs : ∀ m ∈ Set.Icc low M1, C m * S m ≤ cs m) (qss : ∀ m ∈ Set.Icc low M1, S m ^ 2 ≤ ss m) :
    (∫ m in low..M1, D m * m * U m * (C m + S m * T m)) ^ 2 ≤
      (∫ m in M0..M1, D m * m ^ 2 * U m ^ 2) * ((∫ m in M0..M1, D m * (2 * cs m * T m + ss m * T m ^ 2)) + ∫ m in low..M1, D m * (C m + S m)) := by
  have sub : Set.Icc low M1 ⊆ Set.Icc M0 M1 := Set.Icc_subset_Icc_left hl
  have h01 := hl.trans hl1
  have ii : ∀ {u : ℝ → ℝ}, ContinuousOn u (Set.Icc low M1) → IntervalIntegrable u volume low M1 := fun hu =>
    ContinuousOn.intervalIntegrable (by rwa [Set.uIcc_of_le hl1])
  have shrink : ∀ {u : ℝ → ℝ}, ContinuousOn u (Set.Icc M0 M1) → (∀ m ∈ Set.Icc M0 M1, 0 ≤ u m) → ∫ m in low..M1, u m ≤ ∫ m in M0..M1, u m := by
    intro u hu pu
    rw [← intervalIntegral.integral_add_adjacent_intervals (b := low)
      ((hu.mono (Set.Icc_subset_Icc_right hl1)).intervalIntegrable_of_Icc hl) ((hu.mono sub).intervalIntegrable_of_Icc hl1)]
    have := intervalIntegral.integral_nonneg (μ := volume) hl fun m hm => pu m ⟨hm.1, hm.2.trans hl1⟩
    linarith
  have cM : ContinuousOn (fun m : ℝ => m * U m) (Set.Icc low M1) := continuousOn_id.mul (hU.mono sub)
  have cG : ContinuousOn (fun m : ℝ => C m + S m * T m) (Set.Icc low M1) := (hC.add (hS.mul hT)).mono sub
  have cs1 := cauchy_schwarz_interval hl1 (hD.mono sub) cM cG fun m hm => pD m (sub hm)
  have e1 : (∫ m in low..M1, D m * (m * U m) * (C m + S m * T m)) = ∫ m in low..M1, D m * m * U m * (C m + S m * T m) :=
    intervalIntegral.integral_congr fun m _ => by ring
  have e2 : (∫ m in low..M1, D m * (m * U m) ^ 2) = ∫ m in low..M1, D m * m ^ 2 * U m ^ 2 :=
    intervalIntegral.integral_congr fun m _ => by ring
  rw [e1, e2] at cs1
  have cA : ContinuousOn (fun m => D m * m ^ 2 * U m ^ 2) (Set.Icc M0 M1) := (hD.mul (continuousOn_id.pow 2)).mul (hU.pow 2)
  have cB : ContinuousOn (fun m => D m * (2 * cs m * T m + ss m * T m ^ 2)) (Set.Icc M0 M1) :=
    hD.mul ((((continuousOn_const (c := (2:ℝ))).mul hcs).mul hT).add (hss.mul (hT.pow 2)))
  have cN : ContinuousOn (fun m => D m * (C m + S m)) (Set.Icc M0 M1) := hD.mul (hC.add hS)
  have pA : ∀ m ∈ Set.Icc M0 M1, 0 ≤ D m * m ^ 2 * U m ^ 2 := fun m hm => by have := pD m hm; positivity
  have s1 := shrink cA pA
  have s2 := shrink cB fun m hm => by
    have := pD m hm; have := pT m hm; have := pcs m hm; have := pss m hm; positivity
  have s3 : (∫ m in low..M1, D m * (C m + S m * T m) ^ 2) ≤ (∫ m in low..M1, D m * (2 * cs m * T m + ss m * T m ^ 2)) + ∫ m in low..M1, D m * (C m + S m) := by
    rw [← intervalIntegral.integral_add (ii (cB.mono sub)) (ii (cN.mono sub))]
    refine intervalIntegral.integral_mono_on hl1 (ii ((hD.mono sub).mul (cG.pow 2))) (ii ((cB.mono sub).add (cN.mono sub))) fun m hm => ?_
    rw [← mul_add]
    refine mul_le_mul_of_nonneg_left ?_ (pD m (sub hm))
    obtain ⟨c0, c1⟩ := pC m hm
    have t0 := pT m (sub hm)
    have := mul_le_mul_of_nonneg_right (qcs m hm) t0
    have := mul_le_mul_of_nonneg_right (qss m hm) (sq_nonneg (T m))
    have := pS m hm
    nlinarith
  have n1 : 0 ≤ ∫ m in low..M1, D m * (C m + S m * T m) ^ 2 :=
    intervalIntegral.integral_nonneg hl1 fun m hm => mul_nonneg (pD m (sub hm)) (sq_nonneg _)
  have n2 : 0 ≤ ∫ m in M0..M1, D m * m ^ 2 * U m ^ 2 := intervalIntegral.integral_nonneg h01 pA
  calc _ ≤ _ := cs1
    _ ≤ (∫ m in M0..M1, D m * m ^ 2 * U m ^ 2) * ∫ m in low..M1, D m * (C m + S m * T m) ^ 2 := mul_le_mul_of_nonneg_right s1 n1
    _ ≤ _ := mul_le_mul_of_nonneg_left (by linarith) n2

/-- C64: with the one-halo turnover switched off, the one-halo tracer-matter power never exceeds the geometric mean of the one-halo
matter power and the one-halo tracer power plus shot noise (one over the mean tracer density), at every tabulated wavenumber, up to an
error that vanishes on fine mass grids.  For every Poisson occupation with at most one central per halo; where the occupation has a sharp
cut, haloes above it have their central.  Missing: the default, turnover switched on (see `C64_turnover_breaks_bound`).
Occupations that jump inside the mass range: `C64_mesh_one_halo_bound_partial`. -/
theorem C64_one_halo_bound_partial (E : Env) (hs : SplLin E.isp) (hc : SplConv E.isp) (h : HM) (ho : h.Ok) (M0 M1 : ℝ) (h0 : 0 < M0) (h1 : M0 < M1)
    (d : HOD.PoissonDef) (central : Bool) (hh : h.hod = HOD.poisson d central) (htpc : ∀ m, d.tpc m = 1)
    (hcut : d.sharpCut = true → (10:ℝ) ^ d.mmin ≤ M1) (hmm : 0 < d.mmin ∧ d.mmin ≤ M0) (ht : h.turnover = false)
    (hcen : ContinuousOn d.cen (Set.Icc M0 M1)) (hsat : ContinuousOn d.sat (Set.Icc M0 M1))
    (pcen : ∀ m ∈ Set.Icc M0 M1, 0 ≤ d.cen m ∧ d.cen m ≤ 1) (psat : ∀ m ∈ Set.Icc M0 M1, 0 ≤ d.sat m)
    (hone : d.sharpCut = true → ∀ m ∈ Set.Icc M0 M1, (10:ℝ) ^ d.mmin ≤ m → d.cen m = 1)
    (D B : ℝ → ℝ) (U T Λ : ℕ → ℝ → ℝ) (hD : ContinuousOn D (Set.Icc M0 M1)) (hB : ContinuousOn B (Set.Icc M0 M1))
    (hU : ∀ j, ContinuousOn (U j) (Set.Icc M0 M1)) (hT : ∀ j, ContinuousOn (T j) (Set.Icc M0 M1))
    (pD : ∀ m ∈ Set.Icc M0 M1, 0 ≤ D m) (hρ : 0 < h.meanDensity0)
    (hnb : 0 < ∫ m in tracerLow h.hod M0..M1, D m * (centralNumber h.hod m + h.hod.satOcc m))
    (j : ℕ) (hj : j < h.nk) (pT : ∀ m ∈ Set.Icc M0 M1, 0 ≤ T j m) :
    ∃ tm mm tt : ℕ → ℝ → ℝ, (∀ n, (fine h M0 M1 D B U T Λ n).power1hCross E = some (tm n)) ∧
      (∀ n, (fine h M0 M1 D B U T Λ n).power1hMatter E = some (mm n)) ∧ (∀ n, (fine h M0 M1 D B U T Λ n).power1hTracer E = some (tt n)) ∧
      ∀ ε > 0, ∀ᶠ n in atTop, tm n (h.k j) ^ 2 ≤
        mm n (h.k j) * (tt n (h.k j) + 1 / (fine h M0 M1 D B U T Λ n).meanTracerDen E) + ε := by
  have esc : h.hod.sharpCut = d.sharpCut := by rw [hh]; rfl
  have ecc : h.hod.central = central := by rw [hh]; rfl
  have ein : h.hod.inherent = d.inherent := by rw [hh]; rfl
  have emm : h.hod.mmin = d.mmin := by rw [hh]; rfl
  have ecen : h.hod.cenOcc = d.cen := by rw [hh]; rfl
  have esat : ∀ m, h.hod.satOcc m = if central && !d.inherent then d.cen m * d.sat m else d.sat m := fun m => by
    rw [hh]
    change HOD.satelliteOccupation _ _ (fun m => d.cen m / d.tpc m) _ m = _
    unfold HOD.satelliteOccupation
    simp only [htpc, div_one]
  have ecs : ∀ m, h.hod.csPairs m = if central then h.hod.satOcc m else d.cen m * h.hod.satOcc m := fun m => by
    rw [hh]
    change (if central then _ * d.tpc m else _) = _
    rw [htpc, mul_one]; rfl
  have ess : ∀ m, h.hod.ssPairs m = h.hod.satOcc m ^ 2 := fun m => by rw [hh]; rfl
  have hcut' : h.hod.sharpCut = true → (10:ℝ) ^ h.hod.mmin ≤ M1 := by rw [esc, emm]; exact hcut
  have hS : ContinuousOn h.hod.satOcc (Set.Icc M0 M1) := by
    rw [show h.hod.satOcc = fun m => if central && !d.inherent then d.cen m * d.sat m else d.sat m from funext esat]
    split_ifs
    · exact hcen.mul hsat
    · exact hsat
  have hC : ContinuousOn (centralNumber h.hod) (Set.Icc M0 M1) := by
    unfold centralNumber
    rw [ecen]
    split_ifs
    · exact continuousOn_const
    · exact hcen
  have hcs : ContinuousOn h.hod.csPairs (Set.Icc M0 M1) := by
    rw [show h.hod.csPairs = fun m => if central then h.hod.satOcc m else d.cen m * h.hod.satOcc m from funext ecs]
    split_ifs
    · exact hS
    · exact hcen.mul hS
  have hss : ContinuousOn h.hod.ssPairs (Set.Icc M0 M1) := by
    rw [show h.hod.ssPairs = fun m => h.hod.satOcc m ^ 2 from funext ess]
    exact hS.pow 2
  have pS : ∀ m ∈ Set.Icc M0 M1, 0 ≤ h.hod.satOcc m := fun m hm => by
    rw [esat]
    split_ifs
    · exact mul_nonneg (pcen m hm).1 (psat m hm)
    · exact psat m hm
  have hlow := tracerLow_mem h1 hcut'
  have one : h.hod.sharpCut && (h.hod.central || h.hod.inherent) → ∀ m ∈ Set.Icc (tracerLow h.hod M0) M1, d.cen m = 1 := by
    intro hb m hm
    have hb' := hb
    rw [Bool.and_eq_true] at hb
    refine hone (esc ▸ hb.1) m ⟨hlow.1.trans hm.1, hm.2⟩ ?_
    have := hm.1
    unfold tracerLow at this
    rw [if_pos hb', emm] at this
    exact (le_max_right _ _).trans this
  have pC : ∀ m ∈ Set.Icc (tracerLow h.hod M0) M1, centralNumber h.hod m = d.cen m := by
    intro m hm
    unfold centralNumber
    rw [ecen]
    split_ifs with hb
    · exact (one hb m hm).symm
    · rfl
  obtain ⟨tm, _, htm, _, ltm⟩ := C56_tracer_matter_power E hs hc h ho M0 M1 h0 h1 hcut' D B U T Λ hD hB hU hT hC hS _ rfl hnb.ne' hρ.ne'
  have hN : ContinuousOn (tracerNumber h.hod) (Set.Icc M0 M1) := hC.add hS
  have hmin1 : h.oneHaloMmin M0 j = M0 := fine_turnover_off h ht _ _
  have hmin2 : h.oneHaloMmin h.hod.mmin j = h.hod.mmin := fine_turnover_off h ht _ _
  obtain ⟨mm, tt, hmmv, htt, lmm, ltt⟩ := C56_one_halo_power E hs hc h ho M0 M1 h0 h1 D B U T Λ hD hU hT hN hcs hss hcut' hnb.ne' j hj
    (by rw [hmin1]; exact h1.le) (by rw [hmin2, emm]; exact ⟨hmm.1, hmm.2.trans h1.le⟩)
  refine ⟨tm, mm, tt, htm, hmmv, htt, fun ε hε => ?_⟩
  have lden := C56_tracer_mean E hs hc h M0 M1 h0 h1 hcut' D B U T Λ hD hN
  rw [hmin1] at lmm
  rw [hmin2, emm, max_eq_left hmm.2] at ltt
  have key := one_halo_bound_limit hlow.1 hlow.2 hD (hU j) (hT j) hC hS hcs hss pD pT
    (fun m hm => by rw [ecs]; have := pS m hm; have := (pcen m hm).1; split_ifs <;> positivity) (fun m hm => by rw [ess]; positivity)
    (fun m hm => by rw [pC m hm]; exact pcen m ⟨hlow.1.trans hm.1, hm.2⟩) (fun m hm => pS m ⟨hlow.1.trans hm.1, hm.2⟩)
    (fun m hm => by
      have hm' : m ∈ Set.Icc M0 M1 := ⟨hlow.1.trans hm.1, hm.2⟩
      rw [pC m hm, ecs]
      split_ifs
      · exact mul_le_of_le_one_left (pS m hm') (pcen m hm').2
      · exact le_rfl) (fun m _ => (ess m).ge)
  obtain ⟨A, hA⟩ : ∃ A, A = ∫ m in tracerLow h.hod M0..M1, D m * m * U j m * (centralNumber h.hod m + h.hod.satOcc m * T j m) := ⟨_, rfl⟩
  obtain ⟨Mm, hMm⟩ : ∃ A, A = ∫ m in M0..M1, D m * m ^ 2 * U j m ^ 2 := ⟨_, rfl⟩
  obtain ⟨Tt, hTt⟩ : ∃ A, A = ∫ m in M0..M1, D m * (2 * h.hod.csPairs m * T j m + h.hod.ssPairs m * T j m ^ 2) := ⟨_, rfl⟩
  obtain ⟨nb, hnbe⟩ : ∃ A, A = ∫ m in tracerLow h.hod M0..M1, D m * (centralNumber h.hod m + h.hod.satOcc m) := ⟨_, rfl⟩
  have hnbe' : (∫ m in tracerLow h.hod M0..M1, D m * tracerNumber h.hod m) = nb := hnbe.symm
  have ltm' := (ltm j hj).1
  rw [hnbe'] at ltt lden
  rw [← hA, ← hnbe] at ltm'
  rw [← hA, ← hMm, ← hTt, ← hnbe] at key
  rw [← hMm] at lmm
  rw [← hTt] at ltt
  rw [← hnbe] at hnb
  have lhs := ltm'.pow 2
  have rhs := (lmm.mul (ltt.add ((tendsto_const_nhds (x := (1:ℝ))).div lden hnb.ne'))).add_const ε
  have hlt : (A / (nb * h.meanDensity0)) ^ 2 < Mm / h.meanDensity0 ^ 2 * (Tt / nb ^ 2 + 1 / nb) + ε := by
    have e : Mm / h.meanDensity0 ^ 2 * (Tt / nb ^ 2 + 1 / nb) = Mm * (Tt + nb) / (nb * h.meanDensity0) ^ 2 := by
      field_simp
    rw [e, div_pow]
    have : A ^ 2 / (nb * h.meanDensity0) ^ 2 ≤ Mm * (Tt + nb) / (nb * h.meanDensity0) ^ 2 := by gcongr
    linarith
  exact (lhs.eventually_lt rhs hlt).mono fun n hn => hn.le

theorem splIntegral_beyond (isp : Spl) (n : ℕ) (x y : ℕ → ℝ) {a : ℝ} (ha : x (n - 1) ≤ a) : splIntegral isp n x y a (x (n - 1)) = 0 := by
  unfold splIntegral
  rw [intervalIntegral.integral_symm, intervalIntegral.integral_of_le ha, setIntegral_congr_fun measurableSet_Ioc (g := fun _ => (0:ℝ))]
  · simp
  · intro t ht
    exact Set.indicator_of_notMem (fun hm => absurd hm.2 (not_le.mpr ht.1)) _

theorem fine_last (h : HM) (M0 M1 : ℝ) (h0 : 0 < M0) (h1 : M0 < M1) (D B : ℝ → ℝ) (U T Λ : ℕ → ℝ → ℝ) (n : ℕ) :
    (fine h M0 M1 D B U T Λ n).m ((fine h M0 M1 D B U T Λ n).nm - 1) = M1 := by
  have e : (fine h M0 M1 D B U T Λ n).m ((fine h M0 M1 D B U T Λ n).nm - 1)
      = Real.exp (Real.log M0 + ((n + 1 : ℕ) : ℝ) * stp (Real.log M0) (Real.log M1) n) := rfl
  rw [e]
  unfold stp
  push_cast
  have : ((n:ℝ) + 1) ≠ 0 := by positivity
  rw [show Real.log M0 + ((n:ℝ) + 1) * ((Real.log M1 - Real.log M0) / (n + 1)) = Real.log M1 by field_simp; ring, Real.exp_log (h0.trans h1)]

theorem integral_pos_on {a b : ℝ} (hab : a < b) {f : ℝ → ℝ} (hf : ContinuousOn f (Set.Icc a b)) (hp : ∀ t ∈ Set.Icc a b, 0 < f t) :
    0 < ∫ t in a..b, f t :=
  intervalIntegral.intervalIntegral_pos_of_pos_on (hf.intervalIntegrable_of_Icc hab.le) (fun t ht => hp t ⟨ht.1.le, ht.2.le⟩) hab

/-- C64 finding: with the default one-halo turnover the bound fails on large scales.  The turnover removes haloes lighter than a limit that
grows as the inverse cube of the wavenumber from the matter and tracer auto terms, but not from the cross term: at tabulated wavenumbers where the limit is
above the largest tabulated mass, both one-halo auto terms vanish identically, and the one-halo cross power is positive (for positive
abundances, profiles and occupations). -/
theorem C64_turnover_breaks_bound (E : Env) (hs : SplLin E.isp) (hc : SplConv E.isp) (h : HM) (ho : h.Ok) (M0 M1 : ℝ) (h0 : 0 < M0) (h1 : M0 < M1)
    (hcut : h.hod.sharpCut = true → (10:ℝ) ^ h.hod.mmin < M1) (ht : h.turnover = true)
    (D B : ℝ → ℝ) (U T Λ : ℕ → ℝ → ℝ) (hD : ContinuousOn D (Set.Icc M0 M1)) (hB : ContinuousOn B (Set.Icc M0 M1))
    (hU : ∀ j, ContinuousOn (U j) (Set.Icc M0 M1)) (hT : ∀ j, ContinuousOn (T j) (Set.Icc M0 M1))
    (hC : ContinuousOn (centralNumber h.hod) (Set.Icc M0 M1)) (hS : ContinuousOn h.hod.satOcc (Set.Icc M0 M1))
    (j : ℕ) (hj : j < h.nk) (hlim : M1 ≤ 4 * Real.pi * h.meanDensity0 * h.overdensity / 3 * (Real.pi / h.k j / 10) ^ 3)
    (pD : ∀ m ∈ Set.Icc M0 M1, 0 < D m) (pU : ∀ m ∈ Set.Icc M0 M1, 0 < U j m) (pT : ∀ m ∈ Set.Icc M0 M1, 0 ≤ T j m)
    (pC : ∀ m ∈ Set.Icc M0 M1, 0 < centralNumber h.hod m) (pS : ∀ m ∈ Set.Icc M0 M1, 0 ≤ h.hod.satOcc m) (hρ : 0 < h.meanDensity0) :
    ∃ tm mm tt : ℕ → ℝ → ℝ, (∀ n, (fine h M0 M1 D B U T Λ n).power1hCross E = some (tm n)) ∧
      (∀ n, (fine h M0 M1 D B U T Λ n).power1hMatter E = some (mm n)) ∧ (∀ n, (fine h M0 M1 D B U T Λ n).power1hTracer E = some (tt n)) ∧
      (∀ n, mm n (h.k j) = 0 ∧ tt n (h.k j) = 0) ∧
      ∀ᶠ n in atTop, 0 < tm n (h.k j) ∧ mm n (h.k j) * (tt n (h.k j) + 1 / (fine h M0 M1 D B U T Λ n).meanTracerDen E) < tm n (h.k j) ^ 2 := by
  have hok := fine_ok h ho M0 M1 h0 h1 D B U T Λ
  have hlow := tracerLow_mem h1 fun hb => (hcut hb).le
  have hlt : tracerLow h.hod M0 < M1 := by
    unfold tracerLow
    split_ifs with hb
    · exact max_lt h1 (hcut (by rw [Bool.and_eq_true] at hb; exact hb.1))
    · exact h1
  have sub : Set.Icc (tracerLow h.hod M0) M1 ⊆ Set.Icc M0 M1 := Set.Icc_subset_Icc_left hlow.1
  have hnb : 0 < ∫ m in tracerLow h.hod M0..M1, D m * (centralNumber h.hod m + h.hod.satOcc m) :=
    integral_pos_on hlt ((hD.mul (hC.add hS)).mono sub) fun m hm => mul_pos (pD m (sub hm)) (add_pos_of_pos_of_nonneg (pC m (sub hm)) (pS m (sub hm)))
  have hnum : 0 < ∫ m in tracerLow h.hod M0..M1, D m * m * U j m * (centralNumber h.hod m + h.hod.satOcc m * T j m) :=
    integral_pos_on hlt ((((hD.mul continuousOn_id).mul (hU j)).mul (hC.add (hS.mul (hT j)))).mono sub) fun m hm =>
      mul_pos (mul_pos (mul_pos (pD m (sub hm)) (h0.trans_le (sub hm).1)) (pU m (sub hm)))
        (add_pos_of_pos_of_nonneg (pC m (sub hm)) (mul_nonneg (pS m (sub hm)) (pT m (sub hm))))
  obtain ⟨tm, _, htm, _, ltm⟩ := C56_tracer_matter_power E hs hc h ho M0 M1 h0 h1 (fun hb => (hcut hb).le) D B U T Λ hD hB hU hT hC hS _ rfl hnb.ne' hρ.ne'
  choose mm hmm using fun n => power1hMatter_ok (E := E) hs (hok n)
  choose tt cs ss htt using fun n => C36_one_halo_power (E := E) hs (hok n)
  have hlast : ∀ n, (fine h M0 M1 D B U T Λ n).m ((fine h M0 M1 D B U T Λ n).nm - 1) = M1 := fun n => fine_last h M0 M1 h0 h1 D B U T Λ n
  have hmin : ∀ n a, M1 ≤ (fine h M0 M1 D B U T Λ n).oneHaloMmin a j := by
    intro n a
    have e : (fine h M0 M1 D B U T Λ n).oneHaloMmin a j = h.oneHaloMmin a j := rfl
    rw [e]
    unfold HM.oneHaloMmin
    simp only [ht, if_true]
    exact hlim.trans (le_max_right _ _)
  have hzero : ∀ n a f, (fine h M0 M1 D B U T Λ n).S E f (some ((fine h M0 M1 D B U T Λ n).oneHaloMmin a j)) = 0 := by
    intro n a f
    unfold HM.S splineIntegral
    rw [if_pos rfl]
    refine splIntegral_beyond E.isp _ _ _ ?_
    simp only [Option.elim_some]
    rw [hlast]
    exact Real.log_le_log (h0.trans h1) (hmin n a)
  have hz : ∀ n, mm n (h.k j) = 0 ∧ tt n (h.k j) = 0 := by
    intro n
    have e0 : (fine h M0 M1 D B U T Λ n).k j = h.k j := rfl
    constructor
    · rw [← e0, (hmm n).2 j hj]
      unfold HM.power1hMatterTab HM.do1halo
      rw [hzero, zero_div]
    · rw [← e0, (htt n).2.2.2.2 j hj]
      have := hzero n h.hod.mmin
      change (fine h M0 M1 D B U T Λ n).S E _ (some ((fine h M0 M1 D B U T Λ n).oneHaloMmin h.hod.mmin j)) / _ = 0
      rw [this, zero_div]
  refine ⟨tm, mm, tt, htm, fun n => (hmm n).1, fun n => (htt n).1, hz, ?_⟩
  refine ((ltm j hj).1.eventually (lt_mem_nhds (div_pos hnum (mul_pos hnb hρ)))).mono fun n hn => ⟨hn, ?_⟩
  rw [(hz n).1, zero_mul]
  exact pow_pos hn 2

/-- C64: on large scales, where no profile is resolved, the two-halo terms of tracer, matter and cross power are perfectly correlated in the limit of fine mass
grids, if all matter is in haloes and the matter bias is not forced; C64 finding: at every other wavenumber, where the tracer profile is below one, the two-halo
cross power exceeds the geometric mean of the auto terms on every fine enough grid, because only the auto term smears centrals with the profile. -/
theorem C64_two_halo (E : Env) (hs : SplLin E.isp) (hc : SplConv E.isp) (h : HM) (ho : h.Ok) (M0 M1 : ℝ) (h0 : 0 < M0) (h1 : M0 < M1)
    (hcut : h.hod.sharpCut = true → (10:ℝ) ^ h.hod.mmin < M1) (hf : h.forceUnity = false) (hr : h.rhoGtm = h.meanDensity0) (hρ : 0 < h.meanDensity0)
    (D B : ℝ → ℝ) (U T Λ : ℕ → ℝ → ℝ) (hD : ContinuousOn D (Set.Icc M0 M1)) (hB : ContinuousOn B (Set.Icc M0 M1))
    (hU : ∀ j, ContinuousOn (U j) (Set.Icc M0 M1)) (hT : ∀ j, ContinuousOn (T j) (Set.Icc M0 M1))
    (hC : ContinuousOn (centralNumber h.hod) (Set.Icc M0 M1)) (hS : ContinuousOn h.hod.satOcc (Set.Icc M0 M1))
    (pD : ∀ m ∈ Set.Icc M0 M1, 0 < D m) (pB : ∀ m ∈ Set.Icc M0 M1, 0 < B m)
    (pC : ∀ m ∈ Set.Icc M0 M1, 0 < centralNumber h.hod m) (pS : ∀ m ∈ Set.Icc M0 M1, 0 ≤ h.hod.satOcc m) :
    ∃ tm mm tt : ℕ → ℝ → ℝ, (∀ n, (fine h M0 M1 D B U T Λ n).power2hCross E = some (tm n)) ∧
      (∀ n, (fine h M0 M1 D B U T Λ n).power2hMatter E = some (mm n)) ∧ (∀ n, (fine h M0 M1 D B U T Λ n).power2hTracer E = some (tt n)) ∧
      ∀ j < h.nk,
        ((∀ m ∈ Set.Icc M0 M1, T j m = 1) → Tendsto (fun n => tm n (h.k j) ^ 2 - mm n (h.k j) * tt n (h.k j)) atTop (𝓝 0)) ∧
        ((∀ m ∈ Set.Icc M0 M1, 0 < U j m) → (∀ m ∈ Set.Icc M0 M1, 0 ≤ T j m ∧ T j m < 1) → h.phc (h.k j) ≠ 0 →
          ∀ᶠ n in atTop, mm n (h.k j) * tt n (h.k j) < tm n (h.k j) ^ 2) := by
  have hlow := tracerLow_mem h1 fun hb => (hcut hb).le
  have hlt : tracerLow h.hod M0 < M1 := by
    unfold tracerLow
    split_ifs with hb
    · exact max_lt h1 (hcut (by rw [Bool.and_eq_true] at hb; exact hb.1))
    · exact h1
  have sub : Set.Icc (tracerLow h.hod M0) M1 ⊆ Set.Icc M0 M1 := Set.Icc_subset_Icc_left hlow.1
  have hnb : 0 < ∫ m in tracerLow h.hod M0..M1, D m * (centralNumber h.hod m + h.hod.satOcc m) :=
    integral_pos_on hlt ((hD.mul (hC.add hS)).mono sub) fun m hm => mul_pos (pD m (sub hm)) (add_pos_of_pos_of_nonneg (pC m (sub hm)) (pS m (sub hm)))
  have hmb : 0 < ∫ m in M0..M1, m * D m * B m :=
    integral_pos_on h1 ((continuousOn_id.mul hD).mul hB) fun m hm => mul_pos (mul_pos (h0.trans_le hm.1) (pD m hm)) (pB m hm)
  obtain ⟨_, tm, _, htm, ltm⟩ := C56_tracer_matter_power E hs hc h ho M0 M1 h0 h1 (fun hb => (hcut hb).le) D B U T Λ hD hB hU hT hC hS _ rfl hnb.ne' hρ.ne'
  obtain ⟨tt, mm, htt, hmm, l2⟩ := C56_two_halo_power E hs hc h ho M0 M1 h0 h1 (fun hb => (hcut hb).le) D B U T Λ hD hB hU hT (hC.add hS)
    (by rw [hr]; exact hρ.ne') hnb.ne' hmb.ne'
  refine ⟨tm, mm, tt, htm, hmm, htt, fun j hj => ?_⟩
  have lt := (ltm j hj).2
  have l1 := (l2 j hj).1
  have l3 := (l2 j hj).2
  simp only [hf, Bool.false_eq_true, if_false, hr] at l3
  have emm : (∫ m in M0..M1, m * D m * B m * U j m) = ∫ m in M0..M1, D m * B m * m * U j m :=
    intervalIntegral.integral_congr fun m _ => by ring
  rw [emm] at l3
  have en : (∫ m in tracerLow h.hod M0..M1, D m * tracerNumber h.hod m) = ∫ m in tracerLow h.hod M0..M1, D m * (centralNumber h.hod m + h.hod.satOcc m) := rfl
  have ea : (∫ m in tracerLow h.hod M0..M1, D m * tracerNumber h.hod m * B m * T j m)
      = ∫ m in tracerLow h.hod M0..M1, D m * B m * ((centralNumber h.hod m + h.hod.satOcc m) * T j m) :=
    intervalIntegral.integral_congr fun m _ => by
      change D m * (centralNumber h.hod m + h.hod.satOcc m) * B m * T j m = _
      ring
  rw [ea, en] at l1
  constructor
  · intro hT1
    have e : (∫ m in tracerLow h.hod M0..M1, D m * B m * (centralNumber h.hod m + h.hod.satOcc m * T j m))
        = ∫ m in tracerLow h.hod M0..M1, D m * B m * ((centralNumber h.hod m + h.hod.satOcc m) * T j m) := by
      refine intervalIntegral.integral_congr fun m hm => ?_
      rw [Set.uIcc_of_le hlow.2] at hm
      simp only [hT1 m (sub hm), mul_one]
    rw [e] at lt
    have key := (lt.pow 2).sub (l3.mul l1)
    refine (key.congr fun n => rfl).trans (le_of_eq ?_)
    congr 1
    ring
  · intro pU pT hp
    have hA : (∫ m in tracerLow h.hod M0..M1, D m * B m * ((centralNumber h.hod m + h.hod.satOcc m) * T j m))
        < ∫ m in tracerLow h.hod M0..M1, D m * B m * (centralNumber h.hod m + h.hod.satOcc m * T j m) := by
      rw [← sub_pos, ← intervalIntegral.integral_sub]
      · refine integral_pos_on hlt (f := fun m => D m * B m * (centralNumber h.hod m + h.hod.satOcc m * T j m) -
          D m * B m * ((centralNumber h.hod m + h.hod.satOcc m) * T j m)) ?_ fun m hm => ?_
        · exact ((((hD.mul hB).mul (hC.add (hS.mul (hT j))))).sub ((hD.mul hB).mul ((hC.add hS).mul (hT j)))).mono sub
        · have := mul_pos (mul_pos (mul_pos (pD m (sub hm)) (pB m (sub hm))) (pC m (sub hm))) (sub_pos.mpr (pT m (sub hm)).2)
          nlinarith
      · exact (((hD.mul hB).mul (hC.add (hS.mul (hT j)))).mono sub).intervalIntegrable_of_Icc hlow.2
      · exact (((hD.mul hB).mul ((hC.add hS).mul (hT j))).mono sub).intervalIntegrable_of_Icc hlow.2
    have hA0 : 0 ≤ ∫ m in tracerLow h.hod M0..M1, D m * B m * ((centralNumber h.hod m + h.hod.satOcc m) * T j m) :=
      intervalIntegral.integral_nonneg hlow.2 fun m hm => mul_nonneg (mul_pos (pD m (sub hm)) (pB m (sub hm))).le
        (mul_nonneg (add_pos_of_pos_of_nonneg (pC m (sub hm)) (pS m (sub hm))).le (pT m (sub hm)).1)
    have hM : 0 < ∫ m in M0..M1, D m * B m * m * U j m :=
      integral_pos_on h1 (((hD.mul hB).mul continuousOn_id).mul (hU j)) fun m hm =>
        mul_pos (mul_pos (mul_pos (pD m hm) (pB m hm)) (h0.trans_le hm.1)) (pU m hm)
    refine (l3.mul l1).eventually_lt (lt.pow 2) ?_
    generalize (∫ m in tracerLow h.hod M0..M1, D m * B m * ((centralNumber h.hod m + h.hod.satOcc m) * T j m)) = a at hA hA0 ⊢
    generalize (∫ m in tracerLow h.hod M0..M1, D m * B m * (centralNumber h.hod m + h.hod.satOcc m * T j m)) = b at hA ⊢
    generalize (∫ m in M0..M1, D m * B m * m * U j m) = c at hM ⊢
    generalize (∫ m in tracerLow h.hod M0..M1, D m * (centralNumber h.hod m + h.hod.satOcc m)) = nb at hnb ⊢
    have : a ^ 2 < b ^ 2 := pow_lt_pow_left₀ hA hA0 two_ne_zero
    have hk : 0 < (c / h.meanDensity0) ^ 2 * h.phc (h.k j) ^ 2 / nb ^ 2 := by positivity
    have := mul_lt_mul_of_pos_left this hk
    calc _ = (c / h.meanDensity0) ^ 2 * h.phc (h.k j) ^ 2 / nb ^ 2 * a ^ 2 := by ring
      _ < _ := this
      _ = _ := by ring

/-! ## cases that meet the hypotheses: the Zheng05 HOD, a power-law mass function and bias, profiles of 1/2 -/

theorem zheng_parts (M0 M1 : ℝ) (h0 : 0 < M0) : ContinuousOn (HOD.zhengCen {}) (Set.Icc M0 M1) ∧ ContinuousOn (HOD.zhengSat {}) (Set.Icc M0 M1) ∧
    (∀ m, 0 < HOD.zhengCen {} m ∧ HOD.zhengCen {} m ≤ 1) ∧ ∀ m, 0 ≤ HOD.zhengSat {} m := by
  obtain ⟨c1, c2, _, _⟩ := zheng_continuous {} (by norm_num) false M0 M1 h0
  refine ⟨?_, c2, fun m => ?_, fun m => ?_⟩
  · have := c1.sub c2
    refine this.congr fun m _ => ?_
    change HOD.zhengCen {} m = (HOD.zhengCen {} m + HOD.zhengSat {} m) - HOD.zhengSat {} m
    ring
  · unfold HOD.zhengCen
    have a := neg_one_lt_erf ((HOD.log10 m - ({} : HOD.ZhengP).M_min) / ({} : HOD.ZhengP).sig_logm)
    have b := erf_lt_one ((HOD.log10 m - ({} : HOD.ZhengP).M_min) / ({} : HOD.ZhengP).sig_logm)
    constructor <;> linarith
  · unfold HOD.zhengSat
    split_ifs with h
    · have : (0:ℝ) ≤ m - 10 ^ ({} : HOD.ZhengP).M_0 := by linarith
      positivity
    · exact le_rfl

theorem inv_cont : ContinuousOn (fun m : ℝ => m⁻¹) (Set.Icc 1e11 1e15) := continuousOn_inv₀.mono fun m hm => by
  have h1 := hm.1
  simp only [Set.mem_compl_iff, Set.mem_singleton_iff]
  intro h0
  rw [h0] at h1
  norm_num at h1

theorem inv_pos' : ∀ m ∈ Set.Icc (1e11:ℝ) 1e15, 0 < m⁻¹ := fun m hm => inv_pos.mpr (lt_of_lt_of_le (by norm_num) hm.1)

/-- a small model with the Zheng05 HOD. -/
noncomputable def boundHM (t : Bool) : HM := { demoHM with hod := HOD.zheng05 {} false, turnover := t, forceUnity := false, overdensity := 1e20 }

theorem boundHM_ok (t : Bool) : (boundHM t).Ok := { m := demo_ok.m, k := demo_ok.k, r := demo_ok.r, nm0 := demo_ok.nm0, nk0 := demo_ok.nk0, nr0 := demo_ok.nr0 }

theorem boundHM_cent (t : Bool) : centralNumber (boundHM t).hod = HOD.zhengCen {} :=
  funext fun m => if_neg (show ¬ (false && (false || false)) = true by simp)

/-- the spline and transforms of the examples. -/
noncomputable def boundE : Env := { isp := linSpl, us := fun _ _ _ _ => 0, hankel := fun _ _ => 0 }

example : ∃ tm mm tt : ℕ → ℝ → ℝ, (∀ n, (fine (boundHM false) 1e11 1e15 (fun m => m⁻¹) (fun m => m) (fun _ _ => 1 / 2) (fun _ _ => 1 / 2) (fun _ _ => 1) n).power1hCross boundE = some (tm n)) ∧
    ∀ ε > 0, ∀ᶠ n in atTop, tm n 1 ^ 2 ≤ mm n 1 * (tt n 1 + 1 /
      (fine (boundHM false) 1e11 1e15 (fun m => m⁻¹) (fun m => m) (fun _ _ => 1 / 2) (fun _ _ => 1 / 2) (fun _ _ => 1) n).meanTracerDen boundE) + ε := by
  obtain ⟨z1, z2, z3, z4⟩ := zheng_parts 1e11 1e15 (by norm_num)
  obtain ⟨tm, mm, tt, a, _, _, b⟩ := C64_one_halo_bound_partial boundE linSpl_lin linSpl_conv (boundHM false) (boundHM_ok _) 1e11 1e15 (by norm_num) (by norm_num)
    _ false rfl (fun _ => rfl) (fun h => absurd (show false = true from h) (by simp))
    (by change (0:ℝ) < 11.6222 - 5 * 0.26 ∧ (11.6222 - 5 * 0.26 : ℝ) ≤ 1e11; norm_num) rfl z1 z2 (fun m _ => ⟨(z3 m).1.le, (z3 m).2⟩) (fun m _ => z4 m)
    (fun h => absurd (show false = true from h) (by simp)) (fun m => m⁻¹) (fun m => m) (fun _ _ => 1 / 2) (fun _ _ => 1 / 2) (fun _ _ => 1) inv_cont continuousOn_id
    (fun _ => continuousOn_const) (fun _ => continuousOn_const) (fun m hm => (inv_pos' m hm).le) one_pos (by
      have hlow : tracerLow (boundHM false).hod 1e11 = 1e11 := if_neg (show ¬ (false && (false || false)) = true by simp)
      rw [hlow, boundHM_cent]
      exact integral_pos_on (by norm_num) (inv_cont.mul (z1.add z2)) fun m hm => mul_pos (inv_pos' m hm) (add_pos_of_pos_of_nonneg (z3 m).1 (z4 m)))
    0 (by change 0 < 2; norm_num) (fun _ _ => by norm_num)
  refine ⟨tm, mm, tt, a, ?_⟩
  have e : (boundHM false).k 0 = 1 := by change (1:ℝ) + ((0:ℕ):ℝ) = 1; simp
  rwa [e] at b

example : ∃ tm mm tt : ℕ → ℝ → ℝ, (∀ n, (fine (boundHM true) 1e11 1e15 (fun m => m⁻¹) (fun m => m) (fun _ _ => 1 / 2) (fun _ _ => 1 / 2) (fun _ _ => 1) n).power1hCross boundE = some (tm n)) ∧
    (∀ n, mm n 1 = 0 ∧ tt n 1 = 0) ∧ ∀ᶠ n in atTop, 0 < tm n 1 := by
  obtain ⟨z1, z2, z3, z4⟩ := zheng_parts 1e11 1e15 (by norm_num)
  have e : (boundHM true).k 0 = 1 := by change (1:ℝ) + ((0:ℕ):ℝ) = 1; simp
  obtain ⟨tm, mm, tt, a, _, _, b, c⟩ := C64_turnover_breaks_bound boundE linSpl_lin linSpl_conv (boundHM true) (boundHM_ok _) 1e11 1e15 (by norm_num) (by norm_num)
    (fun h => absurd (show false = true from h) (by simp)) rfl (fun m => m⁻¹) (fun m => m) (fun _ _ => 1 / 2) (fun _ _ => 1 / 2) (fun _ _ => 1) inv_cont continuousOn_id
    (fun _ => continuousOn_const) (fun _ => continuousOn_const) (by rw [boundHM_cent]; exact z1) z2 0 (by change 0 < 2; norm_num) (by
      rw [e]
      change (1e15:ℝ) ≤ 4 * Real.pi * 1 * 1e20 / 3 * (Real.pi / 1 / 10) ^ 3
      have hp := Real.pi_gt_three
      have : (3 / 1 / 10 : ℝ) ^ 3 ≤ (Real.pi / 1 / 10) ^ 3 := by gcongr
      have h2 : (4 * 3 * 1 * 1e20 / 3 : ℝ) ≤ 4 * Real.pi * 1 * 1e20 / 3 := by gcongr
      calc (1e15:ℝ) ≤ (4 * 3 * 1 * 1e20 / 3) * (3 / 1 / 10) ^ 3 := by norm_num
        _ ≤ _ := mul_le_mul h2 this (by norm_num) (by positivity)) inv_pos' (fun _ _ => by norm_num) (fun _ _ => by norm_num)
    (fun m _ => by rw [boundHM_cent]; exact (z3 m).1) (fun m _ => z4 m) one_pos
  rw [e] at b c
  exact ⟨tm, mm, tt, a, b, c.mono fun n hn => hn.1⟩

example : ∃ tm mm tt : ℕ → ℝ → ℝ, (∀ n, (fine (boundHM true) 1e11 1e15 (fun m => m⁻¹) (fun m => m) (fun _ _ => 1 / 2) (fun _ _ => 1 / 2) (fun _ _ => 1) n).power2hCross boundE = some (tm n)) ∧
    ∀ᶠ n in atTop, mm n ((boundHM true).k 0) * tt n ((boundHM true).k 0) < tm n ((boundHM true).k 0) ^ 2 := by
  obtain ⟨z1, z2, z3, z4⟩ := zheng_parts 1e11 1e15 (by norm_num)
  obtain ⟨tm, mm, tt, a, _, _, b⟩ := C64_two_halo boundE linSpl_lin linSpl_conv (boundHM true) (boundHM_ok _) 1e11 1e15 (by norm_num) (by norm_num)
    (fun h => absurd (show false = true from h) (by simp)) rfl rfl one_pos (fun m => m⁻¹) (fun m => m) (fun _ _ => 1 / 2) (fun _ _ => 1 / 2) (fun _ _ => 1) inv_cont continuousOn_id
    (fun _ => continuousOn_const) (fun _ => continuousOn_const) (by rw [boundHM_cent]; exact z1) z2 inv_pos' (fun m hm => lt_of_lt_of_le (by norm_num) hm.1)
    (fun m _ => by rw [boundHM_cent]; exact (z3 m).1) (fun m _ => z4 m)
  refine ⟨tm, mm, tt, a, (b 0 (by change 0 < 2; norm_num)).2 (fun _ _ => by norm_num) (fun _ _ => by norm_num) ?_⟩
  change (1:ℝ) + ((0:ℕ):ℝ) ≠ 0
  simp

end Halomod.HaloModel
