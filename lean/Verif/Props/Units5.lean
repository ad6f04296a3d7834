import Verif.Props.Units4

/-! # C78: occupations in other units of mass; two-halo terms, totals and correlations -/
namespace Halomod.HOD

open Halomod.HaloModel

theorem ten_shift (s M : ℝ) : (10:ℝ) ^ (M + s) = 10 ^ s * 10 ^ M := by
  rw [Real.rpow_add (by norm_num), mul_comm]

theorem ratio_shift (s M m : ℝ) : (10:ℝ) ^ s * m / 10 ^ (M + s) = m / 10 ^ M := by
  rw [ten_shift, mul_div_mul_left _ _ (by positivity)]

theorem lt_shift (s M m : ℝ) : (10:ℝ) ^ s * m < 10 ^ (M + s) ↔ m < 10 ^ M := by
  rw [ten_shift, mul_lt_mul_iff_right₀ (by positivity)]

theorem gt_shift (s M m : ℝ) : (10:ℝ) ^ s * m > 10 ^ (M + s) ↔ m > 10 ^ M := by
  rw [ten_shift, gt_iff_lt, mul_lt_mul_iff_right₀ (by positivity)]

theorem ge_shift (s M m : ℝ) : (10:ℝ) ^ s * m ≥ 10 ^ (M + s) ↔ m ≥ 10 ^ M := by
  rw [ten_shift, ge_iff_le, mul_le_mul_iff_right₀ (by positivity)]

theorem le_shift (s M m : ℝ) : (10:ℝ) ^ s * m ≤ 10 ^ (M + s) ↔ m ≤ 10 ^ M := by
  rw [ten_shift, mul_le_mul_iff_right₀ (by positivity)]

theorem log_shift (s M m : ℝ) (hm : 0 < m) : log10 (10 ^ s * m) - (M + s) = log10 m - M := by
  unfold log10
  rw [Real.logb_mul (by positivity) hm.ne', Real.logb_rpow (by norm_num) (by norm_num)]
  ring

/-- a Poisson occupation in other units of mass, from its parts. -/
theorem poisson_units {s : ℝ} (d d' : PoissonDef) (central : Bool) (hi : d'.inherent = d.inherent) (hs : d'.sharpCut = d.sharpCut) (hm : d'.mmin = d.mmin + s)
    (hc : ∀ m, 0 < m → d'.cen (10 ^ s * m) = d.cen m) (hsat : ∀ m, 0 < m → d'.sat (10 ^ s * m) = d.sat m) (ht : ∀ m, 0 < m → d'.tpc (10 ^ s * m) = d.tpc m) :
    HodUnits (10 ^ s) (poisson d central) (poisson d' central) := by
  have hS : ∀ m, 0 < m → (poisson d' central).satOcc (10 ^ s * m) = (poisson d central).satOcc m := fun m h0 => by
    simp only [poisson, satelliteOccupation, hi, hc m h0, hsat m h0, ht m h0]
  refine ⟨rfl, hi, hs, ?_, hc, hS, fun m h0 => ?_, fun m h0 => ?_⟩
  · change (10:ℝ) ^ d'.mmin = _
    rw [hm, ten_shift]
    rfl
  · change (poisson d' central).satOcc (10 ^ s * m) ^ 2 = (poisson d central).satOcc m ^ 2
    rw [hS m h0]
  · change (if central then (poisson d' central).satOcc (10 ^ s * m) * d'.tpc (10 ^ s * m) else d'.cen (10 ^ s * m) * (poisson d' central).satOcc (10 ^ s * m)) = _
    rw [hS m h0, ht m h0, hc m h0]
    rfl

/-- a bulk occupation in other units of mass. -/
theorem bulk_units {s : ℝ} (sharp central : Bool) (sat sat' sig sig' : ℝ → ℝ) (mm : ℝ) (h : ∀ m, 0 < m → sat' (10 ^ s * m) = sat m) :
    HodUnits (10 ^ s) (bulk sharp sat sig mm central) (bulk sharp sat' sig' (mm + s) central) := by
  refine ⟨rfl, rfl, rfl, ten_shift s mm, fun _ _ => rfl, fun m h0 => ?_, fun m h0 => ?_, fun _ _ => rfl⟩
  · simp only [bulk, satelliteOccupation, Bool.false_eq_true, if_false, Bool.false_and]
    exact h m h0
  · simp only [bulk, satelliteOccupation, Bool.false_eq_true, if_false, Bool.false_and]
    rw [h m h0]

theorem zehaviCen_shift (s M m : ℝ) : zehaviCen (M + s) (10 ^ s * m) = zehaviCen M m := by
  unfold zehaviCen
  simp only [lt_shift]

theorem zehaviSat_shift (s M a m : ℝ) : zehaviSat (M + s) a (10 ^ s * m) = zehaviSat M a m := by
  unfold zehaviSat
  rw [ratio_shift]

theorem zehaviMaxCen_shift (s M X m : ℝ) : zehaviMaxCen (M + s) (X + s) (10 ^ s * m) = zehaviMaxCen M X m := by
  unfold zehaviMaxCen
  simp only [ge_shift, le_shift]

/-- C78: an occupation of each of these classes is the same in other units of mass (`10 ^ s` new units to an old one) when `s` is added to its logarithmic
masses and its other parameters are kept. -/
theorem C78_occupations (s : ℝ) (central : Bool) :
    (∀ p : ZehaviP, HodUnits (10 ^ s) (zehavi05 p central) (zehavi05 { p with M_min := p.M_min + s, M_1 := p.M_1 + s } central)) ∧
    (∀ p : ZhengP, HodUnits (10 ^ s) (zheng05 p central) (zheng05 { p with M_min := p.M_min + s, M_1 := p.M_1 + s, M_0 := p.M_0 + s } central)) ∧
    (∀ p : ContrerasP, HodUnits (10 ^ s) (contreras13 p central) (contreras13 { p with M_min := p.M_min + s, M_1 := p.M_1 + s, M_0 := p.M_0 + s } central)) ∧
    (∀ p : TinkerP, HodUnits (10 ^ s) (tinker05 p central) (tinker05 { p with M_min := p.M_min + s, M_1 := p.M_1 + s, M_cut := p.M_cut + s } central)) ∧
    (∀ p : ZehaviMaxP, HodUnits (10 ^ s) (zehavi05WithMax p central) (zehavi05WithMax { p with M_min := p.M_min + s, M_1 := p.M_1 + s, M_max := p.M_max + s } central)) ∧
    (∀ p : MarkedP, HodUnits (10 ^ s) (zehavi05Marked p central) (zehavi05Marked { p with M_min := p.M_min + s, M_1 := p.M_1 + s, M_max := p.M_max + s } central)) ∧
    (∀ p : CplP, HodUnits (10 ^ s) (continuousPowerLaw p central) (continuousPowerLaw { p with M_min := p.M_min + s, M_1 := p.M_1 + s, M_max := p.M_max + s } central)) ∧
    (∀ p : ConstP, HodUnits (10 ^ s) (constant p central) (constant { p with M_min := p.M_min + s } central)) := by
  refine ⟨fun p => ?_, fun p => ?_, fun p => ?_, fun p => ?_, fun p => ?_, fun p => ?_, fun p => ?_, fun p => ?_⟩
  · exact poisson_units _ _ _ rfl rfl rfl (fun m _ => zehaviCen_shift s _ m) (fun m _ => zehaviSat_shift s _ _ m) fun _ _ => rfl
  · refine poisson_units _ _ _ rfl rfl (by dsimp only; ring) (fun m hm => ?_) (fun m _ => ?_) fun _ _ => rfl
    · dsimp only [zhengCen]
      rw [log_shift s _ m hm]
    · dsimp only [zhengSat]
      simp only [gt_shift]
      split_ifs
      · rw [ten_shift s p.M_0, ← mul_sub, ratio_shift]
      · rfl
  · refine poisson_units _ _ _ rfl rfl rfl (fun m _ => ?_) (fun m _ => ?_) fun _ _ => rfl
    · dsimp only [contrerasCen]
      rw [ratio_shift]
    · dsimp only [contrerasSat]
      rw [ratio_shift]
  · refine poisson_units _ _ _ rfl rfl rfl (fun m _ => zehaviCen_shift s _ m) (fun m _ => ?_) fun _ _ => rfl
    dsimp only [tinkerSat]
    have he : (10:ℝ) ^ s * m = 10 ^ (p.M_min + s) ↔ m = 10 ^ p.M_min := by
      rw [ten_shift]
      exact mul_right_inj' (by positivity)
    simp only [he, zehaviCen_shift, ratio_shift]
    rw [ten_shift s p.M_cut, ten_shift s p.M_min, ← mul_sub, ← mul_neg, mul_div_mul_left _ _ (by positivity)]
  · exact poisson_units _ _ _ rfl rfl rfl (fun m _ => zehaviMaxCen_shift s _ _ m) (fun m _ => zehaviSat_shift s _ _ m) fun _ _ => rfl
  · refine poisson_units _ _ _ rfl rfl rfl (fun m _ => ?_) (fun m _ => ?_) fun _ _ => rfl
    · dsimp only
      rw [zehaviMaxCen_shift]
    · dsimp only
      rw [zehaviSat_shift]
  · refine bulk_units _ _ _ _ _ _ _ fun m _ => ?_
    dsimp only [cplSat]
    simp only [ge_shift, le_shift, ratio_shift]
  · refine bulk_units _ _ _ _ _ _ _ fun m _ => ?_
    dsimp only [constSat]
    simp only [gt_shift]

/-- C78 finding: `Spinelli19` cannot be written in other units of mass, by any choice of its parameters and even if the amount of gas it describes may be converted by
any factor: its satellite occupation starts at the hard-coded mass `10 ** 11`. -/
theorem C78_spinelli_hard_coded (μ κ : ℝ) (hμ : 0 < μ) (h1 : μ ≠ 1) (hκ : κ ≠ 0) (p p' : SpinelliP) :
    ¬ ∀ m, 0 < m → (spinelli19 p' false).satOcc (μ * m) = κ * (spinelli19 p false).satOcc m := by
  have hpos (q : SpinelliP) (m : ℝ) (hm : (10:ℝ) ^ 11 ≤ m) : spinelliSat q m ≠ 0 := by
    unfold spinelliSat
    have h0 : 0 < m := lt_of_lt_of_le (by norm_num) hm
    rw [if_pos hm]
    have : 0 < m / 10 ^ q.M_break_sat := by positivity
    positivity
  have hzero (q : SpinelliP) (m : ℝ) (hm : m < (10:ℝ) ^ 11) : spinelliSat q m = 0 := by
    unfold spinelliSat
    rw [if_neg (not_le.mpr hm), mul_zero]
  have e (q : SpinelliP) (m : ℝ) : (spinelli19 q false).satOcc m = spinelliSat q m := rfl
  intro h
  simp only [e] at h
  rcases lt_or_gt_of_ne h1 with hlt | hgt
  · have := h (10 ^ 11) (by norm_num)
    rw [hzero p' (μ * 10 ^ 11) (mul_lt_of_lt_one_left (by norm_num) hlt)] at this
    exact mul_ne_zero hκ (hpos p (10 ^ 11) le_rfl) this.symm
  · have := h (10 ^ 11 / μ) (by positivity)
    rw [hzero p (10 ^ 11 / μ) (div_lt_self (by norm_num) hgt), mul_zero, mul_div_cancel₀ _ hμ.ne'] at this
    exact hpos p' _ le_rfl this

end Halomod.HOD

namespace Halomod.HaloModel

open Finset Halomod.Tools Halomod.Exclusion Halomod.HOD

section
variable {E : Env} {h : HM} {μ l : ℝ} {hod' : Hod}

theorem matterExcl_pos (hp : h.Pos) (hd : 0 < h.overdensity * h.meanDensity0) (sd : Option (ℕ → ℝ)) : ExclPos (h.matterExclX sd) := ⟨hp.m, hd⟩
theorem tracerExcl_pos (hp : h.Pos) (hd : 0 < h.overdensity * h.meanDensity0) (sd : Option (ℕ → ℝ)) : ExclPos (h.tracerExclX E sd) := ⟨hp.m, hd⟩

/-- C78: the two-halo spectra without exclusion are the same in other units. -/
theorem C78_two_halo_power (he : EnvUnits E) (hh : HodUnits μ h.hod hod') (hp : h.Pos) (hd : 0 < h.overdensity * h.meanDensity0) (hlin : h.linPow (h.k 0) ≠ 0)
    (hμ : 0 < μ) (hl : 0 < l) :
    SameSpectrum l ((units μ l hod' h).power2hTracer E) (h.power2hTracer E) ∧
    SameSpectrum l ((units μ l hod' h).power2hMatter E) (h.power2hMatter E) ∧
    SameSpectrum l ((units μ l hod' h).power2hCross E) (h.power2hCross E) := by
  have hb := C78_averages he hh hp hμ hl
  refine ⟨?_, ?_, ?_⟩
  · have := prim_units (hod' := hod') (l := l) (μ := μ) he (fun _ _ => 0) .noExclusion (h.tracerExclX E none) (tracerExcl_pos hp hd none) hp hlin hμ hl (h.biasEffTracer E) false h.nr 0
    rw [← units_tracerExcl he hh hp hμ hl none] at this
    unfold HM.power2hTracer
    rw [hb.2.1]
    exact this
  · have := prim_units (hod' := hod') (l := l) (μ := μ) he (fun _ _ => 0) .noExclusion (h.matterExclX none) (matterExcl_pos hp hd none) hp hlin hμ hl (h.biasEffMatter E) h.forceUnity h.nr 0
    rw [← units_matterExcl hμ hl none] at this
    unfold HM.power2hMatter
    rw [hb.2.2.2.2.1]
    exact this
  · set up : Ext := if h.filtered then .callable fun _ => 0 else .powerLaw with hup
    refine low_units (h := h) he hp hl (h.power2hCrossTab E) ((units μ l hod' h).power2hCrossTab E) (fun j => ?_) up (by rw [hup]; split_ifs <;> rfl)
      (by rw [hup]; split_ifs <;> first | trivial | exact Or.inr fun t => rfl) .powerLaw rfl trivial
    unfold HM.power2hCrossTab
    have hl0 := hl.ne'
    have hμ0 := hμ.ne'
    rw [density_units he hh hp hμ hl, T_units he hh hp hμ (1 / (μ * l ^ 3)) (fun i => h.dndm i * h.bias i * (h.cenOccInt i + h.hod.satOcc (h.m i) * h.ut j i)) _ fun i => by
      rw [units_cenOcc hh hp]
      change h.dndm i / (μ * l ^ 3) * h.bias i * (_ + hod'.satOcc (μ * h.m i) * h.ut j i) = _
      rw [hh.sat _ (hp.m i)]
      ring]
    have h2 := S_units (l := l) (hod' := hod') he hp hμ (1 / l ^ 3) (fun i => h.dndm i * h.bias i * h.m i * h.uh j i)
      (fun i => h.dndm i / (μ * l ^ 3) * h.bias i * (μ * h.m i) * h.uh j i) (fun i => by field_simp) none (by simp)
    rw [Option.map_none] at h2
    change _ * (units μ l hod' h).S E (fun i => h.dndm i / (μ * l ^ 3) * h.bias i * (μ * h.m i) * h.uh j i) none * (l ^ 3 * h.phc (l * (l⁻¹ * h.k j))) /
      (_ * (μ / l ^ 3 * h.meanDensity0)) = _
    rw [h2, mul_inv_cancel_left₀ hl0]
    generalize h.S E _ h.tracerMmin = s
    generalize h.S E _ none = t
    rcases eq_or_ne h.meanDensity0 0 with h0 | h0
    · simp [h0]
    rcases eq_or_ne (h.meanTracerDen E) 0 with h1 | h1
    · simp [h1]
    field_simp

/-- C78: the total spectra are the same in other units; that of the tracers under the condition of `C78_one_halo_tracer_partial`. -/
theorem C78_total_power_partial (he : EnvUnits E) (hh : HodUnits μ h.hod hod') (hp : h.Pos) (hd : 0 < h.overdensity * h.meanDensity0) (hlin : h.linPow (h.k 0) ≠ 0)
    (hμ : 0 < μ) (hl : 0 < l) :
    SameSpectrum l ((units μ l hod' h).powerMatter E) (h.powerMatter E) ∧ SameSpectrum l ((units μ l hod' h).powerCross E) (h.powerCross E) ∧
    (h.Ok → 0 < h.hod.mmin ∧ h.hod.mmin ≤ h.m 0 → 0 < hod'.mmin ∧ hod'.mmin ≤ μ * h.m 0 → SameSpectrum l ((units μ l hod' h).powerTracer E) (h.powerTracer E)) := by
  obtain ⟨t1, t2, t3⟩ := C78_two_halo_power he hh hp hd hlin hμ hl
  obtain ⟨o1, o2⟩ := C78_one_halo_matter (E := E) he hh hp hμ hl
  refine ⟨o1.sum t2, o2.sum t3, fun ho hv hv' => ?_⟩
  rcases (C78_one_halo_tracer_partial he hh hp ho hμ hl hv hv').2.2 with ⟨h1, h2⟩ | ⟨f', f, h1, h2, h3⟩
  · unfold HM.powerTracer
    rw [h1, h2]
    exact Or.inl ⟨rfl, rfl⟩
  · rcases t1 with ⟨g1, g2⟩ | ⟨g', g, g1, g2, g3⟩
    · unfold HM.powerTracer
      rw [h1, h2, g1, g2]
      exact Or.inl ⟨rfl, rfl⟩
    · unfold HM.powerTracer
      rw [h1, h2, g1, g2]
      exact Or.inr ⟨_, _, rfl, rfl, fun k hk => by rw [h3 k hk, g3 k hk]; ring⟩

end
end Halomod.HaloModel
