import Verif.Props.Hod

/-! # C05, continued: no occupation, count or pair function of any HOD class is ever negative -/
namespace Halomod.HOD

/-- the parameter ranges that the class documentation presupposes, where a class has any: amplitudes are not negative. -/
def HodInst.Legal : HodInst → Prop
  | .contreras13 p => 0 ≤ p.fca ∧ p.fca ≤ 1 ∧ 0 ≤ p.fcb ∧ 0 ≤ p.fs
  | .spinelli19 p => 0 ≤ p.a1 ∧ 0 ≤ p.a2
  | .leauthaud11 _ p => 0 ≤ p.bsat
  | .continuousPowerLaw p => 0 ≤ p.sigma_A
  | .constant p => 0 ≤ p.sigma_A
  | _ => True

/-- nothing a caller can ask of the HOD at mass `m` is negative. -/
structure Hod.NonNeg (h : Hod) (m : ℝ) : Prop where
  cenOcc : 0 ≤ h.cenOcc m
  satOcc : 0 ≤ h.satOcc m
  nc : 0 ≤ h.nc m
  ns : 0 ≤ h.ns m
  ssPairs : 0 ≤ h.ssPairs m
  csPairs : 0 ≤ h.csPairs m
  sigmaSat : 0 ≤ h.sigmaSat m
  sigmaCen : 0 ≤ h.sigmaCen m
  totalOcc : 0 ≤ h.totalOcc m
  totalPairs : 0 ≤ h.totalPairs m

theorem poisson_nonNeg (d : PoissonDef) (c : Bool) (m : ℝ) (h1 : 0 ≤ d.cen m) (h2 : 0 ≤ d.sat m) (h3 : 0 ≤ d.tpc m) (h4 : 0 ≤ d.tps m)
    (h5 : 0 ≤ d.sigC m) : (poisson d c).NonNeg m := by
  have hn : 0 ≤ d.cen m / d.tpc m := div_nonneg h1 h3
  have hs : 0 ≤ satelliteOccupation c d.inherent (fun m => d.cen m / d.tpc m) d.sat m := by
    unfold satelliteOccupation
    split_ifs
    · exact mul_nonneg hn h2
    · exact h2
  have hcs : 0 ≤ (poisson d c).csPairs m := by
    simp only [poisson]
    split_ifs
    · exact mul_nonneg hs h3
    · exact mul_nonneg h1 hs
  exact ⟨h1, hs, hn, div_nonneg hs h4, sq_nonneg _, hcs, Real.sqrt_nonneg _, h5, add_nonneg h1 hs, add_nonneg (sq_nonneg _) hcs⟩

theorem bulk_nonNeg (sharp : Bool) (sat sigS : ℝ → ℝ) (mm : ℝ) (c : Bool) (m : ℝ) (h1 : 0 ≤ sat m) (h2 : 0 ≤ sigS m) :
    (bulk sharp sat sigS mm c).NonNeg m := by
  have hs : 0 ≤ satelliteOccupation false false (fun _ => 0) sat m := by simpa [satelliteOccupation] using h1
  exact ⟨le_rfl, hs, le_rfl, le_rfl, sq_nonneg _, le_rfl, h2, le_rfl, add_nonneg le_rfl hs, add_nonneg (sq_nonneg _) le_rfl⟩

/-- C05: for every HOD class, both values of `central`, every positive mass and all parameters with non-negative amplitudes:
occupations, numbers, pair functions, scatters and totals are all non-negative. -/
theorem C05_nonneg (i : HodInst) (hi : i.Legal) (c : Bool) (m : ℝ) (hm : 0 < m) : (i.mk c).NonNeg m := by
  have hcen : ∀ M : ℝ, 0 ≤ zehaviCen M m := by intro M; unfold zehaviCen; split_ifs <;> norm_num
  have hmax : ∀ M N : ℝ, 0 ≤ zehaviMaxCen M N m := by intro M N; unfold zehaviMaxCen; split_ifs <;> norm_num
  have hsat : ∀ M a : ℝ, 0 ≤ zehaviSat M a m := by intro M a; unfold zehaviSat; positivity
  cases i with
  | zehavi05 p => exact poisson_nonNeg _ c m (hcen _) (hsat _ _) zero_le_one zero_le_one (Real.sqrt_nonneg _)
  | zheng05 p =>
    refine poisson_nonNeg _ c m ?_ ?_ zero_le_one zero_le_one (Real.sqrt_nonneg _)
    · change 0 ≤ zhengCen p m
      unfold zhengCen
      have := neg_one_lt_erf ((log10 m - p.M_min) / p.sig_logm)
      linarith
    · change 0 ≤ zhengSat p m
      unfold zhengSat
      split_ifs with h
      · have : (0:ℝ) ≤ m - 10 ^ p.M_0 := by linarith
        positivity
      · exact le_rfl
  | contreras13 p =>
    obtain ⟨h1, h2, h3, h4⟩ := hi
    obtain ⟨a, -, b, -⟩ := C03_contreras_range p h1 h2 h3 h4 false m hm
    exact poisson_nonNeg _ c m a b zero_le_one zero_le_one (Real.sqrt_nonneg _)
  | tinker05 p =>
    refine poisson_nonNeg _ c m (hcen _) ?_ zero_le_one zero_le_one (Real.sqrt_nonneg _)
    change 0 ≤ tinkerSat p m
    unfold tinkerSat
    split_ifs
    · exact le_rfl
    · have := hcen p.M_min
      positivity
  | zehavi05WithMax p => exact poisson_nonNeg _ c m (hmax _ _) (hsat _ _) zero_le_one zero_le_one (Real.sqrt_nonneg _)
  | zehavi05Marked p =>
    have hA : (0:ℝ) ≤ 10 ^ p.logA := by positivity
    exact poisson_nonNeg _ c m (mul_nonneg (hmax _ _) hA) (mul_nonneg (hsat _ _) hA) hA hA (Real.sqrt_nonneg _)
  | continuousPowerLaw p =>
    refine bulk_nonNeg _ _ _ _ c m ?_ (by rw [one_mul]; exact hi)
    unfold cplSat
    split_ifs
    · positivity
    · exact le_rfl
  | constant p =>
    refine bulk_nonNeg _ _ _ _ c m ?_ (by rw [one_mul]; exact hi)
    unfold constSat
    split_ifs
    · positivity
    · exact le_rfl
  | spinelli19 p =>
    obtain ⟨h1, h2⟩ := hi
    refine poisson_nonNeg _ c m ?_ ?_ ?_ ?_ (Real.sqrt_nonneg _)
    · change 0 ≤ spinelliCen p m
      unfold spinelliCen; positivity
    · change 0 ≤ spinelliSat p m
      unfold spinelliSat
      split_ifs <;> positivity
    · change 0 ≤ spinelliTpc p m
      unfold spinelliTpc; split_ifs <;> norm_num
    · change 0 ≤ spinelliTps p m
      unfold spinelliTps
      split_ifs
      · positivity
      · exact le_rfl
  | leauthaud11 I p =>
    have hc : 0 ≤ leauthaudCen I p m := by
      unfold leauthaudCen
      have := erf_lt_one ((p.sm_thresh - p.meanLogStellarMass I m) / (Real.sqrt 2 * p.sig_logmstar))
      linarith
    refine poisson_nonNeg _ c m hc ?_ zero_le_one zero_le_one (Real.sqrt_nonneg _)
    change 0 ≤ leauthaudSat I p m
    unfold leauthaudSat
    have hb : 0 ≤ p.scaled p.bsat p.betasat := by
      have : 0 ≤ p.bsat := hi
      unfold LeauthaudP.scaled
      positivity
    have : 0 ≤ (m / p.scaled p.bsat p.betasat) ^ p.alphasat := Real.rpow_nonneg (div_nonneg hm.le hb) _
    positivity

/-- the default parameters of the classes with conditions meet them. -/
example : (HodInst.contreras13 {}).Legal ∧ (HodInst.spinelli19 {}).Legal ∧ (HodInst.continuousPowerLaw {}).Legal ∧
    (HodInst.constant {}).Legal ∧ ∀ I, (HodInst.leauthaud11 I {}).Legal := by
  refine ⟨?_, ?_, ?_, ?_, fun I => ?_⟩ <;> norm_num [HodInst.Legal]

end Halomod.HOD
