import Verif.Props.HaloModel2
import Verif.Props.Bias
import Mathlib.Data.List.GetD

/-! # A concrete halo model meeting the hypotheses of C36, C39, C44; C40 -/
namespace Halomod.HaloModel

open Finset Halomod.Tools Halomod.HOD Halomod.Exclusion

noncomputable section

/-- routines meeting the assumptions: polynomial interpolation, no extrapolation, zero transform. -/
def demoE : Env := { isp := polySpl, us := fun _ _ _ _ => 0, hankel := fun _ _ => 0 }

theorem demoE_lin : SplLin demoE.isp := polySpl_lin

/-- two masses on either side of `M_min = 10^12`, `Zehavi05` with the central condition, a mass function
such that `m n(m) N(m) = 1`, profile 1 at the first wavenumber. -/
def demoHM : HM where
  nm := 2
  m := fun i => 10 ^ ((11.5:ℝ) + i)
  dndm := fun i => 1 / (10 ^ ((11.5:ℝ) + i) * (1 + (zehavi05 { M_min := 12 } true).satOcc (10 ^ ((11.5:ℝ) + i))))
  bias := fun i => 1 + i
  nk := 2
  k := fun j => 1 + j
  nr := 2
  rt := fun j => 1 + j
  hod := zehavi05 { M_min := 12 } true
  ut := fun j _ => if j = 0 then 1 else 1 / 2
  uh := fun j _ => if j = 0 then 1 else 1 / 2
  rhoT := fun _ _ => 1
  lamT := some fun _ _ => 1
  lamH := none
  meanDensity0 := 1
  overdensity := 200
  rhoGtm := 1
  dlog10m := 1
  turnover := false
  forceUnity := true
  phc := fun k => k
  linPow := fun k => k
  filtered := false

theorem demo_ok : demoHM.Ok where
  m := ⟨fun i _ => by simp only [demoHM]; positivity, fun i j hij _ => by
    simp only [demoHM]
    apply Real.rpow_lt_rpow_of_exponent_lt (by norm_num)
    have : (i:ℝ) < j := by exact_mod_cast hij
    linarith⟩
  k := ⟨fun i _ => by simp only [demoHM]; positivity, fun i j hij _ => by
    simp only [demoHM]
    have : (i:ℝ) < j := by exact_mod_cast hij
    linarith⟩
  r := ⟨fun i _ => by simp only [demoHM]; positivity, fun i j hij _ => by
    simp only [demoHM]
    have : (i:ℝ) < j := by exact_mod_cast hij
    linarith⟩
  nm0 := by norm_num [demoHM]
  nk0 := by norm_num [demoHM]
  nr0 := by norm_num [demoHM]

theorem demo_cut : demoHM.cut := ⟨rfl, Or.inl rfl⟩

theorem demo_mmin : demoHM.tracerMmin = some (10 ^ (12:ℝ)) := by
  unfold HM.tracerMmin; rw [cut_true demo_cut]; rfl

theorem demo_low : demoHM.m 0 < 10 ^ demoHM.hod.mmin := by
  change (10:ℝ) ^ ((11.5:ℝ) + (0:ℕ)) < 10 ^ (12:ℝ)
  apply Real.rpow_lt_rpow_of_exponent_lt <;> norm_num

theorem demo_high : (10:ℝ) ^ demoHM.hod.mmin ≤ demoHM.m (demoHM.nm - 1) := by
  change (10:ℝ) ^ (12:ℝ) ≤ 10 ^ ((11.5:ℝ) + (1:ℕ))
  apply Real.rpow_le_rpow_of_exponent_le <;> norm_num

theorem demo_sat (i : ℕ) : 0 ≤ demoHM.hod.satOcc (demoHM.m i) := by
  have hm : 0 ≤ demoHM.m i := by simp only [demoHM]; positivity
  change 0 ≤ satelliteOccupation true false (fun m => zehaviCen 12 m / 1) (zehaviSat 12.851 1.049) (demoHM.m i)
  unfold satelliteOccupation zehaviCen zehaviSat
  simp only [Bool.not_false, Bool.and_self, if_true, div_one]
  split
  · simp
  · rw [one_mul]; exact Real.rpow_nonneg (div_nonneg hm (by positivity)) _

/-- two-point interpolation is linear. -/
theorem poly2 (x y : ℕ → ℝ) (t : ℝ) :
    polySpl 2 x y t = y 0 * ((t - x 1) / (x 0 - x 1)) + y 1 * ((t - x 0) / (x 1 - x 0)) := by
  unfold polySpl
  rw [sum_range_succ, sum_range_one]
  have h0 : (range 2).erase 0 = {1} := by decide
  have h1 : (range 2).erase 1 = {0} := by decide
  rw [h0, h1, prod_singleton, prod_singleton]

theorem demo_integrand (i : ℕ) :
    demoHM.m i * (demoHM.dndm i * demoHM.totOccInt i) = 1 := by
  have hm : 0 < demoHM.m i := by simp only [demoHM]; positivity
  have hN : demoHM.totOccInt i = 1 + demoHM.hod.satOcc (demoHM.m i) := by
    unfold HM.totOccInt HM.cenOccInt; rw [cut_true demo_cut, if_pos rfl]
  have hs := demo_sat i
  rw [hN]
  change demoHM.m i * (1 / (demoHM.m i * (1 + demoHM.hod.satOcc (demoHM.m i)))
    * (1 + demoHM.hod.satOcc (demoHM.m i))) = 1
  have : 1 + demoHM.hod.satOcc (demoHM.m i) ≠ 0 := by linarith
  field_simp

theorem demo_den : 0 < demoHM.meanTracerDen demoE := by
  unfold HM.meanTracerDen HM.S splineIntegral splIntegral
  simp only [if_true]
  rw [demo_mmin]
  simp only [Option.elim]
  have hlog := demo_ok.m.log_inc 0 1 (by norm_num) (by norm_num [demoHM])
  have h1 : Real.log (demoHM.m 0) < Real.log (10 ^ (12:ℝ)) :=
    Real.log_lt_log (demo_ok.m.pos 0 (by norm_num [demoHM])) demo_low
  have h2 : Real.log (10 ^ (12:ℝ)) < Real.log (demoHM.m (demoHM.nm - 1)) := by
    apply Real.log_lt_log (by positivity)
    change (10:ℝ) ^ (12:ℝ) < 10 ^ ((11.5:ℝ) + (1:ℕ))
    apply Real.rpow_lt_rpow_of_exponent_lt <;> norm_num
  rw [intervalIntegral.integral_congr (g := fun _ => (1:ℝ))]
  · rw [intervalIntegral.integral_const, smul_eq_mul, mul_one]; linarith
  · intro t ht
    rw [Set.uIcc_of_le h2.le] at ht
    simp only
    rw [Set.indicator_of_mem (show t ∈ Set.Icc _ _ from ⟨by linarith [ht.1], ht.2⟩)]
    rw [show demoE.isp = polySpl from rfl, show demoHM.nm = 2 from rfl, poly2]
    simp only [demo_integrand]
    have : Real.log (demoHM.m 0) - Real.log (demoHM.m 1) ≠ 0 := by
      have := hlog; exact (sub_neg.mpr this).ne
    have h3 : Real.log (demoHM.m 1) - Real.log (demoHM.m 0) ≠ 0 := by
      have := hlog; exact (sub_pos.mpr this).ne'
    field_simp
    ring

/-- C36_mean_density_cut_partial is not vacuous. -/
example : ∃ g : ℝ → ℝ, demoHM.meanTracerDen demoE = (∫ M in (10:ℝ) ^ demoHM.hod.mmin..demoHM.m (2 - 1), g M) ∧
    ∀ i < 2, (10:ℝ) ^ demoHM.hod.mmin ≤ demoHM.m i →
      g (demoHM.m i) = demoHM.dndm i * demoHM.hod.totalOcc (demoHM.m i) :=
  C36_mean_density_cut_partial demoE_lin demo_ok demo_cut
    (fun M hM => (C36_zehavi_tinker_occupation { M_min := 12 } {} true M).1 hM) demo_low.le demo_high

/-- C44_tracer_large_scale is not vacuous: at the first wavenumber of the demo model. -/
example : ∃ f, demoHM.power2hTracer demoE = some f ∧
    f (demoHM.k 0) = demoHM.biasEffTracer demoE ^ 2 * demoHM.phc (demoHM.k 0) :=
  C44_tracer_large_scale demoE_lin demo_ok demo_cut demo_low 0 (by norm_num [demoHM])
    (fun i _ => by simp [demoHM]) demo_den.ne'

/-- C39_tracer_analytic_partial and C36_one_halo_cut_not_applied apply to the demo model. -/
example : (∃ f ss cs, demoHM.corr1hTracer demoE = some f ∧ demoHM.corr1hSS demoE = some ss ∧
      demoHM.corr1hCS demoE = some cs ∧
      ∀ i < 2, f (demoHM.rt i) = (ss (demoHM.rt i) + 1) + (cs (demoHM.rt i) + 1)) ∧
    0 < demoHM.hod.mmin ∧ demoHM.hod.mmin ≤ demoHM.m 0 := by
  refine ⟨C39_tracer_analytic_partial demoE_lin demo_ok _ rfl (Or.inr demo_cut), ?_, ?_⟩
  · change (0:ℝ) < 12; norm_num
  · change (12:ℝ) ≤ 10 ^ ((11.5:ℝ) + (0:ℕ))
    calc (12:ℝ) ≤ 10 ^ (2:ℝ) := by norm_num
      _ ≤ _ := Real.rpow_le_rpow_of_exponent_le (by norm_num) (by norm_num)

/-- the quadrature weights of the demo model are non-negative, so C36_averages applies: its effective
bias lies in [1, 2]. -/
theorem demo_bias : (1 ≤ demoHM.biasEffTracer demoE ∧ demoHM.biasEffTracer demoE ≤ 2) := by
  refine (C36_averages demoE_lin demo_ok ?_ demo_den 1 2 ?_).1
  · intro i hi
    have hm : 0 < demoHM.m i := demo_ok.m.pos i hi
    have h1 : 0 ≤ demoHM.dndm i * demoHM.totOccInt i := by
      have := demo_integrand i
      by_contra hneg
      have : demoHM.m i * (demoHM.dndm i * demoHM.totOccInt i) < 0 :=
        mul_neg_of_pos_of_neg hm (not_le.mp hneg)
      linarith
    refine mul_nonneg h1 ?_
    unfold siW splineIntegral splIntegral
    rw [demo_mmin]
    simp only [if_true, Option.elim]
    have hlog := demo_ok.m.log_inc 0 1 (by norm_num) (by norm_num [demoHM])
    have h2 : Real.log (10 ^ (12:ℝ)) ≤ Real.log (demoHM.m (demoHM.nm - 1)) :=
      Real.log_le_log (by positivity) demo_high
    apply intervalIntegral.integral_nonneg h2
    intro t ht
    apply Set.indicator_nonneg
    intro t ht
    rw [show demoE.isp = polySpl from rfl, show demoHM.nm = 2 from rfl, poly2]
    have e1 : 0 ≤ (t - Real.log (demoHM.m 1)) / (Real.log (demoHM.m 0) - Real.log (demoHM.m 1)) :=
      div_nonneg_of_nonpos (by have := ht.2; change t ≤ Real.log (demoHM.m 1) at this; linarith) (by linarith)
    have e2 : 0 ≤ (t - Real.log (demoHM.m 0)) / (Real.log (demoHM.m 1) - Real.log (demoHM.m 0)) :=
      div_nonneg (by have := ht.1; linarith) (by linarith)
    have p0 := demo_ok.m.pos 0 (by norm_num [demoHM])
    have p1 := demo_ok.m.pos 1 (by norm_num [demoHM])
    apply add_nonneg <;> apply mul_nonneg
    · exact mul_nonneg p0.le (by split <;> norm_num)
    · exact e1
    · exact mul_nonneg p1.le (by split <;> norm_num)
    · exact e2
  · intro i hi
    have : (i:ℝ) ≤ 1 := by
      have : i ≤ 1 := by have : demoHM.nm = 2 := rfl; omega
      exact_mod_cast this
    have h0 : (0:ℝ) ≤ i := Nat.cast_nonneg i
    simp only [demoHM]
    constructor <;> linarith

/-! ## C40 -/

/-- C40: with a mass-independent halo bias `b`, the power of haloes in two mass ranges is `b^2` times the
halo-centre power, for every pair of ranges that are not single masses and whose mass-function integrals
do not vanish. -/
theorem C40_constant_bias (h : HM) (b : ℝ) (hb : ∀ i < h.nm, h.bias i = b) (Mmin Mmax : ℝ)
    (mmin mmax mmin2 mmax2 : Option ℝ) (k v : ℝ)
    (hv : h.powerHH Mmin Mmax mmin mmax mmin2 mmax2 k = some v)
    (hD : ∀ mn mx, (mn = mmin.getD Mmin ∧ mx = mmax.getD Mmax) ∨
        (mn = mmin2.getD (mmin.getD Mmin) ∧ mx = mmax2.getD (mmax.getD Mmax)) →
      simpsonX (h.maskIdx mn mx).length (fun i => h.m ((h.maskIdx mn mx).getD i 0))
        (fun i => h.dndm ((h.maskIdx mn mx).getD i 0)) ≠ 0) :
    v = b ^ 2 * h.phc k := by
  have key : ∀ mn mx, simpsonX (h.maskIdx mn mx).length (fun i => h.m ((h.maskIdx mn mx).getD i 0))
        (fun i => h.dndm ((h.maskIdx mn mx).getD i 0)) ≠ 0 → h.getB mn mx = b := by
    intro mn mx hne
    unfold HM.getB
    simp only
    have hlen : 0 < (h.maskIdx mn mx).length := by
      by_contra h0
      have h0' : (h.maskIdx mn mx).length = 0 := by omega
      apply hne
      rw [h0']
      simp [simpsonX, basicSimpsonX]
    rw [simpsonX_congr (g := fun i => b * h.dndm ((h.maskIdx mn mx).getD i 0)) hlen, simpsonX_mul]
    · field_simp
    · intro i hi
      have hmem : (h.maskIdx mn mx).getD i 0 ∈ h.maskIdx mn mx := by
        rw [List.getD_eq_getElem _ _ hi]; exact List.getElem_mem hi
      have : (h.maskIdx mn mx).getD i 0 < h.nm := by
        unfold HM.maskIdx at hmem ⊢
        exact List.mem_range.mp (List.mem_filter.mp hmem).1
      rw [hb _ this]
  unfold HM.powerHH at hv
  simp only at hv
  split_ifs at hv with hif
  rw [Option.some.injEq] at hv
  rw [← hv, key _ _ (hD _ _ (Or.inl ⟨rfl, rfl⟩)), key _ _ (hD _ _ (Or.inr ⟨rfl, rfl⟩))]
  ring

/-- C40: swapping the two mass ranges does not change the halo-halo power. -/
theorem C40_symmetric (h : HM) (Mmin Mmax a b a2 b2 k : ℝ) :
    h.powerHH Mmin Mmax (some a) (some b) (some a2) (some b2) k
      = h.powerHH Mmin Mmax (some a2) (some b2) (some a) (some b) k := by
  unfold HM.powerHH
  simp only [Option.getD_some]
  by_cases hc : a = b ∨ a2 = b2
  · rw [if_pos hc, if_pos (Or.symm hc)]
  · rw [if_neg hc, if_neg (fun h' => hc (Or.symm h')), mul_comm (h.getB a b)]

/-- C40: the second range defaults to the first, and the first to the model's mass range. -/
theorem C40_defaults (h : HM) (Mmin Mmax k : ℝ) (mmin mmax : Option ℝ) :
    h.powerHH Mmin Mmax mmin mmax none none k
      = h.powerHH Mmin Mmax mmin mmax (some (mmin.getD Mmin)) (some (mmax.getD Mmax)) k ∧
    h.powerHH Mmin Mmax none none none none k
      = h.powerHH Mmin Mmax (some Mmin) (some Mmax) (some Mmin) (some Mmax) k := by
  unfold HM.powerHH; simp

/-- C40 finding: the documented way to ask for a single halo mass (`mmax == mmin`, in either range) raises. -/
theorem C40_single_mass_raises (h : HM) (Mmin Mmax k a a2 b2 : ℝ) :
    h.powerHH Mmin Mmax (some a) (some a) none none k = none ∧
    h.powerHH Mmin Mmax (some a2) (some b2) (some a) (some a) k = none := by
  unfold HM.powerHH; simp

/-- C40: the halo bias of a range is a Simpson average over exactly the grid masses between the two limits
(both included). -/
theorem C40_range (h : HM) (mn mx : ℝ) (i : ℕ) :
    i ∈ h.maskIdx mn mx ↔ i < h.nm ∧ (10:ℝ) ^ mn ≤ h.m i ∧ h.m i ≤ 10 ^ mx := by
  unfold HM.maskIdx
  rw [List.mem_filter, List.mem_range, decide_eq_true_eq]

/-- C40, partial: at redshift zero the halo bias of the model is the bias function at the model's redshift.
Missing: any other redshift, where it is false (next theorem). -/
theorem C40_bias_redshift_zero_partial (spl : ℝ → Bias.TkRow) (x : Bias.TkExp) (d dc nu : ℝ) :
    haloBiasTinkerPB spl x d 0 dc nu = Bias.tinker10PBSplit spl x d 0 dc nu := rfl

/-- C40 finding: the bias component never receives the model's redshift.  With `Tinker10PBSplit` (whose
parameters evolve with redshift) the halo bias of a model at redshift `z > 0` is the redshift-zero one and
differs from the bias function at `z`. -/
theorem C40_bias_ignores_redshift (spl : ℝ → Bias.TkRow) {d z dc : ℝ} {r : Bias.TkRow}
    (hr : Bias.tkRow d = some r) (hz : 0 < z) (hdc : dc ≠ 0) :
    (∀ nu, haloBiasTinkerPB spl {} d z dc nu = Bias.tinker10PBSplit spl {} d 0 dc nu) ∧
    ∃ nu > 0, haloBiasTinkerPB spl {} d z dc nu ≠ Bias.tinker10PBSplit spl {} d z dc nu := by
  refine ⟨fun _ => rfl, ?_⟩
  by_contra hcon
  push Not at hcon
  have hγ0 : 0 < r.gamma := (Bias.tkRow_bounds hr).2.1
  have hw : 1 < 1 + min z 3 := by
    have : 0 < min z 3 := lt_min hz (by norm_num)
    linarith
  have hlt : r.gamma * (1 + min z 3) ^ (-0.01:ℝ) < r.gamma := by
    have : (1 + min z 3) ^ (-0.01:ℝ) < 1 := Real.rpow_lt_one_of_one_lt_of_neg hw (by norm_num)
    nlinarith
  -- abstract the two evolved rows
  have hform : ∀ (q : Bias.TkRow) (nu : ℝ), 0 < nu → |dc * (Bias.tinkerPB q dc nu - 1) - q.gamma * nu|
      ≤ |1 + 2 * q.eta| + |2 * q.phi| := by
    intro q nu hnu
    have e : dc * (Bias.tinkerPB q dc nu - 1) - q.gamma * nu
        = -(1 + 2 * q.eta) + 2 * q.phi / (1 + (q.beta ^ 2 * nu) ^ q.phi) := by
      unfold Bias.tinkerPB
      have h1 : 0 ≤ (q.beta ^ 2 * nu) ^ q.phi := by positivity
      have h2 : 1 + (q.beta ^ 2 * nu) ^ q.phi ≠ 0 := by linarith
      field_simp
      ring
    rw [e]
    refine (abs_add_le _ _).trans ?_
    rw [abs_neg]
    have h1 : 0 ≤ (q.beta ^ 2 * nu) ^ q.phi := by positivity
    have : |2 * q.phi / (1 + (q.beta ^ 2 * nu) ^ q.phi)| ≤ |2 * q.phi| := by
      rw [abs_div, abs_of_pos (show 0 < 1 + (q.beta ^ 2 * nu) ^ q.phi by linarith)]
      exact div_le_self (abs_nonneg _) (by linarith)
    linarith
  set q0 := Bias.tkEvolve r {} 0 with hq0
  set qz := Bias.tkEvolve r {} z with hqz
  have g0 : q0.gamma = r.gamma := by
    simp [hq0, Bias.tkEvolve]
  have gz : qz.gamma = r.gamma * (1 + min z 3) ^ (-0.01:ℝ) := by simp [hqz, Bias.tkEvolve]
  set C := |1 + 2 * q0.eta| + |2 * q0.phi| + (|1 + 2 * qz.eta| + |2 * qz.phi|) with hC
  have hC0 : 0 ≤ C := by positivity
  have hgap : 0 < q0.gamma - qz.gamma := by rw [g0, gz]; linarith
  set nu := (C + 1) / (q0.gamma - qz.gamma) with hnu
  have hnup : 0 < nu := by positivity
  have heq := hcon nu hnup
  have e0 : haloBiasTinkerPB spl {} d z dc nu = Bias.tinkerPB q0 dc nu := by
    simp [haloBiasTinkerPB, Bias.tinker10PBSplit, hr, hq0]
  have ez : Bias.tinker10PBSplit spl {} d z dc nu = Bias.tinkerPB qz dc nu := by
    simp [Bias.tinker10PBSplit, hr, hqz]
  rw [e0, ez] at heq
  have b0 := abs_le.mp (hform q0 nu hnup)
  have bz := abs_le.mp (hform qz nu hnup)
  rw [heq] at b0
  have : (q0.gamma - qz.gamma) * nu = C + 1 := by rw [hnu]; field_simp
  have : (q0.gamma - qz.gamma) * nu ≤ C := by rw [hC]; nlinarith [b0.1, b0.2, bz.1, bz.2]
  linarith

/-- the hypotheses hold for the default overdensity 200 at redshift 1. -/
example (spl : ℝ → Bias.TkRow) : ∃ nu > 0,
    haloBiasTinkerPB spl {} 200 1 1.686 nu ≠ Bias.tinker10PBSplit spl {} 200 1 1.686 nu :=
  (C40_bias_ignores_redshift spl (r := ⟨0.589, 0.864, -0.729, -0.243⟩) (by simp [Bias.tkRow]) one_pos
    (by norm_num)).2

/-- C40_constant_bias applies: on a two-point grid the mass-function integral of the whole range is
positive. -/
example : simpsonX (demoHM.maskIdx 0 20).length (fun i => demoHM.m ((demoHM.maskIdx 0 20).getD i 0))
    (fun i => demoHM.dndm ((demoHM.maskIdx 0 20).getD i 0)) ≠ 0 := by
  have hidx : demoHM.maskIdx 0 20 = [0, 1] := by
    have hin : ∀ i ∈ List.range 2, (10:ℝ) ^ (0:ℝ) ≤ demoHM.m i ∧ demoHM.m i ≤ 10 ^ (20:ℝ) := by
      intro i hi
      have hi2 : i ≤ 1 := by have := List.mem_range.mp hi; omega
      have hi3 : (i:ℝ) ≤ 1 := by exact_mod_cast hi2
      have h0 : (0:ℝ) ≤ i := Nat.cast_nonneg i
      simp only [demoHM]
      constructor <;> apply Real.rpow_le_rpow_of_exponent_le <;> linarith
    unfold HM.maskIdx
    rw [show demoHM.nm = 2 from rfl, List.filter_eq_self.mpr (fun i hi => by simpa using hin i hi)]
    rfl
  rw [hidx]
  have hm := demo_ok.m.inc 0 1 (by norm_num) (by norm_num [demoHM])
  have hd : ∀ i, 0 < demoHM.dndm i := by
    intro i
    have hs := demo_sat i
    have hm : 0 < demoHM.m i := by simp only [demoHM]; positivity
    change 0 < 1 / (demoHM.m i * (1 + demoHM.hod.satOcc (demoHM.m i)))
    positivity
  have h0 := hd 0
  have h1 := hd 1
  have h2 : 0 < (demoHM.m 1 - demoHM.m 0) := by linarith
  change simpsonX 2 _ _ ≠ 0
  unfold simpsonX
  rw [if_pos rfl, if_pos rfl]
  apply ne_of_gt
  change 0 < 0.5 * (demoHM.m 1 - demoHM.m 0) * (demoHM.dndm 1 + demoHM.dndm 0)
  positivity

end
end Halomod.HaloModel
