import Verif.Model.HodFloat
import Mathlib.Tactic.NormNum
import Mathlib.Tactic.Linarith
import Mathlib.Tactic.Positivity
import Mathlib.Tactic.FieldSimp

/-!
# Property C05: occupations are numbers at every mass
-/
namespace Halomod.HOD

/-- C05 finding: for *every* parameter choice of `Tinker05` there are positive masses (just below
`10**M_min`, where there is no central) at which the satellite occupation is NaN: the exponential
overflows and `0 * inf` is formed. -/
theorem C05_tinker_nan (p : TinkerP) :
    ∃ m : ℝ, 0 < m ∧ m < 10 ^ p.M_min ∧ tinkerSatFl p m = Fl.nan := by
  have hmin : (0:ℝ) < 10 ^ p.M_min := by positivity
  have hcut : (0:ℝ) < 10 ^ p.M_cut := by positivity
  have he := Fl.expMax_pos
  -- distance below threshold
  set δ : ℝ := min (10 ^ p.M_min / 2) (10 ^ p.M_cut / Fl.expMax) with hδ
  have hδ0 : 0 < δ := lt_min (by positivity) (by positivity)
  have hδ1 : δ ≤ 10 ^ p.M_min / 2 := min_le_left _ _
  have hδ2 : δ ≤ 10 ^ p.M_cut / Fl.expMax := min_le_right _ _
  refine ⟨10 ^ p.M_min - δ, by linarith, by linarith, ?_⟩
  have hz : zehaviCen p.M_min (10 ^ p.M_min - δ) = 0 := if_pos (by linarith)
  have hq : ¬ (-(10 ^ p.M_cut) / (-δ) < Fl.expMax) := by
    rw [neg_div_neg_eq, not_lt, le_div_iff₀ hδ0]
    have := (le_div_iff₀ he).mp hδ2
    linarith
  have hsub : (10:ℝ) ^ p.M_min - δ - 10 ^ p.M_min = -δ := by ring
  simp only [tinkerSatFl, hz, hsub, Fl.divFin, neg_eq_zero, hδ0.ne', if_false, Fl.exp, hq,
    Fl.mul, if_true]

/-- C05 partial: `Tinker05` satellites are proper numbers, and those of the real-valued model, at and
above `10**M_min`, and at masses further than `10**M_cut/709.8` below it.  Missing: the band in
between (previous theorem). -/
theorem C05_tinker_partial (p : TinkerP) (m : ℝ) (hm : 0 < m)
    (h : 10 ^ p.M_min ≤ m ∨ m < 10 ^ p.M_min - 10 ^ p.M_cut / Fl.expMax) :
    tinkerSatFl p m = Fl.fin (tinkerSat p m) ∧ 0 ≤ tinkerSat p m ∧
      (m ≤ 10 ^ p.M_min → tinkerSat p m = 0) ∧
      (10 ^ p.M_min < m → 0 < tinkerSat p m ∧ tinkerSat p m < m / 10 ^ p.M_1) := by
  have hmin : (0:ℝ) < 10 ^ p.M_min := by positivity
  have hcut : (0:ℝ) < 10 ^ p.M_cut := by positivity
  have hM1 : (0:ℝ) < 10 ^ p.M_1 := by positivity
  have he := Fl.expMax_pos
  rcases lt_trichotomy m (10 ^ p.M_min) with hlt | heq | hgt
  · have h2 : m < 10 ^ p.M_min - 10 ^ p.M_cut / Fl.expMax := by
      rcases h with h | h
      · linarith
      · exact h
    have hz : zehaviCen p.M_min m = 0 := if_pos hlt
    have hne : m - 10 ^ p.M_min ≠ 0 := by linarith
    have hd : 0 < 10 ^ p.M_min - m := by linarith
    have hq : -(10 ^ p.M_cut) / (m - 10 ^ p.M_min) < Fl.expMax := by
      rw [← neg_sub (10 ^ p.M_min) m, neg_div_neg_eq, div_lt_iff₀ hd]
      have h3 : 10 ^ p.M_cut / Fl.expMax < 10 ^ p.M_min - m := by linarith
      have := (div_lt_iff₀ he).mp h3
      linarith
    have hs : tinkerSat p m = 0 := by
      simp only [tinkerSat, hlt.ne, if_false, hz]; simp
    refine ⟨?_, by rw [hs], fun _ => hs, fun h' => absurd h' (by linarith)⟩
    rw [hs]
    simp only [tinkerSatFl, hz, Fl.divFin, hne, hM1.ne', if_false, Fl.exp, hq, if_true, Fl.mul]
    simp
  · have hs : tinkerSat p m = 0 := by simp [tinkerSat, heq]
    have hz : zehaviCen p.M_min m = 1 := if_neg (by linarith)
    refine ⟨?_, by rw [hs], fun _ => hs, fun h' => absurd h' (by linarith)⟩
    rw [hs]
    have : ¬ (0:ℝ) < -(10 ^ p.M_cut) := by linarith
    simp only [tinkerSatFl, heq, sub_self, Fl.divFin, if_true, neg_eq_zero, hcut.ne', if_false,
      this, Fl.exp, Fl.mul, hM1.ne']
    simp
  · have hz : zehaviCen p.M_min m = 1 := if_neg (by linarith)
    have hne : m - 10 ^ p.M_min ≠ 0 := by linarith
    have hd : 0 < m - 10 ^ p.M_min := by linarith
    have hneg : -(10 ^ p.M_cut) / (m - 10 ^ p.M_min) < 0 :=
      div_neg_of_neg_of_pos (by linarith) hd
    have hq : -(10 ^ p.M_cut) / (m - 10 ^ p.M_min) < Fl.expMax := by linarith
    have hs : tinkerSat p m
        = Real.exp (-(10 ^ p.M_cut) / (m - 10 ^ p.M_min)) * (m / 10 ^ p.M_1) := by
      simp only [tinkerSat, hgt.ne', if_false, hz, one_mul]
    have hpos : 0 < tinkerSat p m := by rw [hs]; positivity
    refine ⟨?_, hpos.le, fun h' => absurd h' (by linarith), fun _ => ⟨hpos, ?_⟩⟩
    · rw [hs]
      simp only [tinkerSatFl, hz, Fl.divFin, hne, hM1.ne', if_false, Fl.exp, hq, if_true, Fl.mul,
        one_mul]
    · rw [hs]
      have h1 : Real.exp (-(10 ^ p.M_cut) / (m - 10 ^ p.M_min)) < 1 := by
        rw [← Real.exp_zero]; exact Real.exp_lt_exp.mpr hneg
      have h2 : 0 < m / 10 ^ p.M_1 := by positivity
      nlinarith

example : ∃ m : ℝ, 0 < m ∧ ((10:ℝ) ^ ({} : TinkerP).M_min ≤ m) :=
  ⟨10 ^ (13:ℝ), by positivity, Real.rpow_le_rpow_of_exponent_le (by norm_num) (by norm_num)⟩

/-- C05: `nc` is the real quotient, a finite number, for every Poisson HOD wherever its tracer per
central is not zero. -/
theorem C05_nc_finite (d : PoissonDef) (c : Bool) (m : ℝ) (h : d.tpc m ≠ 0) :
    ncFl d m = Fl.fin ((poisson d c).nc m) := by
  simp [ncFl, Fl.divFin, h, poisson]

/-- C05 finding: for `Spinelli19` at every mass outside `[10**M_min_counts, 10**M_max_counts]` the
number of centrals is `inf`, and with the central condition the satellites are `inf` or NaN. -/
theorem C05_spinelli_not_finite (p : SpinelliP) (ha1 : 0 < p.a1) (ha2 : 0 ≤ p.a2) (m : ℝ) (hm : 0 < m)
    (hout : ¬ (10 ^ p.M_min_counts ≤ m ∧ m ≤ 10 ^ p.M_max_counts)) :
    ncFl (spinelliDef p) m = Fl.pinf ∧
      satCentralFl (spinelliDef p) m = if m < 10 ^ 11 then Fl.nan else Fl.pinf := by
  have ht : spinelliTpc p m = 0 := if_neg hout
  have hc : 0 < spinelliCen p m := by unfold spinelliCen; positivity
  have hn : ncFl (spinelliDef p) m = Fl.pinf := by
    simp only [ncFl, spinelliDef, Fl.divFin, ht, if_true, hc.ne', if_false, hc]
  refine ⟨hn, ?_⟩
  rw [satCentralFl, hn]
  by_cases h : m < 10 ^ 11
  · have hs : spinelliSat p m = 0 := by
      unfold spinelliSat; rw [if_neg (not_le.mpr h)]; simp
    simp only [spinelliDef, hs, Fl.mul, if_true, h]
  · have hs : 0 < spinelliSat p m := by
      unfold spinelliSat; rw [if_pos (not_lt.mp h)]; positivity
    simp only [spinelliDef, Fl.mul, hs.ne', if_false, hs, if_true, h]

/-- C05 finding: without the central condition the *number* of satellites of `Spinelli19` is not a number (below
`10^11`) or infinite at every mass outside `[10**M_min_counts, 10**M_max_counts]`. -/
theorem C05_spinelli_satellites_not_finite (p : SpinelliP) (m : ℝ) (hm : 0 < m)
    (hout : ¬ (10 ^ p.M_min_counts ≤ m ∧ m ≤ 10 ^ p.M_max_counts)) :
    nsFl (spinelliDef p) m = if m < 10 ^ 11 then Fl.nan else Fl.pinf := by
  have ht : spinelliTps p m = 0 := if_neg hout
  by_cases h : m < 10 ^ 11
  · have hs : spinelliSat p m = 0 := by
      unfold spinelliSat; rw [if_neg (not_le.mpr h)]; simp
    simp only [nsFl, spinelliDef, hs, ht, Fl.divFin, if_true, h]
  · have hs : 0 < spinelliSat p m := by
      unfold spinelliSat; rw [if_pos (not_lt.mp h)]; positivity
    simp only [nsFl, spinelliDef, ht, Fl.divFin, if_true, hs.ne', if_false, hs, h]

/-- C05: `ns` without the central condition is the real quotient, a finite number, wherever the tracer per satellite is
not zero. -/
theorem C05_ns_finite (d : PoissonDef) (m : ℝ) (h : d.tps m ≠ 0) :
    nsFl d m = Fl.fin ((poisson d false).ns m) := by
  simp [nsFl, Fl.divFin, h, poisson, satelliteOccupation]

/-- the default parameters and a mass of `10^10` meet the hypotheses. -/
example : let p : SpinelliP := {}
    0 < p.a1 ∧ 0 ≤ p.a2 ∧ ¬ ((10:ℝ) ^ p.M_min_counts ≤ 10 ^ (10:ℝ) ∧ (10:ℝ) ^ (10:ℝ) ≤ 10 ^ p.M_max_counts) := by
  refine ⟨by norm_num, by norm_num, ?_⟩
  intro h
  have : (10:ℝ) ^ (10:ℝ) < 10 ^ (11:ℝ) := Real.rpow_lt_rpow_of_exponent_lt (by norm_num) (by norm_num)
  exact absurd h.1 (not_le.mpr this)

/-- C05: inside the counts range `Spinelli19` gives finite non-negative occupations. -/
theorem C05_spinelli_inside (p : SpinelliP) (ha1 : 0 < p.a1) (ha2 : 0 ≤ p.a2) (m : ℝ) (hm : 0 < m)
    (hin : 10 ^ p.M_min_counts ≤ m ∧ m ≤ 10 ^ p.M_max_counts) (c : Bool) :
    ncFl (spinelliDef p) m = Fl.fin (spinelliCen p m) ∧ 0 < (spinelli19 p c).nc m ∧
      0 ≤ (spinelli19 p c).satOcc m ∧ 0 ≤ (spinelli19 p c).ns m := by
  have ht : spinelliTpc p m = 1 := if_pos hin
  have hc : 0 < spinelliCen p m := by unfold spinelliCen; positivity
  have hs : 0 ≤ spinelliSat p m := by unfold spinelliSat; positivity
  have hp : 0 ≤ spinelliTps p m := by unfold spinelliTps; positivity
  refine ⟨by simp [ncFl, spinelliDef, Fl.divFin, ht], ?_, ?_, ?_⟩
  · simpa [spinelli19, spinelliDef, poisson, ht] using hc
  · cases c <;> simp [spinelli19, spinelliDef, poisson, satelliteOccupation, ht] <;> positivity
  · cases c <;> simp [spinelli19, spinelliDef, poisson, satelliteOccupation, ht] <;> positivity

end Halomod.HOD
