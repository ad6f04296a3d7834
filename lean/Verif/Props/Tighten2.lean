import Verif.Props.Tools2
import Verif.Props.HaloModel4
import Verif.Props.IntegrateCorr2
import Mathlib.Tactic

/-! # More theorems added because a wrong program survived (see `seeded/LOG.jsonl`) -/
namespace Halomod.Tools

/-- C14: the wavenumbers `power_to_corr` integrates over start at `1e-6`, end at the upper limit, increase strictly and
are evenly spaced in logarithm. -/
theorem C14_nodes (r : ℝ) (hr : 0 < r) : 2 ≤ pcNk r ∧ 0 < pcDlnk r ∧
    Real.exp (pcLnk r 0) = 1e-6 ∧ Real.exp (pcLnk r (pcNk r - 1)) = pcMaxK r ∧
    (∀ i, pcLnk r (i + 1) - pcLnk r i = pcDlnk r) ∧ StrictMono (pcLnk r) := by
  have hpi := Real.pi_pos
  obtain ⟨h1, h2⟩ := pcMaxK_ge r hr
  have hmk : 0 < pcMaxK r := by linarith
  set δ := Real.pi / (8 * r) with hδ
  have hδp : 0 < δ := by positivity
  have hδm : δ * 4012 ≤ pcMaxK r := by
    refine le_trans (le_of_eq ?_) h1
    rw [hδ]; field_simp; norm_num
  have hq : 1 < pcMaxK r / (pcMaxK r - δ) := by
    rw [lt_div_iff₀ (by linarith)]; linarith
  have hq2 : pcMaxK r / (pcMaxK r - δ) < 2 := by
    rw [div_lt_iff₀ (by linarith)]; linarith
  have hA : 2 < pcMaxK r / 1e-6 := by rw [lt_div_iff₀ (by norm_num)]; linarith
  have hlogq : 0 < Real.log (pcMaxK r / (pcMaxK r - δ)) := Real.log_pos hq
  have hlt : 1 < Real.log (pcMaxK r / 1e-6) / Real.log (pcMaxK r / (pcMaxK r - δ)) := by
    rw [lt_div_iff₀ hlogq, one_mul]
    exact Real.log_lt_log (by linarith) (hq2.trans hA)
  have hnk : 2 ≤ pcNk r := by
    have : 1 < pcNk r := by
      rw [pcNk, Nat.lt_ceil]; exact_mod_cast hlt
    omega
  have hnk' : (0:ℝ) < (pcNk r : ℝ) - 1 := by
    have : (2:ℝ) ≤ pcNk r := by exact_mod_cast hnk
    linarith
  have hlogs : Real.log 1e-6 < Real.log (pcMaxK r) := Real.log_lt_log (by norm_num) (by norm_num; linarith)
  have hd : 0 < pcDlnk r := div_pos (by linarith) hnk'
  refine ⟨hnk, hd, ?_, ?_, ?_, ?_⟩
  · simp only [pcLnk, Nat.cast_zero, zero_mul, add_zero]
    exact Real.exp_log (by norm_num)
  · have : pcLnk r (pcNk r - 1) = Real.log (pcMaxK r) := by
      unfold pcLnk pcDlnk
      rw [Nat.cast_sub (by omega), Nat.cast_one]
      rw [mul_div_cancel₀ _ hnk'.ne']; ring
    rw [this, Real.exp_log hmk]
  · intro i
    unfold pcLnk; push_cast; ring
  · apply strictMono_nat_of_lt_succ
    intro i
    unfold pcLnk; push_cast; linarith

/-- the hypothesis holds at a separation of 10 -/
example : (0:ℝ) < 10 := by norm_num

end Halomod.Tools

namespace Halomod.IntegrateCorr

open Halomod.HaloModel

/-- C42: the projected separations run from `rp_min` to `rp_max` and increase; with `rp_log` consecutive ones have a
constant ratio, without it a constant difference. -/
theorem C42_rp_grid (log : Bool) (rpMin rpMax : ℝ) (num : ℕ) (hn : 1 < num) (h0 : 0 < rpMin) (h1 : rpMin < rpMax) :
    rp log rpMin rpMax num 0 = rpMin ∧ rp log rpMin rpMax num (num - 1) = rpMax ∧
    (∀ i j, i < j → j < num → rp log rpMin rpMax num i < rp log rpMin rpMax num j) ∧
    (log = true → ∃ q, 1 < q ∧ ∀ i, i + 1 < num → rp log rpMin rpMax num (i + 1) = q * rp log rpMin rpMax num i) ∧
    (log = false → ∃ d, 0 < d ∧ ∀ i, i + 1 < num → rp log rpMin rpMax num (i + 1) = d + rp log rpMin rpMax num i) := by
  have hl : Real.log rpMin < Real.log rpMax := Real.log_lt_log h0 h1
  have hn' : (0:ℝ) < (num:ℝ) - 1 := by
    have : (2:ℝ) ≤ num := by exact_mod_cast hn
    linarith
  have hstep : ∀ a b : ℝ, ∀ i, i + 1 < num → linspace a b num (i + 1) = (b - a) / (num - 1) + linspace a b num i := by
    intro a b i hi
    unfold linspace
    rw [if_neg (show ¬ (1 < num ∧ i + 1 = num) by omega)]
    split_ifs with h
    · have : (num:ℝ) = i + 2 := by rw [← h.2]; push_cast; ring
      rw [this] at hn' ⊢
      field_simp; ring
    · push_cast; ring
  cases log with
  | true =>
    refine ⟨?_, ?_, fun i j hij hj => ?_, fun _ => ?_, by simp⟩
    · simp only [rp, if_true, logspace, (linspace_ends _ _ hn).1, Real.exp_log h0]
    · simp only [rp, if_true, logspace, (linspace_ends _ _ hn).2, Real.exp_log (h0.trans h1)]
    · simp only [rp, if_true, logspace]
      exact Real.exp_lt_exp.mpr (linspace_lt _ _ hl hn hij)
    · refine ⟨Real.exp ((Real.log rpMax - Real.log rpMin) / (num - 1)), Real.one_lt_exp_iff.mpr (div_pos (by linarith) hn'), fun i hi => ?_⟩
      simp only [rp, if_true, logspace]
      rw [hstep _ _ i hi, Real.exp_add]
  | false =>
    refine ⟨?_, ?_, fun i j hij hj => ?_, by simp, fun _ => ?_⟩
    · simp only [rp, Bool.false_eq_true, if_false, (linspace_ends _ _ hn).1]
    · simp only [rp, Bool.false_eq_true, if_false, (linspace_ends _ _ hn).2]
    · simp only [rp, Bool.false_eq_true, if_false]
      exact linspace_lt _ _ h1 hn hij
    · refine ⟨(rpMax - rpMin) / (num - 1), div_pos (by linarith) hn', fun i hi => ?_⟩
      simp only [rp, Bool.false_eq_true, if_false]
      exact hstep _ _ i hi

/-- the hypotheses hold for the default grid: 30 values from 0.01 to 50 -/
example : 1 < 30 ∧ (0:ℝ) < 0.01 ∧ (0.01:ℝ) < 50 := by norm_num

end Halomod.IntegrateCorr
