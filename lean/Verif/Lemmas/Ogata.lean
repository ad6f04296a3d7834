import Verif.Props.Tools
import Mathlib.Analysis.Calculus.ContDiff.RCLike
import Mathlib.Analysis.SpecialFunctions.Trigonometric.DerivHyp
import Mathlib.MeasureTheory.Integral.IntervalIntegral.FundThmCalculus
import Mathlib.MeasureTheory.Integral.IntegralEqImproper
import Mathlib.Analysis.Calculus.MeanValue

/-!
# Ogata's quadrature as a Riemann sum

The nodes `x_n = (pi/h) psi(h n)` form a partition of the half line whose mesh, up to any fixed point,
tends to 0 with `h`; the weights `pi psi'(h n)` are asymptotically the lengths of the cells.
-/
namespace Halomod.Tools

open Finset Filter Topology MeasureTheory

noncomputable section

/-- `tanh(pi sinh(t)/2)`. -/
def ogTau (t : ℝ) : ℝ := Real.tanh (ogS t / 2)

theorem psi_tau (t : ℝ) : psi t = t * ogTau t := rfl

theorem ogX_tau (h : ℝ) (n : ℕ) : ogX h n = Real.pi * n * ogTau (h * n) := rfl

theorem tanh_mono : Monotone Real.tanh := by
  intro a b hab
  rw [Real.tanh_eq_sinh_div_cosh, Real.tanh_eq_sinh_div_cosh,
    div_le_div_iff₀ (Real.cosh_pos _) (Real.cosh_pos _)]
  have h := Real.sinh_sub b a
  have h2 : 0 ≤ Real.sinh (b - a) := Real.sinh_nonneg_iff.mpr (by linarith)
  nlinarith

theorem ogTau_mono : Monotone ogTau := by
  intro a b hab
  apply tanh_mono
  unfold ogS
  have : Real.sinh a ≤ Real.sinh b := Real.sinh_le_sinh.mpr hab
  have := Real.pi_pos
  gcongr

theorem ogTau_zero : ogTau 0 = 0 := by simp [ogTau, ogS]

theorem ogTau_pos {t : ℝ} (ht : 0 < t) : 0 < ogTau t := by
  have hs : 0 < ogS t / 2 := by
    unfold ogS
    have := Real.sinh_pos_iff.mpr ht
    have := Real.pi_pos
    positivity
  unfold ogTau
  rw [Real.tanh_eq_sinh_div_cosh]
  exact div_pos (Real.sinh_pos_iff.mpr hs) (Real.cosh_pos _)

theorem ogTau_nonneg {t : ℝ} (ht : 0 ≤ t) : 0 ≤ ogTau t := by
  rw [← ogTau_zero]; exact ogTau_mono ht

/-- `psi'` in closed form. -/
theorem ogDpsi_eq (t : ℝ) :
    ogDpsi t = ogTau t + Real.pi * t * Real.cosh t / (1 + Real.cosh (ogS t)) := by
  have hne : 1 + Real.cosh (ogS t) ≠ 0 := by
    have := Real.one_le_cosh (ogS t); positivity
  unfold ogDpsi ogTau
  rw [if_pos hne, Real.tanh_eq_sinh_div_cosh]
  have hS : ogS t = 2 * (ogS t / 2) := by ring
  set a := ogS t / 2
  have hc : Real.cosh a ≠ 0 := (Real.cosh_pos _).ne'
  have hcs : Real.cosh a ^ 2 - Real.sinh a ^ 2 = 1 := Real.cosh_sq_sub_sinh_sq a
  have e1 : 1 + Real.cosh (ogS t) = 2 * Real.cosh a ^ 2 := by rw [hS, Real.cosh_two_mul]; linarith
  have e2 : Real.sinh (ogS t) = 2 * Real.sinh a * Real.cosh a := by rw [hS, Real.sinh_two_mul]
  rw [e1, e2]
  field_simp
  ring

theorem ogDpsi_nonneg {t : ℝ} (ht : 0 ≤ t) : 0 ≤ ogDpsi t := by
  rw [ogDpsi_eq]
  have := ogTau_nonneg ht
  have := Real.pi_pos
  have := Real.cosh_pos t
  have := Real.cosh_pos (ogS t)
  positivity

/-- the weight is at most a fixed multiple of the `tanh` factor. -/
theorem ogDpsi_le {t : ℝ} (ht : 0 ≤ t) : ogDpsi t ≤ (1 + Real.pi / 2) * ogTau t := by
  rw [ogDpsi_eq]
  have hpi := Real.pi_pos
  have hpi3 := Real.two_le_pi
  have hc := Real.cosh_pos (ogS t)
  have e : ogTau t = Real.sinh (ogS t) / (1 + Real.cosh (ogS t)) := by
    unfold ogTau
    rw [Real.tanh_eq_sinh_div_cosh]
    have hS : ogS t = 2 * (ogS t / 2) := by ring
    set a := ogS t / 2
    have hc : Real.cosh a ≠ 0 := (Real.cosh_pos _).ne'
    have hcs : Real.cosh a ^ 2 - Real.sinh a ^ 2 = 1 := Real.cosh_sq_sub_sinh_sq a
    have e1 : 1 + Real.cosh (ogS t) = 2 * Real.cosh a ^ 2 := by rw [hS, Real.cosh_two_mul]; linarith
    have e2 : Real.sinh (ogS t) = 2 * Real.sinh a * Real.cosh a := by rw [hS, Real.sinh_two_mul]
    rw [e1, e2]
    field_simp
  have hts : t ≤ Real.sinh t := Real.self_le_sinh_iff.mpr ht
  have h1 : Real.pi * t * Real.cosh t ≤ Real.pi / 2 * Real.sinh (ogS t) := by
    have h2 : t * Real.cosh t ≤ Real.sinh (2 * t) / 2 := by
      rw [Real.sinh_two_mul]
      have := Real.cosh_pos t
      nlinarith
    have h3 : Real.sinh (2 * t) ≤ Real.sinh (ogS t) := by
      apply Real.sinh_le_sinh.mpr
      unfold ogS
      nlinarith
    nlinarith
  have h4 : Real.pi * t * Real.cosh t / (1 + Real.cosh (ogS t)) ≤ Real.pi / 2 * ogTau t := by
    rw [e, ← mul_div_assoc]
    gcongr
  linarith

/-- successive nodes are at least `pi tanh(..)` apart. -/
theorem ogX_gap {h : ℝ} (hh : 0 ≤ h) (n : ℕ) :
    Real.pi * ogTau (h * (n + 1 : ℕ)) ≤ ogX h (n + 1) - ogX h n := by
  rw [ogX_tau, ogX_tau]
  have h1 : ogTau (h * n) ≤ ogTau (h * (n + 1 : ℕ)) := by
    apply ogTau_mono
    push_cast
    nlinarith
  have hpi := Real.pi_pos
  have hn : (0:ℝ) ≤ n := by positivity
  have : Real.pi * n * ogTau (h * n) ≤ Real.pi * n * ogTau (h * (n + 1 : ℕ)) := by gcongr
  push_cast at *
  nlinarith

/-- **weights against cells**: every weight is at most `1 + pi/2` times the length of its cell. -/
theorem ogata_weight_le {h : ℝ} (hh : 0 ≤ h) (n : ℕ) :
    Real.pi * ogDpsi (h * (n + 1 : ℕ)) ≤ (1 + Real.pi / 2) * (ogX h (n + 1) - ogX h n) := by
  have h1 := ogDpsi_le (t := h * (n + 1 : ℕ)) (by positivity)
  have h2 := ogX_gap hh n
  have hpi := Real.pi_pos
  calc Real.pi * ogDpsi (h * (n + 1 : ℕ))
      ≤ Real.pi * ((1 + Real.pi / 2) * ogTau (h * (n + 1 : ℕ))) := by gcongr
    _ = (1 + Real.pi / 2) * (Real.pi * ogTau (h * (n + 1 : ℕ))) := by ring
    _ ≤ _ := by gcongr

theorem ogX_strictMono {h : ℝ} (hh : 0 < h) : StrictMono (ogX h) := by
  apply strictMono_nat_of_lt_succ
  intro n
  have h1 := ogX_gap hh.le n
  have h2 : 0 < ogTau (h * (n + 1 : ℕ)) := ogTau_pos (by positivity)
  have := Real.pi_pos
  nlinarith [mul_pos this h2]

theorem ogX_zero (h : ℝ) : ogX h 0 = 0 := by simp [ogX]

theorem ogX_nonneg {h : ℝ} (hh : 0 < h) (n : ℕ) : 0 ≤ ogX h n := by
  rw [← ogX_zero h]; exact (ogX_strictMono hh).monotone (Nat.zero_le n)

/-- the nodes are unbounded. -/
theorem ogX_unbounded {h : ℝ} (hh : 0 < h) (X : ℝ) : ∃ n, X < ogX h n := by
  have ht : 0 < ogTau h := ogTau_pos hh
  have hpi := Real.pi_pos
  obtain ⟨n, hn⟩ := exists_nat_gt (X / (Real.pi * ogTau h))
  refine ⟨n + 1, ?_⟩
  rw [ogX_tau]
  have h1 : ogTau h ≤ ogTau (h * (n + 1 : ℕ)) := by
    apply ogTau_mono
    push_cast
    have : (0:ℝ) ≤ n := by positivity
    nlinarith
  rw [div_lt_iff₀ (by positivity)] at hn
  have : (n:ℝ) * (Real.pi * ogTau h) ≤ Real.pi * (n + 1 : ℕ) * ogTau (h * (n + 1 : ℕ)) := by
    push_cast at *
    have : (0:ℝ) ≤ n := by positivity
    calc (n:ℝ) * (Real.pi * ogTau h) = Real.pi * n * ogTau h := by ring
      _ ≤ Real.pi * (n + 1) * ogTau (h * (n + 1)) := by gcongr; linarith
  linarith

open Classical in
/-- the last node not above `X`. -/
def lastNode (h X : ℝ) : ℕ := sSup {n | ogX h n ≤ X}

theorem lastNode_spec {h X : ℝ} (hh : 0 < h) (hX : 0 ≤ X) :
    ogX h (lastNode h X) ≤ X ∧ X < ogX h (lastNode h X + 1) := by
  obtain ⟨N, hN⟩ := ogX_unbounded hh X
  have hb : BddAbove {n | ogX h n ≤ X} := by
    refine ⟨N, fun n hn => ?_⟩
    by_contra hlt
    push Not at hlt
    exact absurd ((ogX_strictMono hh).monotone hlt.le) (not_le.mpr (lt_of_le_of_lt hn hN))
  have hne : {n | ogX h n ≤ X}.Nonempty := ⟨0, by simp [ogX_zero, hX]⟩
  refine ⟨Nat.sSup_mem hne hb, ?_⟩
  by_contra hle
  push Not at hle
  have := le_csSup hb (show lastNode h X + 1 ∈ {n | ogX h n ≤ X} from hle)
  unfold lastNode at this
  omega

/-- `psi` is strictly increasing on `t ≥ 0`. -/
theorem psi_lt {a b : ℝ} (ha : 0 ≤ a) (hab : a < b) : psi a < psi b := by
  rw [psi_tau, psi_tau]
  have h1 := ogTau_nonneg ha
  have h2 := ogTau_mono hab.le
  have h3 : 0 < ogTau b := ogTau_pos (by linarith)
  calc a * ogTau a ≤ a * ogTau b := by gcongr
    _ < b * ogTau b := by gcongr

/-- up to a fixed point the parameters `h n` of the nodes tend to 0 with `h`. -/
theorem lastNode_small (X : ℝ) (hX : 0 ≤ X) :
    Tendsto (fun h => h * ((lastNode h X + 1 : ℕ) : ℝ)) (𝓝[>] 0) (𝓝 0) := by
  have hpi := Real.pi_pos
  have h1 : Tendsto (fun h : ℝ => h * (lastNode h X : ℝ)) (𝓝[>] 0) (𝓝 0) := by
    rw [Metric.tendsto_nhdsWithin_nhds]
    intro ε hε
    have hp : 0 < psi ε := by
      have := psi_lt le_rfl hε
      rwa [psi_tau 0, zero_mul] at this
    refine ⟨Real.pi * psi ε / (X + 1), by positivity, fun h hh hd => ?_⟩
    have hh' : 0 < h := hh
    rw [Real.dist_eq, sub_zero, abs_of_pos hh', lt_div_iff₀ (by positivity)] at hd
    rw [Real.dist_eq, sub_zero, abs_of_nonneg (by positivity)]
    by_contra hge
    push Not at hge
    have h2 := (lastNode_spec hh' hX).1
    rw [(C11_ogata_nodes h hh'.ne' _).1] at h2
    have h3 : psi ε ≤ psi (h * (lastNode h X : ℝ)) := by
      rcases hge.eq_or_lt with he | hl
      · rw [← he]
      · exact (psi_lt hε.le hl).le
    have h4 : Real.pi / h * psi ε ≤ X := le_trans (by gcongr) h2
    rw [div_mul_eq_mul_div, div_le_iff₀ hh'] at h4
    nlinarith
  have h2 : Tendsto (fun h : ℝ => h) (𝓝[>] 0) (𝓝 0) := tendsto_nhdsWithin_of_tendsto_nhds tendsto_id
  have h3 := h1.add h2
  rw [add_zero] at h3
  refine h3.congr fun h => ?_
  push_cast
  ring

theorem ogDpsi_zero : ogDpsi 0 = 0 := by rw [ogDpsi_eq, ogTau_zero]; simp

theorem psi_zero : psi 0 = 0 := by rw [psi_tau, zero_mul]

/-- `psi'` is smooth. -/
theorem ogDpsi_contDiff : ContDiff ℝ 1 ogDpsi := by
  have hne : ∀ t, 1 + Real.cosh (ogS t) ≠ 0 := fun t => by
    have := Real.one_le_cosh (ogS t); positivity
  have hS : ContDiff ℝ 1 ogS := by
    unfold ogS
    exact contDiff_const.mul Real.contDiff_sinh
  have e : ogDpsi = fun t => (Real.pi * t * Real.cosh t + Real.sinh (ogS t)) / (1 + Real.cosh (ogS t)) := by
    funext t
    unfold ogDpsi
    rw [if_pos (hne t)]
  rw [e]
  refine ContDiff.div ?_ ?_ hne
  · exact ((contDiff_const.mul contDiff_id).mul Real.contDiff_cosh).add (Real.contDiff_sinh.comp hS)
  · exact contDiff_const.add (Real.contDiff_cosh.comp hS)

/-- close to 0, `|psi'(s) - psi'(t)| ≤ K |s - t|`. -/
theorem ogDpsi_lip : ∃ K > 0, ∃ δ > 0, ∀ s t : ℝ, |s| < δ → |t| < δ → |ogDpsi s - ogDpsi t| ≤ K * |s - t| := by
  obtain ⟨K, U, hU, hK⟩ := (ogDpsi_contDiff.contDiffAt (x := 0)).exists_lipschitzOnWith
  obtain ⟨δ, hδ, hb⟩ := Metric.mem_nhds_iff.mp hU
  refine ⟨K + 1, by positivity, δ, hδ, fun s t hs ht => ?_⟩
  have := hK.dist_le_mul s (hb (by simpa [Real.dist_eq] using hs)) t (hb (by simpa [Real.dist_eq] using ht))
  rw [Real.dist_eq, Real.dist_eq] at this
  have h0 := abs_nonneg (s - t)
  linarith

/-- the mean value theorem for one cell. -/
theorem ogX_cell {h : ℝ} (hh : 0 < h) (n : ℕ) :
    ∃ ξ ∈ Set.Ioo (h * n) (h * (n + 1 : ℕ)), ogX h (n + 1) - ogX h n = Real.pi * ogDpsi ξ := by
  have hlt : h * n < h * (n + 1 : ℕ) := by push_cast; nlinarith
  obtain ⟨ξ, hξ, e⟩ := exists_hasDerivAt_eq_slope psi ogDpsi hlt
    (fun t _ => ((C11_ogata_nodes h hh.ne' n).2 t).continuousAt.continuousWithinAt)
    (fun t _ => (C11_ogata_nodes h hh.ne' n).2 t)
  refine ⟨ξ, hξ, ?_⟩
  rw [(C11_ogata_nodes h hh.ne' _).1, (C11_ogata_nodes h hh.ne' _).1, e]
  have : h * ((n + 1 : ℕ) : ℝ) - h * n = h := by push_cast; ring
  rw [this]
  field_simp

/-- error of the quadrature on the part of the axis up to `X`, for one step `h`. -/
theorem ogata_error {K δ : ℝ} (hK : 0 < K)
    (hlip : ∀ s t : ℝ, |s| < δ → |t| < δ → |ogDpsi s - ogDpsi t| ≤ K * |s - t|)
    {h X : ℝ} (hh : 0 < h) (hX : 0 ≤ X) (hδ : h * ((lastNode h X + 1 : ℕ) : ℝ) < δ)
    {g : ℝ → ℝ} (hg : ContinuousOn g (Set.Icc 0 X)) {B : ℝ} (hB : ∀ x ∈ Set.Icc 0 X, |g x| ≤ B)
    {ε η : ℝ} (hε : 0 ≤ ε) (hη : ∀ x ∈ Set.Icc 0 X, ∀ y ∈ Set.Icc 0 X, |x - y| < η → |g x - g y| ≤ ε)
    (hmesh : Real.pi * (K * (h * ((lastNode h X + 1 : ℕ) : ℝ))) < η) :
    |∑ n ∈ range (lastNode h X), Real.pi * ogDpsi (h * (n + 1 : ℕ)) * g (ogX h (n + 1)) - ∫ x in (0:ℝ)..X, g x|
      ≤ 2 * Real.pi * K * B * (h * ((lastNode h X + 1 : ℕ) : ℝ)) + ε * X := by
  have hpi := Real.pi_pos
  have hB0 : 0 ≤ B := le_trans (abs_nonneg _) (hB 0 ⟨le_rfl, hX⟩)
  set m := lastNode h X with hm
  obtain ⟨hm1, hm2⟩ := lastNode_spec hh hX
  rw [← hm] at hm1 hm2
  have hmono := (ogX_strictMono hh).monotone
  have hin : ∀ n ≤ m, ogX h n ∈ Set.Icc 0 X := fun n hn => ⟨ogX_nonneg hh n, le_trans (hmono hn) hm1⟩
  have hpar : ∀ n ≤ m + 1, h * (n : ℝ) ≤ h * ((m + 1 : ℕ) : ℝ) := fun n hn => by
    have : (n : ℝ) ≤ ((m + 1 : ℕ) : ℝ) := by exact_mod_cast hn
    gcongr
  -- one cell
  have hcell : ∀ n ≤ m, ogX h (n + 1) - ogX h n ≤ Real.pi * (K * (h * ((m + 1 : ℕ) : ℝ))) ∧
      |Real.pi * ogDpsi (h * (n + 1 : ℕ)) - (ogX h (n + 1) - ogX h n)| ≤ Real.pi * (K * h) := by
    intro n hn
    obtain ⟨ξ, hξ, e⟩ := ogX_cell hh n
    have h1 := hpar (n + 1) (by omega)
    have hξ0 : 0 < ξ := lt_of_le_of_lt (by positivity) hξ.1
    have hξδ : |ξ| < δ := by rw [abs_of_pos hξ0]; linarith [hξ.2]
    rw [e]
    constructor
    · have h2 := hlip ξ 0 hξδ (by rw [abs_zero]; linarith [abs_nonneg ξ])
      rw [ogDpsi_zero, sub_zero, sub_zero, abs_of_pos hξ0] at h2
      have h3 := le_abs_self (ogDpsi ξ)
      have h4 : ogDpsi ξ ≤ K * (h * ((m + 1 : ℕ) : ℝ)) := by
        refine le_trans h3 (le_trans h2 ?_)
        have : ξ ≤ h * ((m + 1 : ℕ) : ℝ) := by linarith [hξ.2]
        gcongr
      gcongr
    · have hp : 0 ≤ h * ((n + 1 : ℕ) : ℝ) := by positivity
      have h2 := hlip (h * (n + 1 : ℕ)) ξ (by rw [abs_of_nonneg hp]; linarith) hξδ
      rw [← mul_sub, abs_mul, abs_of_pos hpi]
      have h3 : |h * ((n + 1 : ℕ) : ℝ) - ξ| ≤ h := by
        have e1 : h * ((n + 1 : ℕ) : ℝ) = h * n + h := by push_cast; ring
        rw [abs_le]
        constructor <;> linarith [hξ.1, hξ.2]
      calc Real.pi * |ogDpsi (h * ((n + 1 : ℕ) : ℝ)) - ogDpsi ξ|
          ≤ Real.pi * (K * |h * ((n + 1 : ℕ) : ℝ) - ξ|) := by gcongr
        _ ≤ _ := by gcongr
  have hint : ∀ a b, 0 ≤ a → a ≤ b → b ≤ X → IntervalIntegrable g volume a b := by
    intro a b ha hab hb
    apply ContinuousOn.intervalIntegrable
    rw [Set.uIcc_of_le hab]
    exact hg.mono (Set.Icc_subset_Icc ha hb)
  have hsum : ∑ n ∈ range m, (∫ x in (ogX h n)..(ogX h (n + 1)), g x) = ∫ x in (0:ℝ)..(ogX h m), g x := by
    rw [intervalIntegral.sum_integral_adjacent_intervals, ogX_zero]
    intro k hk
    exact hint _ _ (ogX_nonneg hh k) (hmono (by omega)) (hin (k + 1) (by omega)).2
  have hsplit : ∫ x in (0:ℝ)..X, g x = (∫ x in (0:ℝ)..(ogX h m), g x) + ∫ x in (ogX h m)..X, g x :=
    (intervalIntegral.integral_add_adjacent_intervals
      (hint _ _ le_rfl (ogX_nonneg hh m) hm1) (hint _ _ (ogX_nonneg hh m) hm1 le_rfl)).symm
  have hrest : |∫ x in (ogX h m)..X, g x| ≤ B * (Real.pi * (K * (h * ((m + 1 : ℕ) : ℝ)))) := by
    have := intervalIntegral.norm_integral_le_of_norm_le_const (a := ogX h m) (b := X) (C := B) (f := g)
      (fun x hx => by
        rw [Set.uIoc_of_le hm1] at hx
        exact hB x ⟨le_trans (ogX_nonneg hh m) hx.1.le, hx.2⟩)
    rw [Real.norm_eq_abs, abs_of_nonneg (by linarith : 0 ≤ X - ogX h m)] at this
    refine le_trans this ?_
    have := (hcell m le_rfl).1
    gcongr
    linarith
  have hone : ∀ n ∈ range m, |Real.pi * ogDpsi (h * (n + 1 : ℕ)) * g (ogX h (n + 1))
      - ∫ x in (ogX h n)..(ogX h (n + 1)), g x|
      ≤ Real.pi * (K * h) * B + ε * (ogX h (n + 1) - ogX h n) := by
    intro n hn
    have hn' : n < m := mem_range.mp hn
    have hle : ogX h n ≤ ogX h (n + 1) := hmono (by omega)
    have hx1 := hin (n + 1) (by omega)
    have h1 : |(ogX h (n + 1) - ogX h n) * g (ogX h (n + 1)) - ∫ x in (ogX h n)..(ogX h (n + 1)), g x|
        ≤ ε * (ogX h (n + 1) - ogX h n) := by
      have e : (ogX h (n + 1) - ogX h n) * g (ogX h (n + 1))
          = ∫ _x in (ogX h n)..(ogX h (n + 1)), g (ogX h (n + 1)) := by
        rw [intervalIntegral.integral_const, smul_eq_mul]
      rw [e, ← intervalIntegral.integral_sub intervalIntegrable_const
        (hint _ _ (ogX_nonneg hh n) hle hx1.2)]
      have := intervalIntegral.norm_integral_le_of_norm_le_const (a := ogX h n) (b := ogX h (n + 1))
        (C := ε) (f := fun x => g (ogX h (n + 1)) - g x)
        (fun x hx => by
          rw [Set.uIoc_of_le hle] at hx
          have hx' : x ∈ Set.Icc 0 X := ⟨le_trans (ogX_nonneg hh n) hx.1.le, le_trans hx.2 hx1.2⟩
          refine hη _ hx1 _ hx' ?_
          rw [abs_of_nonneg (by linarith [hx.2])]
          have := (hcell n hn'.le).1
          linarith [hx.1])
      rwa [Real.norm_eq_abs, abs_of_nonneg (by linarith : 0 ≤ ogX h (n + 1) - ogX h n)] at this
    have h2 : |(Real.pi * ogDpsi (h * (n + 1 : ℕ)) - (ogX h (n + 1) - ogX h n)) * g (ogX h (n + 1))|
        ≤ Real.pi * (K * h) * B := by
      rw [abs_mul]
      have := (hcell n hn'.le).2
      have := hB _ hx1
      gcongr
    have e : Real.pi * ogDpsi (h * (n + 1 : ℕ)) * g (ogX h (n + 1)) - ∫ x in (ogX h n)..(ogX h (n + 1)), g x
        = (Real.pi * ogDpsi (h * (n + 1 : ℕ)) - (ogX h (n + 1) - ogX h n)) * g (ogX h (n + 1))
          + ((ogX h (n + 1) - ogX h n) * g (ogX h (n + 1)) - ∫ x in (ogX h n)..(ogX h (n + 1)), g x) := by ring
    rw [e]
    exact le_trans (abs_add_le _ _) (add_le_add h2 h1)
  have htot : |∑ n ∈ range m, Real.pi * ogDpsi (h * (n + 1 : ℕ)) * g (ogX h (n + 1))
      - ∫ x in (0:ℝ)..(ogX h m), g x| ≤ m * (Real.pi * (K * h) * B) + ε * ogX h m := by
    rw [← hsum, ← sum_sub_distrib]
    refine le_trans (abs_sum_le_sum_abs _ _) (le_trans (sum_le_sum hone) ?_)
    rw [sum_add_distrib, sum_const, card_range, nsmul_eq_mul, ← mul_sum, sum_range_sub, ogX_zero, sub_zero]
  rw [hsplit]
  have e2 : (m:ℝ) * (Real.pi * (K * h) * B) ≤ Real.pi * K * B * (h * ((m + 1 : ℕ) : ℝ)) := by
    push_cast
    have : 0 ≤ Real.pi * K * B * h := by positivity
    nlinarith
  have e3 : ε * ogX h m ≤ ε * X := by gcongr
  generalize (∑ n ∈ range m, Real.pi * ogDpsi (h * (n + 1 : ℕ)) * g (ogX h (n + 1))) = S at *
  generalize (∫ x in (0:ℝ)..(ogX h m), g x) = I1 at *
  generalize (∫ x in (ogX h m)..X, g x) = I2 at *
  have e4 : S - (I1 + I2) = (S - I1) - I2 := by ring
  rw [e4]
  refine le_trans (abs_sub _ _) ?_
  have e5 : 2 * Real.pi * K * B * (h * ((m + 1 : ℕ) : ℝ)) = Real.pi * K * B * (h * ((m + 1 : ℕ) : ℝ))
      + B * (Real.pi * (K * (h * ((m + 1 : ℕ) : ℝ)))) := by ring
  rw [e5]
  linarith

/-- **Ogata's rule up to `X` converges** to the integral over `[0, X]`, for every continuous integrand. -/
theorem ogata_compact {X : ℝ} (hX : 0 ≤ X) {g : ℝ → ℝ} (hg : ContinuousOn g (Set.Icc 0 X)) :
    Tendsto (fun h => ∑ n ∈ range (lastNode h X), Real.pi * ogDpsi (h * (n + 1 : ℕ)) * g (ogX h (n + 1)))
      (𝓝[>] 0) (𝓝 (∫ x in (0:ℝ)..X, g x)) := by
  obtain ⟨K, hK, δ, hδ, hlip⟩ := ogDpsi_lip
  have hpi := Real.pi_pos
  obtain ⟨B, hB⟩ := isCompact_Icc.exists_bound_of_continuousOn hg
  have hB0 : 0 ≤ B := le_trans (norm_nonneg _) (hB 0 ⟨le_rfl, hX⟩)
  have huc := isCompact_Icc.uniformContinuousOn_of_continuous hg
  rw [Metric.uniformContinuousOn_iff] at huc
  rw [Metric.tendsto_nhds]
  intro ε hε
  obtain ⟨η, hη, hη'⟩ := huc (ε / (2 * (X + 1))) (by positivity)
  have ht := lastNode_small X hX
  have ev1 := ht.eventually (gt_mem_nhds hδ)
  have ev2 := ht.eventually (gt_mem_nhds (show 0 < η / (Real.pi * K) by positivity))
  have ev3 := ht.eventually (gt_mem_nhds (show 0 < ε / (4 * (Real.pi * K * (B + 1))) by positivity))
  filter_upwards [ev1, ev2, ev3, self_mem_nhdsWithin] with h h1 h2 h3 hh
  have hh' : 0 < h := hh
  rw [Real.dist_eq]
  refine lt_of_le_of_lt (ogata_error hK hlip hh' hX h1 hg (fun x hx => hB x hx) (ε := ε / (2 * (X + 1)))
    (η := η) (by positivity) (fun x hx y hy hxy => (hη' x hx y hy hxy).le) ?_) ?_
  · rw [lt_div_iff₀ (by positivity)] at h2
    linarith
  · rw [lt_div_iff₀ (by positivity)] at h3
    set t := h * ((lastNode h X + 1 : ℕ) : ℝ)
    have ht0 : 0 ≤ t := by positivity
    have e1 : ε / (2 * (X + 1)) * X ≤ ε / 2 := by
      rw [div_mul_eq_mul_div, div_le_div_iff₀ (by positivity) (by positivity)]
      nlinarith
    have e2 : 2 * Real.pi * K * B * t ≤ 2 * Real.pi * K * (B + 1) * t := by gcongr; linarith
    nlinarith

/-- the tail of the sum is controlled by the integral of a decreasing majorant. -/
theorem ogata_tail {h : ℝ} (hh : 0 < h) {g G : ℝ → ℝ} (hG : AntitoneOn G (Set.Ici 0))
    (hgG : ∀ x, 0 < x → |g x| ≤ G x) (m N : ℕ) (hmN : m ≤ N) :
    |∑ n ∈ Ico m N, Real.pi * ogDpsi (h * (n + 1 : ℕ)) * g (ogX h (n + 1))|
      ≤ (1 + Real.pi / 2) * ∫ x in (ogX h m)..(ogX h N), G x := by
  have hpi := Real.pi_pos
  have hmono := (ogX_strictMono hh).monotone
  have hint : ∀ a b, 0 ≤ a → a ≤ b → IntervalIntegrable G volume a b := by
    intro a b ha hab
    apply AntitoneOn.intervalIntegrable
    rw [Set.uIcc_of_le hab]
    exact hG.mono fun x hx => le_trans ha hx.1
  rw [← intervalIntegral.sum_integral_adjacent_intervals_Ico (f := G) hmN
    (fun k _ => hint _ _ (ogX_nonneg hh k) (hmono (by omega))), mul_sum]
  refine le_trans (abs_sum_le_sum_abs _ _) (sum_le_sum fun n _ => ?_)
  have hle : ogX h n ≤ ogX h (n + 1) := hmono (by omega)
  have hpos : 0 < ogX h (n + 1) := lt_of_le_of_lt (ogX_nonneg hh n) (ogX_strictMono hh (by omega))
  have h1 : (ogX h (n + 1) - ogX h n) * G (ogX h (n + 1)) ≤ ∫ x in (ogX h n)..(ogX h (n + 1)), G x := by
    have e : (ogX h (n + 1) - ogX h n) * G (ogX h (n + 1))
        = ∫ _x in (ogX h n)..(ogX h (n + 1)), G (ogX h (n + 1)) := by
      rw [intervalIntegral.integral_const, smul_eq_mul]
    rw [e]
    refine intervalIntegral.integral_mono_on hle intervalIntegrable_const (hint _ _ (ogX_nonneg hh n) hle) ?_
    intro x hx
    exact hG (le_trans (ogX_nonneg hh n) hx.1) hpos.le hx.2
  have h2 := ogata_weight_le hh.le n
  have h3 := hgG _ hpos
  have h4 : 0 ≤ ogDpsi (h * (n + 1 : ℕ)) := ogDpsi_nonneg (by positivity)
  have hG0 : 0 ≤ G (ogX h (n + 1)) := le_trans (abs_nonneg _) h3
  rw [abs_mul, abs_of_nonneg (by positivity : 0 ≤ Real.pi * ogDpsi (h * (n + 1 : ℕ)))]
  calc Real.pi * ogDpsi (h * (n + 1 : ℕ)) * |g (ogX h (n + 1))|
      ≤ ((1 + Real.pi / 2) * (ogX h (n + 1) - ogX h n)) * G (ogX h (n + 1)) := by gcongr
    _ = (1 + Real.pi / 2) * ((ogX h (n + 1) - ogX h n) * G (ogX h (n + 1))) := by ring
    _ ≤ _ := by gcongr

/-- **Ogata's rule converges** on the half line: the sum over `N h` nodes reaching to infinity tends to the
improper integral, for every continuous integrand with a decreasing integrable majorant. -/
theorem ogata_full {g G : ℝ → ℝ} (hg : ContinuousOn g (Set.Ici 0)) (hG : AntitoneOn G (Set.Ici 0))
    (hGi : IntegrableOn G (Set.Ioi 0)) (hgG : ∀ x, 0 < x → |g x| ≤ G x)
    {N : ℝ → ℕ} (hN : Tendsto (fun h => ogX h (N h)) (𝓝[>] 0) atTop) :
    Tendsto (fun h => ∑ n ∈ range (N h), Real.pi * ogDpsi (h * (n + 1 : ℕ)) * g (ogX h (n + 1)))
      (𝓝[>] 0) (𝓝 (∫ x in Set.Ioi (0:ℝ), g x)) := by
  have hpi := Real.pi_pos
  have hG0 : ∀ x, 0 < x → 0 ≤ G x := fun x hx => le_trans (abs_nonneg _) (hgG x hx)
  have hgi : IntegrableOn g (Set.Ioi 0) := by
    refine hGi.mono' ?_ ?_
    · exact (hg.mono Set.Ioi_subset_Ici_self).aestronglyMeasurable measurableSet_Ioi
    · filter_upwards [ae_restrict_mem measurableSet_Ioi] with x hx
      exact hgG x hx
  have hlim := intervalIntegral_tendsto_integral_Ioi 0 hgi tendsto_id
  have hlimG := intervalIntegral_tendsto_integral_Ioi 0 hGi tendsto_id
  rw [Metric.tendsto_nhds]
  intro ε hε
  have c1 := (Metric.tendsto_nhds.mp hlim) (ε / 3) (by positivity)
  have c2 := (Metric.tendsto_nhds.mp hlimG) (ε / (3 * (1 + Real.pi / 2)) / 2) (by positivity)
  obtain ⟨X, hX1, hX2, hX3⟩ := (c1.and (c2.and (eventually_ge_atTop 1))).exists
  have hX0 : (0:ℝ) ≤ X := by linarith
  have hcomp := ogata_compact hX0 (hg.mono Set.Icc_subset_Ici_self)
  have c3 := (Metric.tendsto_nhds.mp hcomp) (ε / 3) (by positivity)
  have hlast : Tendsto (fun h => ∫ x in (ogX h (lastNode h X))..X, G x) (𝓝[>] 0) (𝓝 0) := by
    have hgap : Tendsto (fun h => X - ogX h (lastNode h X)) (𝓝[>] 0) (𝓝 0) := by
      obtain ⟨K, hK, δ, hδ, hlip⟩ := ogDpsi_lip
      have ht := lastNode_small X hX0
      have h0 := (ht.const_mul (Real.pi * K))
      rw [mul_zero] at h0
      refine squeeze_zero' ?_ ?_ h0
      · filter_upwards [self_mem_nhdsWithin] with h hh
        have := (lastNode_spec (show 0 < h from hh) hX0).1
        linarith
      · filter_upwards [self_mem_nhdsWithin, ht.eventually (gt_mem_nhds hδ)] with h hh h1
        have hh' : 0 < h := hh
        have := (lastNode_spec hh' hX0).2
        obtain ⟨ξ, hξ, e⟩ := ogX_cell hh' (lastNode h X)
        have hξ0 : 0 < ξ := lt_of_le_of_lt (by positivity) hξ.1
        have h2 := hlip ξ 0 (by rw [abs_of_pos hξ0]; linarith [hξ.2]) (by rw [abs_zero]; exact hδ)
        rw [ogDpsi_zero, sub_zero, sub_zero, abs_of_pos hξ0] at h2
        have h3 := le_abs_self (ogDpsi ξ)
        have h4 : Real.pi * ogDpsi ξ ≤ Real.pi * (K * (h * ((lastNode h X + 1 : ℕ) : ℝ))) := by
          have : ogDpsi ξ ≤ K * (h * ((lastNode h X + 1 : ℕ) : ℝ)) :=
            le_trans h3 (le_trans h2 (by gcongr; exact hξ.2.le))
          gcongr
        have e5 : Real.pi * K * (h * ((lastNode h X + 1 : ℕ) : ℝ))
            = Real.pi * (K * (h * ((lastNode h X + 1 : ℕ) : ℝ))) := by ring
        rw [e5]
        linarith
    have hb : Tendsto (fun h => G 0 * (X - ogX h (lastNode h X))) (𝓝[>] 0) (𝓝 0) := by
      simpa using hgap.const_mul (G 0)
    refine squeeze_zero' ?_ ?_ hb
    · filter_upwards [self_mem_nhdsWithin] with h hh
      have hh' : 0 < h := hh
      have h1 := (lastNode_spec hh' hX0).1
      refine intervalIntegral.integral_nonneg_of_ae_restrict h1 ?_
      filter_upwards [ae_restrict_mem measurableSet_Icc] with x hx
      rcases (ogX_nonneg hh' (lastNode h X)).eq_or_lt with h0 | h0
      · rcases hx.1.eq_or_lt with h2 | h2
        · exact le_trans (hG0 1 one_pos) (hG (Set.mem_Ici.mpr (by rw [← h2, ← h0]))
            (Set.mem_Ici.mpr zero_le_one) (by rw [← h2, ← h0]; exact zero_le_one))
        · exact hG0 x (by linarith)
      · exact hG0 x (by linarith [hx.1])
    · filter_upwards [self_mem_nhdsWithin] with h hh
      have hh' : 0 < h := hh
      have h1 := (lastNode_spec hh' hX0).1
      have hi : IntervalIntegrable G volume (ogX h (lastNode h X)) X := by
        apply AntitoneOn.intervalIntegrable
        rw [Set.uIcc_of_le h1]
        exact hG.mono fun x hx => le_trans (ogX_nonneg hh' _) hx.1
      have := intervalIntegral.integral_mono_on (f := G) (g := fun _ => G 0) h1 hi
        intervalIntegrable_const (fun x hx => hG (Set.mem_Ici.mpr le_rfl)
          (Set.mem_Ici.mpr (le_trans (ogX_nonneg hh' _) hx.1)) (le_trans (ogX_nonneg hh' _) hx.1))
      rw [intervalIntegral.integral_const, smul_eq_mul, mul_comm] at this
      exact this
  have c4 := hlast.eventually (gt_mem_nhds (show 0 < ε / (3 * (1 + Real.pi / 2)) / 2 by positivity))
  have c5 := hN.eventually (eventually_gt_atTop X)
  filter_upwards [c3, c4, c5, self_mem_nhdsWithin] with h h3 h4 h5 hh
  have hh' : 0 < h := hh
  have hmono := (ogX_strictMono hh')
  have hm := lastNode_spec hh' hX0
  have hmN : lastNode h X ≤ N h := by
    by_contra hlt
    push Not at hlt
    have := hmono hlt
    linarith [hm.1]
  have htail := ogata_tail hh' hG hgG (lastNode h X) (N h) hmN
  rw [← sum_range_add_sum_Ico _ hmN]
  have hiG : ∀ a b, 0 ≤ a → a ≤ b → IntervalIntegrable G volume a b := by
    intro a b ha hab
    apply AntitoneOn.intervalIntegrable
    rw [Set.uIcc_of_le hab]
    exact hG.mono fun x hx => le_trans ha hx.1
  have hsp : ∫ x in (ogX h (lastNode h X))..(ogX h (N h)), G x
      = (∫ x in (ogX h (lastNode h X))..X, G x) + ∫ x in X..(ogX h (N h)), G x :=
    (intervalIntegral.integral_add_adjacent_intervals (hiG _ _ (ogX_nonneg hh' _) hm.1)
      (hiG _ _ hX0 h5.le)).symm
  have hfar : ∫ x in X..(ogX h (N h)), G x ≤ ε / (3 * (1 + Real.pi / 2)) / 2 := by
    have e1 : ∫ x in X..(ogX h (N h)), G x ≤ ∫ x in Set.Ioi X, G x := by
      rw [intervalIntegral.integral_of_le h5.le]
      refine setIntegral_mono_set (hGi.mono_set (Set.Ioi_subset_Ioi hX0)) ?_ ?_
      · filter_upwards [ae_restrict_mem measurableSet_Ioi] with x hx
        exact hG0 x (lt_of_le_of_lt hX0 hx)
      · exact (Set.Ioc_subset_Ioi_self).eventuallyLE
    have e2 : (∫ x in (0:ℝ)..X, G x) + ∫ x in Set.Ioi X, G x = ∫ x in Set.Ioi (0:ℝ), G x :=
      intervalIntegral.integral_interval_add_Ioi hGi (hGi.mono_set (Set.Ioi_subset_Ioi hX0))
    rw [Real.dist_eq] at hX2
    have := (abs_lt.mp hX2).1
    simp only [id] at this
    linarith
  rw [hsp] at htail
  have hK : 0 < 1 + Real.pi / 2 := by positivity
  have htail2 : (1 + Real.pi / 2) * ((∫ x in (ogX h (lastNode h X))..X, G x) + ∫ x in X..(ogX h (N h)), G x)
      < ε / 3 := by
    have e : ε / 3 = (1 + Real.pi / 2) * (ε / (3 * (1 + Real.pi / 2)) / 2 + ε / (3 * (1 + Real.pi / 2)) / 2) := by
      field_simp
      ring
    rw [e]
    exact mul_lt_mul_of_pos_left (by linarith) hK
  rw [Real.dist_eq] at *
  simp only [id] at hX1
  generalize (∑ n ∈ range (lastNode h X), Real.pi * ogDpsi (h * (n + 1 : ℕ)) * g (ogX h (n + 1))) = S1 at *
  generalize (∑ n ∈ Ico (lastNode h X) (N h), Real.pi * ogDpsi (h * (n + 1 : ℕ)) * g (ogX h (n + 1))) = S2 at *
  have e : S1 + S2 - ∫ x in Set.Ioi (0:ℝ), g x
      = (S1 - ∫ x in (0:ℝ)..X, g x) + ((∫ x in (0:ℝ)..X, g x) - ∫ x in Set.Ioi (0:ℝ), g x) + S2 := by ring
  rw [e]
  refine lt_of_le_of_lt (abs_add_le _ _) ?_
  have := abs_add_le (S1 - ∫ x in (0:ℝ)..X, g x) ((∫ x in (0:ℝ)..X, g x) - ∫ x in Set.Ioi (0:ℝ), g x)
  linarith

/-- the last available node `int(3.2/h)` goes to infinity as `h` tends to 0. -/
theorem ogNmax_tendsto {N : ℝ → ℕ} (hN : ∀ h, 0 < h → ogNmax h ≤ N h) :
    Tendsto (fun h => ogX h (N h)) (𝓝[>] 0) atTop := by
  have hpi := Real.pi_pos
  have h1 : Tendsto (fun h : ℝ => Real.pi * h⁻¹ * psi 2) (𝓝[>] 0) atTop := by
    have hp : 0 < psi 2 := by
      have := psi_lt le_rfl (show (0:ℝ) < 2 by norm_num)
      rwa [psi_zero] at this
    exact (tendsto_inv_nhdsGT_zero.const_mul_atTop hpi).atTop_mul_const hp
  refine tendsto_atTop_mono' _ ?_ h1
  have hs : ∀ᶠ h : ℝ in 𝓝[>] 0, h < 1 := (tendsto_nhdsWithin_of_tendsto_nhds tendsto_id).eventually (gt_mem_nhds one_pos)
  filter_upwards [self_mem_nhdsWithin, hs] with h hh h1
  have hh' : 0 < h := hh
  refine le_trans ?_ ((ogX_strictMono hh').monotone (hN h hh'))
  rw [(C11_ogata_nodes h hh'.ne' _).1, div_eq_mul_inv]
  have h2 : 2 < h * (ogNmax h : ℝ) := by
    unfold ogNmax
    have := Nat.lt_floor_add_one ((3.2:ℝ) / h)
    rw [div_lt_iff₀ hh'] at this
    nlinarith
  have h3 := (psi_lt (by norm_num) h2).le
  have : 0 ≤ Real.pi * h⁻¹ := by positivity
  gcongr

end

end Halomod.Tools
