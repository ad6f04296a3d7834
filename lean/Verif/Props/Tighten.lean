import Verif.Props.HaloModel
import Verif.Props.Cross
import Verif.Props.Spectra
import Verif.Props.Components
import Verif.Props.FindSmooth
import Mathlib.Tactic

/-! # Theorems added because a wrong program survived (see `seeded/LOG.jsonl`) -/
namespace Halomod.HaloModel

open Finset Halomod.Tools Halomod.HOD

variable {E : Env} {h : HM}

/-- C36: the tabulated tracer density per halo mass is what the mean density integrates: for an HOD without a
sharp cut over the whole grid; for a sharp-cut HOD above the minimum mass. -/
theorem C36_density_table (hs : SplLin E.isp) (ho : h.Ok) :
    (¬ h.cut → h.meanTracerDen E = h.S E h.tracerDensityM none) ∧
    (h.cut → (∀ M, (10:ℝ) ^ h.hod.mmin ≤ M → h.hod.cenOcc M = 1) → h.m 0 ≤ 10 ^ h.hod.mmin →
      (10:ℝ) ^ h.hod.mmin ≤ h.m (h.nm - 1) →
      ∃ g : ℝ → ℝ, h.meanTracerDen E = (∫ M in (10:ℝ) ^ h.hod.mmin..h.m (h.nm - 1), g M) ∧
        ∀ i < h.nm, (10:ℝ) ^ h.hod.mmin ≤ h.m i → g (h.m i) = h.tracerDensityM i) := by
  refine ⟨fun hc => ?_, fun hc hone h1 h2 => C36_mean_density_cut_partial hs ho hc hone h1 h2⟩
  have hm : h.tracerMmin = none := by
    unfold HM.tracerMmin; rw [cut_false hc]; simp
  unfold HM.meanTracerDen
  rw [hm]
  apply S_congr hs
  intro i _
  unfold HM.tracerDensityM HM.totOccInt HM.cenOccInt Hod.totalOcc
  rw [cut_false hc]; simp

/-- C47: the extension above the table is switched by the word "filtered" in the name: exactly for the two
filtered spectra. -/
theorem C47_filtered_flag (v : String) (hv : hcAccepts v = true) :
    hcFiltered v = true ↔ "filtered".toList <+: v.toList := by
  have : v = "linear" ∨ v = "nonlinear" ∨ v = "filtered-lin" ∨ v = "filtered-nl" := by
    unfold hcAccepts at hv; simpa using hv
  rcases this with rfl | rfl | rfl | rfl <;> decide

end Halomod.HaloModel

namespace Halomod.Components

variable {C : Type} [DecidableEq C]

/-- C48: an HOD is built with the tracer's profile and relation: evaluating the profile it holds, with its own
concentrations, gives the tracer transform that enters the spectra. -/
theorem C48_hod_components (e : Eval C) (c : Cfg C) (k m : ℝ) :
    e.profU (hodComponents c).2 k m (some (e.cm (hodComponents c).1 m)) = e.tracerUkm c k m ∧
    e.profU (hodComponents c).2 k m none = e.tracerOwn c k m := ⟨rfl, rfl⟩

end Halomod.Components

namespace Halomod.Cross

open Halomod.Tools Halomod.HOD Halomod.HaloModel

variable {E : Env}

/-- C41: with constant correlation coefficients, `R_ss` correlates the satellites of the two tracers, `R_cs`
the centrals of the first with the satellites of the second, `R_sc` the satellites of the first with the centrals
of the second. -/
theorem C41_constant_coefficients (rss rcs rsc : ℝ) (h1 h2 : Hod) (m : ℝ) :
    ssCross (constantCorr rss rcs rsc) h1 h2 m =
      h1.satOcc m * h2.satOcc m + rss * (h1.sigmaSat m * h2.sigmaSat m) ∧
    csCross (constantCorr rss rcs rsc) h1 h2 m =
      h1.cenOcc m * h2.satOcc m + rcs * (h1.sigmaCen m * h2.sigmaSat m) ∧
    scCross (constantCorr rss rcs rsc) h1 h2 m =
      h1.satOcc m * h2.cenOcc m + rsc * (h1.sigmaSat m * h2.sigmaCen m) := by
  refine ⟨?_, ?_, ?_⟩
  · unfold ssCross constantCorr; simp only; ring
  · unfold csCross constantCorr; simp only; ring
  · unfold scCross constantCorr; simp only; ring

/-- C41: masses at which a pair count is undefined do not influence the 1-halo cross power: changing the mass
function there (with the mean density given) changes nothing; and if all are defined it is Simpson's rule over the
whole grid. -/
theorem C41_undefined_masses (c : CrossDef) (keep : ℕ → Bool) (h1 h2 : HM) (j : ℕ)
    (hne : ∃ i < h1.nm, keep i = true) :
    ((∀ i < h1.nm, keep i = true) → power1hTab E c keep h1 h2 j =
      simpsonX h1.nm h1.m (integ1h c h1 h2 j) / (h1.meanTracerDen E * h2.meanTracerDen E)) ∧
    ∀ (f : ℕ → ℝ), (∀ i, keep i = true → f i = h1.dndm i) →
      HM.meanTracerDen E { h1 with dndm := f } = h1.meanTracerDen E →
      power1hTab E c keep { h1 with dndm := f } h2 j = power1hTab E c keep h1 h2 j := by
  constructor
  · intro hall
    have hf : (List.range h1.nm).filter keep = List.range h1.nm := by
      rw [List.filter_eq_self]; intro i hi; exact hall i (List.mem_range.mp hi)
    obtain ⟨i0, hi0, -⟩ := hne
    have hg : ∀ i < h1.nm, (List.range h1.nm).getD i 0 = i := by
      intro i hi; simp [List.getD_eq_getElem?_getD, hi]
    have hx : ∀ (n : ℕ) (x x' y : ℕ → ℝ), 0 < n → (∀ i < n, x i = x' i) → simpsonX n x y = simpsonX n x' y := by
      intro n x x' y hn hxx
      have hb : ∀ b, 2 * b < n → basicSimpsonX b x y = basicSimpsonX b x' y := by
        intro b hb
        unfold basicSimpsonX
        apply Finset.sum_congr rfl
        intro i hi
        have := Finset.mem_range.mp hi
        rw [hxx _ (by omega), hxx _ (by omega), hxx _ (by omega)]
      unfold simpsonX
      dsimp only
      split_ifs with h1 h2
      · rw [hxx _ (by omega), hxx _ (by omega)]
      · rw [hb _ (by omega), hxx _ (by omega), hxx _ (by omega), hxx _ (by omega)]
      · exact hb _ (by omega)
    unfold power1hTab
    simp only [hf, List.length_range]
    rw [hx h1.nm _ h1.m _ (by omega) (fun i hi => by simp only [hg i hi]),
      simpsonX_congr (g := integ1h c h1 h2 j) (by omega) (fun i hi => by simp only [hg i hi])]
  · intro f hfk hden
    unfold power1hTab
    simp only
    rw [hden]
    congr 1
    obtain ⟨i0, hi0, hk0⟩ := hne
    have hlen : 0 < ((List.range h1.nm).filter keep).length :=
      List.length_pos_of_mem (List.mem_filter.mpr ⟨List.mem_range.mpr hi0, hk0⟩)
    apply simpsonX_congr hlen
    intro i hi
    have hmem : keep (((List.range h1.nm).filter keep).getD i 0) = true := by
      have : ((List.range h1.nm).filter keep).getD i 0 ∈ (List.range h1.nm).filter keep := by
        rw [List.getD_eq_getElem _ _ hi]; exact List.getElem_mem hi
      exact (List.mem_filter.mp this).2
    unfold integ1h
    simp only
    rw [hfk _ hmem]

end Halomod.Cross

namespace Halomod.Components

open Halomod.HOD Finset

/-- on an increasing grid the tracer mask is the grid from the first mass at or above the minimum on. -/
theorem mask_is_tail (nm : ℕ) (m : ℕ → ℝ) (hm : ∀ i j, i < j → j < nm → m i < m j) (x : ℝ) :
    ∃ k ≤ nm, (∀ i < k, m i < (10:ℝ) ^ x) ∧ (∀ i, k ≤ i → i < nm → (10:ℝ) ^ x ≤ m i) ∧
      tracerMask nm m (some x) = (List.range (nm - k)).map (k + ·) := by
  classical
  induction nm with
  | zero => exact ⟨0, le_rfl, by simp, by simp, by simp [tracerMask]⟩
  | succ n ih =>
    obtain ⟨k, hk, h1, h2, h3⟩ := ih fun i j hij hj => hm i j hij (by omega)
    have hstep : tracerMask (n + 1) m (some x) = tracerMask n m (some x) ++ if (10:ℝ) ^ x ≤ m n then [n] else [] := by
      unfold tracerMask
      simp only [List.range_succ, List.filter_append]
      congr 1
      split_ifs with h <;> simp [h]
    by_cases hn : (10:ℝ) ^ x ≤ m n
    · refine ⟨k, by omega, h1, ?_, ?_⟩
      · intro i hi hin
        rcases Nat.lt_or_ge i n with h | h
        · exact h2 i hi h
        · rw [show i = n by omega]; exact hn
      · rw [hstep, if_pos hn, h3, show n + 1 - k = (n - k) + 1 by omega, List.range_succ, List.map_append]
        simp; omega
    · have hkn : k = n := by
        by_contra hne
        have hkl : k < n := by omega
        have := h2 (n - 1) (by omega) (by omega)
        have := hm (n - 1) n (by omega) (by omega)
        linarith
      refine ⟨n + 1, le_rfl, ?_, by intro i h4 h5; omega, ?_⟩
      · intro i hi
        rcases Nat.lt_or_ge i n with h | h
        · exact h1 i (by omega)
        · rw [show i = n by omega]; exact not_le.mp hn
      · rw [hstep, if_neg hn, h3, hkn]; simp

end Halomod.Components

namespace Halomod.HaloState

open Halomod.Components Halomod.HOD Finset

/-- C50: the density the solver matches is Simpson's rule over `ln m` of `m dn/dm` times the mean number of
galaxies, on exactly the grid masses at or above the minimum mass. -/
theorem C50_density (c : Clone) (hm : ∀ i j, i < j → j < c.nm → c.m i < c.m j) (x : ℝ) :
    ∃ k ≤ c.nm, (∀ i < k, c.m i < (10:ℝ) ^ (c.hod x).mmin) ∧ (∀ i, k ≤ i → i < c.nm → (10:ℝ) ^ (c.hod x).mmin ≤ c.m i) ∧
      (k < c.nm → c.density x = simpsonDx (c.nm - k) (Real.log (c.m 1 / c.m 0)) (fun i =>
        c.m (k + i) * c.dndm (k + i) * ((c.hod x).cenOcc (c.m (k + i)) + (c.hod x).satOcc (c.m (k + i))))) := by
  obtain ⟨k, hk, h1, h2, h3⟩ := mask_is_tail c.nm c.m hm (c.hod x).mmin
  refine ⟨k, hk, h1, h2, fun hlt => ?_⟩
  have hg : ∀ i < c.nm - k, (c.mask x).getD i 0 = k + i := by
    intro i hi
    unfold Clone.mask
    rw [h3]
    simp [List.getD_eq_getElem?_getD, hi]
  have hl : (c.mask x).length = c.nm - k := by unfold Clone.mask; rw [h3]; simp
  unfold Clone.density
  simp only
  rw [hl]
  apply simpsonDx_congr (by omega)
  intro i hi
  rw [hg i hi]
  rfl

/-- C50: a trial minimum mass is usable exactly when at least two grid masses are at or above it. -/
theorem C50_valid (c : Clone) (hm : ∀ i j, i < j → j < c.nm → c.m i < c.m j) (x : ℝ) :
    c.valid x ↔ ∃ i j, i < j ∧ j < c.nm ∧ (10:ℝ) ^ (c.hod x).mmin ≤ c.m i ∧ (10:ℝ) ^ (c.hod x).mmin ≤ c.m j := by
  obtain ⟨k, hk, h1, h2, h3⟩ := mask_is_tail c.nm c.m hm (c.hod x).mmin
  have hl : (c.mask x).length = c.nm - k := by unfold Clone.mask; rw [h3]; simp
  unfold Clone.valid
  rw [hl]
  constructor
  · intro h
    exact ⟨k, k + 1, by omega, by omega, h2 k le_rfl (by omega), h2 (k + 1) (by omega) (by omega)⟩
  · rintro ⟨i, j, hij, hj, a, b⟩
    have : k ≤ i := by
      by_contra hc
      exact absurd a (not_le.mpr (h1 i (by omega)))
    omega

end Halomod.HaloState

namespace Halomod.Exclusion

open Finset

/-- C19: for odd sizes the weights of `makeW` are those of Simpson's rule applied along both axes. -/
theorem C19_makeW_odd (nx ny : ℕ) (hx : 3 ≤ nx) (hy : 3 ≤ ny) (ox : nx % 2 = 1) (oy : ny % 2 = 1) (X : Mat) (dx dy : ℝ) :
    dx * dy / 9 * ∑ i ∈ range nx, ∑ j ∈ range ny, makeW nx ny i j * X i j =
      simpsonDx nx dx fun i => simpsonDx ny dy fun j => X i j := by
  have key : ∀ (n : ℕ), 3 ≤ n → n % 2 = 1 → ∀ (d : ℝ) (y : ℕ → ℝ),
      d / 3 * ∑ i ∈ range n, makeWaxis n i * y i = simpsonDx n d y := by
    intro n hn ho d y
    have e : ∀ i, makeWaxis n i = axisW n i := by
      intro i
      unfold makeWaxis axisW
      rw [if_neg (show ¬ n % 2 = 0 by omega)]
      have a1 : (i ∈ pyRange 1 (n - 1) 2) ↔ (1 ≤ i ∧ i < n - 1 ∧ i % 2 = 1) := by
        unfold pyRange
        simp only [List.mem_map, List.mem_range]
        constructor
        · rintro ⟨k, hk, rfl⟩; omega
        · rintro ⟨p, q, r⟩; exact ⟨(i - 1) / 2, by omega, by omega⟩
      have a2 : (i ∈ pyRange 2 (n - 1) 2) ↔ (2 ≤ i ∧ i < n - 1 ∧ i % 2 = 0) := by
        unfold pyRange
        simp only [List.mem_map, List.mem_range]
        constructor
        · rintro ⟨k, hk, rfl⟩; omega
        · rintro ⟨p, q, r⟩; exact ⟨(i - 2) / 2, by omega, by omega⟩
      simp only [a1, a2]
    simp only [e]
    unfold simpsonDx
    rw [if_neg (by omega)]
    obtain ⟨b, rfl⟩ : ∃ b, n = 2 * (b + 1) + 1 := ⟨(n - 3) / 2, by omega⟩
    rw [axisW_odd_sum]; congr 1; omega
  rw [← key nx hx ox]
  simp only [← key ny hy oy]
  rw [mul_sum, mul_sum]
  apply sum_congr rfl; intro i _
  rw [mul_sum, mul_sum, mul_sum, mul_sum]
  apply sum_congr rfl; intro j _
  unfold makeW
  ring

/-- the hypotheses hold for a 3 by 5 table -/
example : 3 ≤ 3 ∧ 3 ≤ 5 ∧ 3 % 2 = 1 ∧ 5 % 2 = 1 := by decide

end Halomod.Exclusion
