import Verif.Props.Bound3

/-! # C64 for `Zheng05` -/
namespace Halomod.HaloModel

open Finset Filter Topology MeasureTheory Halomod.Tools Halomod.HOD

theorem zheng_range (p : ZhengP) (hs : 0 < p.sig_logm) (ha : 0 ≤ p.alpha) : (∀ m, 0 < zhengCen p m ∧ zhengCen p m < 1) ∧ ∀ m, 0 ≤ zhengSat p m :=
  ⟨(C03_zheng_central p hs false).1, fun m => (C03_zheng_satellite p ha hs).2.2.1 m false⟩

theorem zheng_tame (p : ZhengP) (ha : 0 ≤ p.alpha) {a b : ℝ} (h0 : 0 < a) (hab : a ≤ b) : Tame (zhengCen p) a b ∧ Tame (zhengSat p) a b := by
  have t := hod_tame (.zheng05 p) false ha h0 hab
  refine ⟨ContinuousOn.tame ?_, t.2.1⟩
  unfold zhengCen
  exact continuousOn_const.mul (continuousOn_const.add (erf_continuous.comp_continuousOn (((log10_cont h0).sub continuousOn_const).div_const _)))

/-- `Zheng05` with any scatter. -/
theorem zheng_stepped (p : ZhengP) (hs : 0 < p.sig_logm) (ha : 0 ≤ p.alpha) {lo hi : ℝ} (hlh : lo < hi) (h1 : 0 < p.M_min - 5 * p.sig_logm) (h3 : p.M_min - 5 * p.sig_logm ≤ (10:ℝ) ^ lo) :
    Stepped { inherent := false, sharpCut := false, cen := zhengCen p, sat := zhengSat p, mmin := p.M_min - 5 * p.sig_logm } lo hi := by
  have h0 : (0:ℝ) < (10:ℝ) ^ lo := by positivity
  obtain ⟨hc, hsat⟩ := zheng_range p hs ha
  obtain ⟨t1, t2⟩ := zheng_tame p ha h0 (pow_lt hlh).le
  exact { tpc := fun _ => rfl
          cut := fun h => absurd h (by simp)
          one := fun h => absurd h (by simp)
          zero := fun h => absurd h (by simp)
          mmin := ⟨h1, h3⟩
          cenT := t1
          satT := t2
          sigT := by
            refine tame_sqrt (t1.mul (((tame_const 1 _ _).add ((tame_const (-1) _ _).mul t1)).congr fun m _ => ?_))
            ring
          cen := fun m _ => (hc m).1.le
          sat := fun m _ => hsat m
          sig := fun m _ => (Real.sq_sqrt (mul_nonneg (hc m).1.le (by linarith [(hc m).2]))).le }

theorem zheng_occupied (p : ZhengP) (hs : 0 < p.sig_logm) (ha : 0 ≤ p.alpha) (central : Bool) {lo hi : ℝ} (hlh : lo < hi) : Occupied (zheng05 p central) lo hi := by
  have h0 : (0:ℝ) < (10:ℝ) ^ lo := by positivity
  have ht := hod_tame (.zheng05 p) central ha h0 (pow_lt hlh).le
  obtain ⟨hc, hsat⟩ := zheng_range p hs ha
  obtain ⟨t1, t2⟩ := zheng_tame p ha h0 (pow_lt hlh).le
  have ec : ∀ m, centralNumber (zheng05 p central) m = zhengCen p m := fun m => by
    unfold centralNumber
    cases central <;> simp [zheng05, poisson]
  refine ⟨fun h => absurd h (by cases central <;> simp [zheng05, poisson]), ?_, ht.2.1, fun m _ => ?_, fun m _ => ?_, ⟨(10:ℝ) ^ lo, ?_, pow_lt hlh, fun m _ => ?_⟩⟩
  · rw [show centralNumber (zheng05 p central) = zhengCen p from funext ec]
    exact t1
  · rw [ec]; exact (hc m).1.le
  · exact (C03_zheng_satellite p ha hs).2.2.1 m central
  · unfold tracerLow
    rw [if_neg (by cases central <;> simp [zheng05, poisson])]
  · rw [ec]; exact (hc m).1

/-- C64 for `Zheng05`: the two-halo terms are perfectly correlated where no profile is resolved; where the tracer profile is below one the cross power exceeds the geometric mean of
the auto powers. -/
theorem C64_zheng_two_halo (E : Env) (hs : SplLin E.isp) (hc : SplQuad E.isp) (h : HM) (ho : h.Ok) (p : ZhengP) (central : Bool)
    (hh : h.hod = zheng05 p central) (hsig : 0 < p.sig_logm) (ha : 0 ≤ p.alpha) {lo hi : ℝ} (hlh : lo < hi)
    (hf : h.forceUnity = false) (hr : h.rhoGtm = h.meanDensity0) (hρ : 0 < h.meanDensity0)
    (D B : ℝ → ℝ) (U T Λ : ℕ → ℝ → ℝ) (hD : Tame D ((10:ℝ) ^ lo) ((10:ℝ) ^ hi)) (hB : Tame B ((10:ℝ) ^ lo) ((10:ℝ) ^ hi))
    (hU : ∀ j, Tame (U j) ((10:ℝ) ^ lo) ((10:ℝ) ^ hi)) (hT : ∀ j, Tame (T j) ((10:ℝ) ^ lo) ((10:ℝ) ^ hi))
    (pD : ∀ m ∈ Set.Icc ((10:ℝ) ^ lo) ((10:ℝ) ^ hi), 0 < D m) (pB : ∀ m ∈ Set.Icc ((10:ℝ) ^ lo) ((10:ℝ) ^ hi), 0 < B m) :
    ∃ tm mm tt : ℝ → ℝ → ℝ, (∀ d > 0, (mesh h lo hi D B U T Λ d).power2hCross E = some (tm d)) ∧
      (∀ d > 0, (mesh h lo hi D B U T Λ d).power2hMatter E = some (mm d)) ∧ (∀ d > 0, (mesh h lo hi D B U T Λ d).power2hTracer E = some (tt d)) ∧
      ∀ j < h.nk,
        ((∀ m ∈ Set.Icc ((10:ℝ) ^ lo) ((10:ℝ) ^ hi), T j m = 1) →
          Tendsto (fun d => tm d (h.k j) ^ 2 - mm d (h.k j) * tt d (h.k j)) (𝓝[>] 0) (𝓝 0)) ∧
        ((∀ m ∈ Set.Icc ((10:ℝ) ^ lo) ((10:ℝ) ^ hi), 0 < U j m) → (∀ m ∈ Set.Icc ((10:ℝ) ^ lo) ((10:ℝ) ^ hi), 0 ≤ T j m ∧ T j m < 1) → h.phc (h.k j) ≠ 0 →
          ∀ᶠ d in 𝓝[>] (0:ℝ), mm d (h.k j) * tt d (h.k j) < tm d (h.k j) ^ 2) :=
  C64_mesh_two_halo E hs hc h ho hlh (by rw [hh]; exact zheng_occupied p hsig ha central hlh) hf hr hρ D B U T Λ hD hB hU hT pD pB

/-- C64 for `Zheng05`: the one-halo bound, with the turnover switched off, on any mass grid whose smallest mass exceeds the number `M_min - 5 sig_logm` (about 10). -/
theorem C64_zheng_partial (E : Env) (hs : SplLin E.isp) (hc : SplQuad E.isp) (h : HM) (ho : h.Ok) (p : ZhengP) (central : Bool)
    (hh : h.hod = zheng05 p central) (hsig : 0 < p.sig_logm) (ha : 0 ≤ p.alpha) {lo hi : ℝ} (hlh : lo < hi) (h1 : 0 < p.M_min - 5 * p.sig_logm)
    (h3 : p.M_min - 5 * p.sig_logm ≤ (10:ℝ) ^ lo) (ht : h.turnover = false)
    (D B : ℝ → ℝ) (U T Λ : ℕ → ℝ → ℝ) (hD : Tame D ((10:ℝ) ^ lo) ((10:ℝ) ^ hi)) (hB : Tame B ((10:ℝ) ^ lo) ((10:ℝ) ^ hi))
    (hU : ∀ j, Tame (U j) ((10:ℝ) ^ lo) ((10:ℝ) ^ hi)) (hT : ∀ j, Tame (T j) ((10:ℝ) ^ lo) ((10:ℝ) ^ hi))
    (pD : ∀ m ∈ Set.Icc ((10:ℝ) ^ lo) ((10:ℝ) ^ hi), 0 < D m) (hρ : 0 < h.meanDensity0)
    (j : ℕ) (hj : j < h.nk) (pT : ∀ m ∈ Set.Icc ((10:ℝ) ^ lo) ((10:ℝ) ^ hi), 0 ≤ T j m) :
    ∃ tm mm tt : ℝ → ℝ → ℝ, (∀ d > 0, (mesh h lo hi D B U T Λ d).power1hCross E = some (tm d)) ∧
      (∀ d > 0, (mesh h lo hi D B U T Λ d).power1hMatter E = some (mm d)) ∧ (∀ d > 0, (mesh h lo hi D B U T Λ d).power1hTracer E = some (tt d)) ∧
      ∀ ε > 0, ∀ᶠ d in 𝓝[>] (0:ℝ), tm d (h.k j) ^ 2 ≤
        mm d (h.k j) * (tt d (h.k j) + 1 / (mesh h lo hi D B U T Λ d).meanTracerDen E) + ε := by
  have hh' := hh
  refine C64_mesh_one_halo_bound_partial E hs hc h ho hlh _ central hh (zheng_stepped p hsig ha hlh h1 h3) ht D B U T Λ hD hB hU hT (fun m hm => (pD m hm).le) hρ ?_ j hj pT
  have htm := hod_tame (.zheng05 p) central ha (by positivity : (0:ℝ) < (10:ℝ) ^ lo) (pow_lt hlh).le
  have t1 := (zheng_tame p ha (by positivity : (0:ℝ) < (10:ℝ) ^ lo) (pow_lt hlh).le).1
  obtain ⟨hcen, hsat⟩ := zheng_range p hsig ha
  rw [hh']
  have t3 : Tame (fun m => D m * ((zheng05 p central).cenOcc m + (zheng05 p central).satOcc m)) ((10:ℝ) ^ lo) ((10:ℝ) ^ hi) := hD.mul (Tame.add t1 htm.2.1)
  refine intervalIntegral.intervalIntegral_pos_of_pos_on (t3.intervalIntegrable ⟨le_rfl, (pow_lt hlh).le⟩ ⟨(pow_lt hlh).le, le_rfl⟩) (fun m hm => ?_) (pow_lt hlh)
  exact mul_pos (pD m ⟨hm.1.le, hm.2.le⟩) (add_pos_of_pos_of_nonneg (hcen m).1 ((C03_zheng_satellite p ha hsig).2.2.1 m central))

/-- the default parameters meet the hypotheses on any range from `10**10`. -/
example : (0:ℝ) < ({} : ZhengP).sig_logm ∧ (0:ℝ) ≤ ({} : ZhengP).alpha ∧ (0:ℝ) < ({} : ZhengP).M_min - 5 * ({} : ZhengP).sig_logm ∧
    ({} : ZhengP).M_min - 5 * ({} : ZhengP).sig_logm ≤ (10:ℝ) ^ (10:ℝ) ∧ Occupied (zheng05 {} false) 10 15 := by
  refine ⟨by norm_num, by norm_num, by norm_num, ?_, zheng_occupied _ (by norm_num) (by norm_num) false (by norm_num)⟩
  have : (10:ℝ) ^ (2:ℝ) ≤ (10:ℝ) ^ (10:ℝ) := Real.rpow_le_rpow_of_exponent_le (by norm_num) (by norm_num)
  norm_num at this ⊢

end Halomod.HaloModel
