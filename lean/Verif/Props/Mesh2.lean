import Verif.Lemmas.Tame2
import Verif.Props.Mesh
import Verif.Props.Cross2

/-! # C56 for cross spectra and the WDM model on the mass grid the package really uses, for occupations with steps -/
namespace Halomod.HaloModel

open Filter Topology MeasureTheory Halomod.Tools Halomod.HOD

/-- Simpson's rule over the masses of `10 ** np.arange(Mmin, Mmax, dlog10m)`. -/
theorem simpson_mesh {lo hi : ℝ} (hlh : lo < hi) {f : ℝ → ℝ} (hf : Tame f ((10:ℝ) ^ lo) ((10:ℝ) ^ hi)) :
    Tendsto (fun d : ℝ => simpsonX (arangeN lo hi d) (fun i : ℕ => (10:ℝ) ^ (lo + i * d)) fun i : ℕ => f ((10:ℝ) ^ (lo + i * d))) (𝓝[>] 0)
      (𝓝 (∫ m in (10:ℝ) ^ lo..(10:ℝ) ^ hi, f m)) := by
  have h0 : (0:ℝ) < (10:ℝ) ^ lo := by positivity
  have hmem : ∀ t ∈ Set.Icc (lo * Real.log 10) (hi * Real.log 10), Real.exp t ∈ Set.Icc ((10:ℝ) ^ lo) ((10:ℝ) ^ hi) := fun t ht => by
    rw [ten_pow, ten_pow]
    exact ⟨Real.exp_le_exp.mpr ht.1, Real.exp_le_exp.mpr ht.2⟩
  have hv : Tame (fun t => f (Real.exp t)) (lo * Real.log 10) (hi * Real.log 10) := by
    obtain ⟨⟨M, hM⟩, s, hs, hs'⟩ := hf
    refine ⟨⟨M, fun t ht => hM _ (hmem t ht)⟩, Real.exp ⁻¹' s, hs.preimage Real.exp_injective, fun t ht hn => ?_⟩
    exact (hs' _ (hmem t ht) hn).comp Real.continuous_exp.continuousWithinAt fun u hu => hmem u hu
  have key := simpsonX_exp_tame (mul_lt_mul_of_pos_right hlh L10) hv (arange_fills hlh L10)
  rw [← log_ten_pow lo, ← log_ten_pow hi, log_subst f h0 (pow_lt hlh).le] at key
  refine key.congr fun d => ?_
  simp only [mesh_exp, log_ten_pow]

/-- Simpson's rule over the logarithms of the masses. -/
theorem simpson_logmesh {lo hi : ℝ} (hlh : lo < hi) {f : ℝ → ℝ} (hf : Tame f ((10:ℝ) ^ lo) ((10:ℝ) ^ hi)) :
    Tendsto (fun d : ℝ => simpsonX (arangeN lo hi d) (fun i : ℕ => Real.log ((10:ℝ) ^ (lo + i * d)))
      fun i : ℕ => f ((10:ℝ) ^ (lo + i * d)) * (10:ℝ) ^ (lo + i * d)) (𝓝[>] 0) (𝓝 (∫ m in (10:ℝ) ^ lo..(10:ℝ) ^ hi, f m)) := by
  have h0 : (0:ℝ) < (10:ℝ) ^ lo := by positivity
  have hcont := hf.log h0 (pow_lt hlh).le
  rw [log_ten_pow, log_ten_pow] at hcont
  have key := rule_tame simpson_rule (mul_lt_mul_of_pos_right hlh L10) hcont (arange_fills hlh L10)
  rw [← log_ten_pow lo, ← log_ten_pow hi, log_subst f h0 (pow_lt hlh).le] at key
  refine key.congr' ?_
  filter_upwards [pos_eventually] with d hd
  rw [simpsonX_uniform (dx := d * Real.log 10) (mul_pos hd L10).ne' (fun i _ => by rw [log_ten_pow, log_ten_pow]; push_cast; ring) (arangeN_last hlh hd).1]
  simp only [mesh_exp, log_ten_pow]

/-- C56: at every wavenumber of the grid, as `dlog10m` tends to 0 the one- and two-halo power of tracers with matter converge to the documented
integrals over halo mass, for occupations with steps too. -/
theorem C56_mesh_tracer_matter_power (E : Env) (hs : SplLin E.isp) (hc : SplQuad E.isp) (h : HM) (ho : h.Ok) {lo hi : ℝ} (hlh : lo < hi)
    (hcut : h.hod.sharpCut = true → h.hod.mmin < hi) (D B : ℝ → ℝ) (U T Λ : ℕ → ℝ → ℝ)
    (hD : Tame D ((10:ℝ) ^ lo) ((10:ℝ) ^ hi)) (hB : Tame B ((10:ℝ) ^ lo) ((10:ℝ) ^ hi))
    (hU : ∀ j, Tame (U j) ((10:ℝ) ^ lo) ((10:ℝ) ^ hi)) (hT : ∀ j, Tame (T j) ((10:ℝ) ^ lo) ((10:ℝ) ^ hi))
    (hC : Tame (centralNumber h.hod) ((10:ℝ) ^ lo) ((10:ℝ) ^ hi)) (hS : Tame h.hod.satOcc ((10:ℝ) ^ lo) ((10:ℝ) ^ hi))
    (nbar : ℝ) (hn : nbar = ∫ m in tracerLow h.hod ((10:ℝ) ^ lo)..(10:ℝ) ^ hi, D m * (centralNumber h.hod m + h.hod.satOcc m)) (hne : nbar ≠ 0)
    (hρ : h.meanDensity0 ≠ 0) :
    ∃ P Q : ℝ → ℝ → ℝ, (∀ d > 0, (mesh h lo hi D B U T Λ d).power1hCross E = some (P d)) ∧
      (∀ d > 0, (mesh h lo hi D B U T Λ d).power2hCross E = some (Q d)) ∧ ∀ j < h.nk,
      Tendsto (fun d => P d (h.k j)) (𝓝[>] 0) (𝓝 ((∫ m in tracerLow h.hod ((10:ℝ) ^ lo)..(10:ℝ) ^ hi,
        D m * m * U j m * (centralNumber h.hod m + h.hod.satOcc m * T j m)) / (nbar * h.meanDensity0))) ∧
      Tendsto (fun d => Q d (h.k j)) (𝓝[>] 0) (𝓝 ((∫ m in tracerLow h.hod ((10:ℝ) ^ lo)..(10:ℝ) ^ hi,
        D m * B m * (centralNumber h.hod m + h.hod.satOcc m * T j m)) / nbar *
        ((∫ m in (10:ℝ) ^ lo..(10:ℝ) ^ hi, D m * B m * m * U j m) / h.meanDensity0) * h.phc (h.k j))) := by
  choose! P Q R hP using fun (d : ℝ) (hd : 0 < d) => C46_formula (E := E) hs (mesh_ok h ho hlh D B U T Λ hd)
  have hden : Tendsto (fun d => (mesh h lo hi D B U T Λ d).meanTracerDen E) (𝓝[>] 0) (𝓝 nbar) := by
    rw [hn]
    exact mesh_S E hs hc h hlh hcut D B U T Λ (fun m => D m * (centralNumber h.hod m + h.hod.satOcc m)) (hD.mul (hC.add hS))
  refine ⟨P, Q, fun d hd => (hP d hd).1, fun d hd => (hP d hd).2.1, fun j hj => ⟨?_, ?_⟩⟩
  · have key := (mesh_S E hs hc h hlh hcut D B U T Λ (fun m => D m * m * U j m * (centralNumber h.hod m + h.hod.satOcc m * T j m))
      (((hD.mul (tame_id _ _)).mul (hU j)).mul (hC.add (hS.mul (hT j))))).div (hden.mul_const h.meanDensity0) (mul_ne_zero hne hρ)
    refine key.congr' ?_
    filter_upwards [pos_eventually] with d hd
    have e := ((hP d hd).2.2.2.2 j hj).1
    have e0 : (mesh h lo hi D B U T Λ d).k j = h.k j := rfl
    rw [← e0, e]
    rfl
  · have k1 := (mesh_S E hs hc h hlh hcut D B U T Λ (fun m => D m * B m * (centralNumber h.hod m + h.hod.satOcc m * T j m))
      ((hD.mul hB).mul (hC.add (hS.mul (hT j))))).div hden hne
    have k2 := (si_mesh hs hc hlh none (by simp) (((hD.mul hB).mul (tame_id _ _)).mul (hU j))).div_const h.meanDensity0
    rw [Option.getD_none, max_self] at k2
    refine ((k1.mul k2).mul_const (h.phc (h.k j))).congr' ?_
    filter_upwards [pos_eventually] with d hd
    have e := ((hP d hd).2.2.2.2 j hj).2
    have e0 : (mesh h lo hi D B U T Λ d).k j = h.k j := rfl
    rw [← e0, e]
    rfl

theorem mesh_beff (E : Env) (hs : SplLin E.isp) (hc : SplQuad E.isp) (h : HM) {lo hi : ℝ} (hlh : lo < hi)
    (hcut : h.hod.sharpCut = true → h.hod.mmin < hi) (D B : ℝ → ℝ) (U T Λ : ℕ → ℝ → ℝ) (j : ℕ)
    (hf : Tame (fun m => D m * B m * tracerNumber h.hod m * T j m) ((10:ℝ) ^ lo) ((10:ℝ) ^ hi)) :
    Tendsto (fun d => Cross.beff E (mesh h lo hi D B U T Λ d) j) (𝓝[>] 0)
      (𝓝 (∫ m in tracerLow h.hod ((10:ℝ) ^ lo)..(10:ℝ) ^ hi, D m * B m * tracerNumber h.hod m * T j m)) := by
  have simp_case := simpson_logmesh hlh hf
  have spl_case := mesh_S E hs hc h hlh hcut D B U T Λ _ hf
  have hmmin : ∀ d, (mesh h lo hi D B U T Λ d).tracerMmin = if h.hod.sharpCut && (h.hod.central || h.hod.inherent) then some (10 ^ h.hod.mmin) else none := fun d => rfl
  by_cases hb : (h.hod.sharpCut && (h.hod.central || h.hod.inherent)) = true
  · have hlow : tracerLow h.hod ((10:ℝ) ^ lo) = max ((10:ℝ) ^ lo) (10 ^ h.hod.mmin) := by unfold tracerLow; rw [if_pos hb]
    have hm : ∀ d, (mesh h lo hi D B U T Λ d).tracerMmin = some (10 ^ h.hod.mmin) := fun d => by rw [hmmin, if_pos hb]
    by_cases hlt : (10:ℝ) ^ lo < (10:ℝ) ^ h.hod.mmin
    · refine spl_case.congr fun d => ?_
      unfold Cross.beff HM.S splineIntegral
      rw [hm]
      dsimp only
      rw [mesh_m0, if_pos hlt, if_pos rfl]
      exact (congrArg (fun y => splIntegral E.isp _ _ y _ _) (funext fun i => mul_comm _ _)).trans rfl
    · rw [hlow, max_eq_left (not_lt.1 hlt)]
      refine simp_case.congr fun d => ?_
      unfold Cross.beff
      rw [hm]
      dsimp only
      rw [mesh_m0, if_neg hlt]
      rfl
  · have hlow : tracerLow h.hod ((10:ℝ) ^ lo) = (10:ℝ) ^ lo := by unfold tracerLow; rw [if_neg hb]
    have hm : ∀ d, (mesh h lo hi D B U T Λ d).tracerMmin = none := fun d => by rw [hmmin, if_neg hb]
    rw [hlow]
    refine simp_case.congr fun d => ?_
    unfold Cross.beff
    rw [hm]
    rfl

/-- C56: at every wavenumber of the grid, where no pair count is NaN, as `dlog10m` tends to 0 the cross power spectra of two tracers converge to the
documented integrals (as in `C56_cross_power`), for occupations with steps too. -/
theorem C56_mesh_cross_power (E : Env) (hs : SplLin E.isp) (hc : SplQuad E.isp) (h g : HM) (ho : h.Ok) {lo hi : ℝ} (hlh : lo < hi)
    (hcut : h.hod.sharpCut = true → h.hod.mmin < hi) (gcut : g.hod.sharpCut = true → g.hod.mmin < hi)
    (hnk : h.nk = g.nk) (D D' B B' : ℝ → ℝ) (U U' T T' Λ Λ' : ℕ → ℝ → ℝ) (c : Cross.CrossDef)
    (keep : ℝ → ℕ → Bool) (hk : ∀ d i, keep d i = true)
    (hD : Tame D ((10:ℝ) ^ lo) ((10:ℝ) ^ hi)) (hB : Tame B ((10:ℝ) ^ lo) ((10:ℝ) ^ hi)) (hT : ∀ j, Tame (T j) ((10:ℝ) ^ lo) ((10:ℝ) ^ hi))
    (hN : Tame (tracerNumber h.hod) ((10:ℝ) ^ lo) ((10:ℝ) ^ hi))
    (gD : Tame D' ((10:ℝ) ^ lo) ((10:ℝ) ^ hi)) (gB : Tame B' ((10:ℝ) ^ lo) ((10:ℝ) ^ hi)) (gT : ∀ j, Tame (T' j) ((10:ℝ) ^ lo) ((10:ℝ) ^ hi))
    (gN : Tame (tracerNumber g.hod) ((10:ℝ) ^ lo) ((10:ℝ) ^ hi))
    (hss : Tame (Cross.ssCross c h.hod g.hod) ((10:ℝ) ^ lo) ((10:ℝ) ^ hi)) (hcs : Tame (Cross.csCross c h.hod g.hod) ((10:ℝ) ^ lo) ((10:ℝ) ^ hi))
    (hsc : Tame (Cross.scCross c h.hod g.hod) ((10:ℝ) ^ lo) ((10:ℝ) ^ hi)) (n₁ n₂ : ℝ)
    (hn₁ : n₁ = ∫ m in tracerLow h.hod ((10:ℝ) ^ lo)..(10:ℝ) ^ hi, D m * tracerNumber h.hod m)
    (hn₂ : n₂ = ∫ m in tracerLow g.hod ((10:ℝ) ^ lo)..(10:ℝ) ^ hi, D' m * tracerNumber g.hod m) (hne : n₁ ≠ 0) (gne : n₂ ≠ 0) :
    ∃ P Q R : ℝ → ℝ → ℝ,
      (∀ d > 0, Cross.power1h E c (keep d) (mesh h lo hi D B U T Λ d) (mesh g lo hi D' B' U' T' Λ' d) = some (P d)) ∧
      (∀ d > 0, Cross.power2h E (mesh h lo hi D B U T Λ d) (mesh g lo hi D' B' U' T' Λ' d) = some (Q d)) ∧
      (∀ d > 0, Cross.power E c (keep d) (mesh h lo hi D B U T Λ d) (mesh g lo hi D' B' U' T' Λ' d) = some (R d)) ∧
      ∀ j < h.nk, ∃ a b : ℝ, a = (∫ m in (10:ℝ) ^ lo..(10:ℝ) ^ hi, D m * (T j m * T' j m * Cross.ssCross c h.hod g.hod m
          + T j m * Cross.scCross c h.hod g.hod m + T' j m * Cross.csCross c h.hod g.hod m)) / (n₁ * n₂) ∧
        b = (∫ m in tracerLow h.hod ((10:ℝ) ^ lo)..(10:ℝ) ^ hi, D m * B m * tracerNumber h.hod m * T j m) / n₁ *
          ((∫ m in tracerLow g.hod ((10:ℝ) ^ lo)..(10:ℝ) ^ hi, D' m * B' m * tracerNumber g.hod m * T' j m) / n₂) * h.phc (h.k j) ∧
        Tendsto (fun d => P d (h.k j)) (𝓝[>] 0) (𝓝 a) ∧ Tendsto (fun d => Q d (h.k j)) (𝓝[>] 0) (𝓝 b) ∧
        Tendsto (fun d => R d (h.k j)) (𝓝[>] 0) (𝓝 (a + b)) := by
  have hP : ∀ d, ∃ f, Cross.power1h E c (keep d) (mesh h lo hi D B U T Λ d) (mesh g lo hi D' B' U' T' Λ' d) = some f ∧
      ∀ j < h.nk, f (h.k j) = Cross.power1hTab E c (keep d) (mesh h lo hi D B U T Λ d) (mesh g lo hi D' B' U' T' Λ' d) j := by
    intro d
    obtain ⟨f, hf, hv, _⟩ := mkES_ok E hs.toSplOk { n := h.nk, x := h.k, y := Cross.power1hTab E c (keep d) (mesh h lo hi D B U T Λ d) (mesh g lo hi D' B' U' T' Λ' d), lower := .powerLaw, upper := .powerLaw } rfl rfl ho.k (by simp) (by simp)
    exact ⟨f, by unfold Cross.power1h; rw [if_pos ⟨rfl, hnk⟩]; exact hf, hv⟩
  have hQ : ∀ d, ∃ f, Cross.power2h E (mesh h lo hi D B U T Λ d) (mesh g lo hi D' B' U' T' Λ' d) = some f ∧
      ∀ j < h.nk, f (h.k j) = Cross.power2hTab E (mesh h lo hi D B U T Λ d) (mesh g lo hi D' B' U' T' Λ' d) j := by
    intro d
    obtain ⟨f, hf, hv, _⟩ := mkES_ok E hs.toSplOk { n := h.nk, x := h.k, y := Cross.power2hTab E (mesh h lo hi D B U T Λ d) (mesh g lo hi D' B' U' T' Λ' d), lower := .callable h.linPow, matchLower := true, upper := .powerLaw } rfl rfl ho.k (by simp) (by simp)
    exact ⟨f, by unfold Cross.power2h; exact (if_pos hnk).trans hf, hv⟩
  choose P hP1 hP2 using hP
  choose Q hQ1 hQ2 using hQ
  have m1 := mesh_mean E hs hc h hlh hcut D B U T Λ hD hN
  have m2 := mesh_mean E hs hc g hlh gcut D' B' U' T' Λ' gD gN
  rw [← hn₁] at m1
  rw [← hn₂] at m2
  refine ⟨P, Q, fun d k => P d k + Q d k, fun d _ => hP1 d, fun d _ => hQ1 d, fun d _ => ?_, fun j hj => ⟨_, _, rfl, rfl, ?_⟩⟩
  · unfold Cross.power
    rw [hP1, hQ1]
    rfl
  have k1 : Tendsto (fun d => P d (h.k j)) (𝓝[>] 0) (𝓝 ((∫ m in (10:ℝ) ^ lo..(10:ℝ) ^ hi, D m * (T j m * T' j m * Cross.ssCross c h.hod g.hod m
          + T j m * Cross.scCross c h.hod g.hod m + T' j m * Cross.csCross c h.hod g.hod m)) / (n₁ * n₂))) := by
    have hf := hD.mul (((((hT j).mul (gT j)).mul hss).add ((hT j).mul hsc)).add ((gT j).mul hcs))
    refine ((simpson_mesh hlh hf).div (m1.mul m2) (mul_ne_zero hne gne)).congr' ?_
    filter_upwards [pos_eventually] with d hd
    rw [hP2 d j hj, (Cross.C41_undefined_masses (E := E) c (keep d) (mesh h lo hi D B U T Λ d) (mesh g lo hi D' B' U' T' Λ' d) j
      ⟨0, (arangeN_last hlh hd).1, hk d 0⟩).1 fun i _ => hk d i]
    rfl
  have k2 : Tendsto (fun d => Q d (h.k j)) (𝓝[>] 0) (𝓝 ((∫ m in tracerLow h.hod ((10:ℝ) ^ lo)..(10:ℝ) ^ hi, D m * B m * tracerNumber h.hod m * T j m) / n₁ *
          ((∫ m in tracerLow g.hod ((10:ℝ) ^ lo)..(10:ℝ) ^ hi, D' m * B' m * tracerNumber g.hod m * T' j m) / n₂) * h.phc (h.k j))) := by
    have b1 := mesh_beff E hs hc h hlh hcut D B U T Λ j (((hD.mul hB).mul hN).mul (hT j))
    have b2 := mesh_beff E hs hc g hlh gcut D' B' U' T' Λ' j (((gD.mul gB).mul gN).mul (gT j))
    have key := ((b1.mul b2).mul_const (h.phc (h.k j))).div (m1.mul m2) (mul_ne_zero hne gne)
    have e : ∀ a b p : ℝ, a * b * p / (n₁ * n₂) = a / n₁ * (b / n₂) * p := fun a b p => by field_simp
    rw [e] at key
    exact key.congr fun d => (hQ2 d j hj).symm
  exact ⟨k1, k2, k1.add k2⟩

/-- C56: the WDM model: as `dlog10m` tends to 0 the bias of the smooth component, its own power and its power with haloes converge to the documented
integrals (as in `C56_wdm`). -/
theorem C56_mesh_wdm (E : Env) (hs : SplLin E.isp) (hc : SplQuad E.isp) (h : HM) (hu : h.forceUnity = false) (hr : h.rhoGtm ≠ 0) {lo hi : ℝ} (hlh : lo < hi)
    (D B u : ℝ → ℝ) (U T Λ : ℕ → ℝ → ℝ) (hD : Tame D ((10:ℝ) ^ lo) ((10:ℝ) ^ hi))
    (hB : Tame B ((10:ℝ) ^ lo) ((10:ℝ) ^ hi)) (hU : Tame u ((10:ℝ) ^ lo) ((10:ℝ) ^ hi)) (md k f bs SH : ℝ) (hf : f = h.rhoGtm / md)
    (hbs : bs = (1 - (∫ m in (10:ℝ) ^ lo..(10:ℝ) ^ hi, m * D m * B m) / md) / (1 - f))
    (hSH : SH = bs * h.phc k * (∫ m in (10:ℝ) ^ lo..(10:ℝ) ^ hi, m * D m * B m * u m) / h.rhoGtm) :
    Tendsto (fun d => Wdm.biasSmooth E (mesh h lo hi D B U T Λ d) md) (𝓝[>] 0) (𝓝 bs) ∧
    Tendsto (fun d => Wdm.powerSS E (mesh h lo hi D B U T Λ d) md k) (𝓝[>] 0) (𝓝 (bs ^ 2 * h.phc k)) ∧
    Tendsto (fun d => Wdm.powerSH E (mesh h lo hi D B U T Λ d) md (fun i => u ((mesh h lo hi D B U T Λ d).m i)) k) (𝓝[>] 0) (𝓝 SH) ∧
    ∀ (p1 p2 : ℝ → ℝ) (P1 P2 : ℝ), Tendsto p1 (𝓝[>] 0) (𝓝 P1) → Tendsto p2 (𝓝[>] 0) (𝓝 P2) →
      Tendsto (fun d => Wdm.powerTotal E (mesh h lo hi D B U T Λ d) md (fun i => u ((mesh h lo hi D B U T Λ d).m i)) (p1 d) (p2 d) k) (𝓝[>] 0)
        (𝓝 ((1 - f) ^ 2 * (bs ^ 2 * h.phc k) + 2 * (1 - f) * f * SH + f ^ 2 * ((P1 + P2) * md ^ 2 / h.rhoGtm ^ 2))) := by
  have hb : Tendsto (fun d => Wdm.biasSmooth E (mesh h lo hi D B U T Λ d) md) (𝓝[>] 0) (𝓝 bs) := by
    have key := (((C56_mesh_matter_bias E hs hc h hu hlh D B U T Λ hD hB).const_mul f).const_sub 1).div_const (1 - f)
    have e : f * ((∫ m in (10:ℝ) ^ lo..(10:ℝ) ^ hi, m * D m * B m) / h.rhoGtm) = (∫ m in (10:ℝ) ^ lo..(10:ℝ) ^ hi, m * D m * B m) / md := by
      rw [hf]
      rcases eq_or_ne md 0 with h | h
      · simp [h]
      · field_simp
    rw [e, ← hbs] at key
    refine key.congr fun d => ?_
    rw [hf]; rfl
  have hss : Tendsto (fun d => Wdm.powerSS E (mesh h lo hi D B U T Λ d) md k) (𝓝[>] 0) (𝓝 (bs ^ 2 * h.phc k)) :=
    (hb.pow 2).mul_const _
  have hsh : Tendsto (fun d => Wdm.powerSH E (mesh h lo hi D B U T Λ d) md (fun i => u ((mesh h lo hi D B U T Λ d).m i)) k) (𝓝[>] 0) (𝓝 SH) := by
    rw [hSH]
    exact ((hb.mul_const _).mul (simpson_mesh hlh ((((tame_id _ _).mul hD).mul hB).mul hU))).div_const _
  refine ⟨hb, hss, hsh, fun p1 p2 P1 P2 hp1 hp2 => ?_⟩
  have hhh := (((hp1.add hp2).mul_const (md ^ 2)).div_const (h.rhoGtm ^ 2)).const_mul (f ^ 2)
  have := ((hss.const_mul ((1 - f) ^ 2)).add (hsh.const_mul (2 * (1 - f) * f))).add hhh
  refine this.congr fun d => ?_
  rw [hf]; rfl

end Halomod.HaloModel
