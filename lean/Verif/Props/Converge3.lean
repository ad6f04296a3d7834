import Verif.Props.Converge2
import Verif.Props.Angular
import Verif.Props.Tighten
import Verif.Model.Wdm

/-! # C56 for cross-correlations and warm dark matter: Simpson's rule over mass on finer and finer grids -/
namespace Halomod.HaloModel

open Filter Topology MeasureTheory Halomod.Tools Halomod.HOD

/-- mass as a function of its logarithm. -/
theorem change_exp (a b : ℝ) : Change a b Real.exp Real.exp where
  der t _ := Real.hasDerivAt_exp t
  cont := Real.continuous_exp.continuousOn
  pos t _ := Real.exp_pos t

theorem comp_exp {M0 M1 : ℝ} (h0 : 0 < M0) (h1 : M0 < M1) {f : ℝ → ℝ} (hf : ContinuousOn f (Set.Icc M0 M1)) :
    ContinuousOn (fun t => f (Real.exp t)) (Set.Icc (Real.log M0) (Real.log M1)) :=
  hf.comp Real.continuous_exp.continuousOn fun _ ht =>
    ⟨(Real.log_le_iff_le_exp h0).mp ht.1, (Real.le_log_iff_exp_le (h0.trans h1)).mp ht.2⟩

/-- Simpson's rule over mass. -/
theorem simpson_mass {M0 M1 : ℝ} (h0 : 0 < M0) (h1 : M0 < M1) {f : ℝ → ℝ} (hf : ContinuousOn f (Set.Icc M0 M1)) :
    Tendsto (fun n : ℕ => simpsonX (n + 2) (fun i => Real.exp (Real.log M0 + i * stp (Real.log M0) (Real.log M1) n))
      (fun i => f (Real.exp (Real.log M0 + i * stp (Real.log M0) (Real.log M1) n)))) atTop (𝓝 (∫ m in M0..M1, f m)) := by
  have key := (change_exp (Real.log M0) (Real.log M1)).tendsto (Real.log_lt_log h0 h1) (comp_exp h0 h1 hf)
  rwa [log_subst f h0 h1.le] at key

/-- Simpson's rule over the logarithm of mass. -/
theorem simpson_logmass {M0 M1 : ℝ} (h0 : 0 < M0) (h1 : M0 < M1) {f : ℝ → ℝ} (hf : ContinuousOn f (Set.Icc M0 M1)) :
    Tendsto (fun n : ℕ => simpsonX (n + 2) (fun i => Real.log M0 + i * stp (Real.log M0) (Real.log M1) n)
      (fun i => f (Real.exp (Real.log M0 + i * stp (Real.log M0) (Real.log M1) n)) * Real.exp (Real.log M0 + i * stp (Real.log M0) (Real.log M1) n))) atTop
      (𝓝 (∫ m in M0..M1, f m)) := by
  have key := (IntegrateCorr.change_id (Real.log M0) (Real.log M1)).tendsto (Real.log_lt_log h0 h1)
    ((comp_exp h0 h1 hf).mul Real.continuous_exp.continuousOn)
  have e : ∫ t in Real.log M0..Real.log M1, (fun t => f (Real.exp t) * Real.exp t) t * 1 = ∫ m in M0..M1, f m := by
    rw [← log_subst f h0 h1.le]; simp
  rw [← e]
  exact key

/-- C56: the smooth component of the WDM model: its bias, its own power and its power with haloes converge to the documented
integrals over halo mass; so does the total power, given the limits `P1`, `P2` of the one- and two-halo terms. -/
theorem C56_wdm (E : Env) (hs : SplLin E.isp) (hc : SplConv E.isp) (h : HM) (hu : h.forceUnity = false) (hr : h.rhoGtm ≠ 0) (M0 M1 : ℝ)
    (h0 : 0 < M0) (h1 : M0 < M1) (D B u : ℝ → ℝ) (U T Λ : ℕ → ℝ → ℝ) (hD : ContinuousOn D (Set.Icc M0 M1))
    (hB : ContinuousOn B (Set.Icc M0 M1)) (hU : ContinuousOn u (Set.Icc M0 M1)) (md k f bs SH : ℝ) (hf : f = h.rhoGtm / md)
    (hbs : bs = (1 - (∫ m in M0..M1, m * D m * B m) / md) / (1 - f))
    (hSH : SH = bs * h.phc k * (∫ m in M0..M1, m * D m * B m * u m) / h.rhoGtm) :
    Tendsto (fun n => Wdm.biasSmooth E (fine h M0 M1 D B U T Λ n) md) atTop (𝓝 bs) ∧
    Tendsto (fun n => Wdm.powerSS E (fine h M0 M1 D B U T Λ n) md k) atTop (𝓝 (bs ^ 2 * h.phc k)) ∧
    Tendsto (fun n => Wdm.powerSH E (fine h M0 M1 D B U T Λ n) md (fun i => u ((fine h M0 M1 D B U T Λ n).m i)) k) atTop (𝓝 SH) ∧
    ∀ (p1 p2 : ℕ → ℝ) (P1 P2 : ℝ), Tendsto p1 atTop (𝓝 P1) → Tendsto p2 atTop (𝓝 P2) →
      Tendsto (fun n => Wdm.powerTotal E (fine h M0 M1 D B U T Λ n) md (fun i => u ((fine h M0 M1 D B U T Λ n).m i)) (p1 n) (p2 n) k) atTop
        (𝓝 ((1 - f) ^ 2 * (bs ^ 2 * h.phc k) + 2 * (1 - f) * f * SH + f ^ 2 * ((P1 + P2) * md ^ 2 / h.rhoGtm ^ 2))) := by
  have hb : Tendsto (fun n => Wdm.biasSmooth E (fine h M0 M1 D B U T Λ n) md) atTop (𝓝 bs) := by
    have key := (((C56_matter_bias E hs hc h hu M0 M1 h0 h1 D B U T Λ hD hB).const_mul f).const_sub 1).div_const (1 - f)
    have e : f * ((∫ m in M0..M1, m * D m * B m) / h.rhoGtm) = (∫ m in M0..M1, m * D m * B m) / md := by
      rw [hf]
      rcases eq_or_ne md 0 with h | h
      · simp [h]
      · field_simp
    rw [e, ← hbs] at key
    refine key.congr fun n => ?_
    rw [hf]; rfl
  have hss : Tendsto (fun n => Wdm.powerSS E (fine h M0 M1 D B U T Λ n) md k) atTop (𝓝 (bs ^ 2 * h.phc k)) :=
    (hb.pow 2).mul_const _
  have hsh : Tendsto (fun n => Wdm.powerSH E (fine h M0 M1 D B U T Λ n) md (fun i => u ((fine h M0 M1 D B U T Λ n).m i)) k) atTop (𝓝 SH) := by
    rw [hSH]
    exact ((hb.mul_const _).mul (simpson_mass h0 h1 (((continuousOn_id.mul hD).mul hB).mul hU))).div_const _
  refine ⟨hb, hss, hsh, fun p1 p2 P1 P2 hp1 hp2 => ?_⟩
  have hhh := (((hp1.add hp2).mul_const (md ^ 2)).div_const (h.rhoGtm ^ 2)).const_mul (f ^ 2)
  have := ((hss.const_mul ((1 - f) ^ 2)).add (hsh.const_mul (2 * (1 - f) * f))).add hhh
  refine this.congr fun n => ?_
  rw [hf]; rfl

/-- the product of occupation and mass function weighted by bias and profile, integrated as the cross power does. -/
theorem beff_tendsto (E : Env) (hs : SplLin E.isp) (hc : SplConv E.isp) (h : HM) (M0 M1 : ℝ) (h0 : 0 < M0) (h1 : M0 < M1)
    (hcut : h.hod.sharpCut = true → (10:ℝ) ^ h.hod.mmin ≤ M1) (D B : ℝ → ℝ) (U T Λ : ℕ → ℝ → ℝ) (j : ℕ)
    (hD : ContinuousOn D (Set.Icc M0 M1)) (hB : ContinuousOn B (Set.Icc M0 M1)) (hT : ContinuousOn (T j) (Set.Icc M0 M1))
    (hN : ContinuousOn (tracerNumber h.hod) (Set.Icc M0 M1)) :
    Tendsto (fun n => Cross.beff E (fine h M0 M1 D B U T Λ n) j) atTop
      (𝓝 (∫ m in tracerLow h.hod M0..M1, D m * B m * tracerNumber h.hod m * T j m)) := by
  have hf : ContinuousOn (fun m => D m * B m * tracerNumber h.hod m * T j m) (Set.Icc M0 M1) := ((hD.mul hB).mul hN).mul hT
  have hmmin : ∀ n, (fine h M0 M1 D B U T Λ n).tracerMmin = if h.hod.sharpCut && (h.hod.central || h.hod.inherent) then some (10 ^ h.hod.mmin) else none := fun n => rfl
  have hlnm : ∀ n, (fun i => Real.log ((fine h M0 M1 D B U T Λ n).m i)) = fun i : ℕ => Real.log M0 + i * stp (Real.log M0) (Real.log M1) n := by
    intro n; funext i; simp [fine]
  have simp_case := simpson_logmass h0 h1 hf
  have hsim : ∀ n, simpsonX (n + 2) (fun i => Real.log M0 + i * stp (Real.log M0) (Real.log M1) n)
      (fun i => (fun m => D m * B m * tracerNumber h.hod m * T j m) (Real.exp (Real.log M0 + i * stp (Real.log M0) (Real.log M1) n)) * Real.exp (Real.log M0 + i * stp (Real.log M0) (Real.log M1) n)) =
      simpsonX (fine h M0 M1 D B U T Λ n).nm (fun i => Real.log ((fine h M0 M1 D B U T Λ n).m i))
        (fun i => (fine h M0 M1 D B U T Λ n).dndm i * (fine h M0 M1 D B U T Λ n).bias i * (fine h M0 M1 D B U T Λ n).totOccInt i * (fine h M0 M1 D B U T Λ n).ut j i * (fine h M0 M1 D B U T Λ n).m i) := by
    intro n; rw [hlnm]; rfl
  by_cases hb : (h.hod.sharpCut && (h.hod.central || h.hod.inherent)) = true
  · have hx1 : (10:ℝ) ^ h.hod.mmin ≤ M1 := hcut (by rw [Bool.and_eq_true] at hb; exact hb.1)
    have hlow : tracerLow h.hod M0 = max M0 (10 ^ h.hod.mmin) := by unfold tracerLow; rw [if_pos hb]
    have hm : ∀ n, (fine h M0 M1 D B U T Λ n).tracerMmin = some (10 ^ h.hod.mmin) := fun n => by rw [hmmin, if_pos hb]
    rw [hlow]
    by_cases hlt : M0 < (10:ℝ) ^ h.hod.mmin
    · rw [max_eq_right hlt.le]
      have hxp : (0:ℝ) < 10 ^ h.hod.mmin := h0.trans hlt
      have key := spl_tendsto hs hc (Real.log_lt_log h0 h1) (c := Real.log (10 ^ h.hod.mmin))
        ⟨Real.log_le_log h0 hlt.le, Real.log_le_log hxp hx1⟩ ((comp_exp h0 h1 hf).mul Real.continuous_exp.continuousOn)
      rw [show (∫ t in Real.log ((10:ℝ) ^ h.hod.mmin)..Real.log M1, ((fun t => (fun m => D m * B m * tracerNumber h.hod m * T j m) (Real.exp t)) * Real.exp) t) =
        ∫ m in (10:ℝ) ^ h.hod.mmin..M1, D m * B m * tracerNumber h.hod m * T j m from
        log_subst (fun m => D m * B m * tracerNumber h.hod m * T j m) hxp hx1] at key
      refine key.congr fun n => ?_
      unfold Cross.beff
      rw [hm]
      dsimp only
      rw [fine_m0 h M0 M1 h0, if_pos hlt, hlnm]
      have hlast : Real.log ((fine h M0 M1 D B U T Λ n).m ((fine h M0 M1 D B U T Λ n).nm - 1)) = Real.log M1 := by
        have := congrFun (hlnm n) (n + 1)
        exact this.trans (glast n)
      rw [hlast]
      rfl
    · rw [max_eq_left (not_lt.1 hlt)]
      refine simp_case.congr fun n => ?_
      unfold Cross.beff
      rw [hm]
      dsimp only
      rw [fine_m0 h M0 M1 h0, if_neg hlt]
      exact hsim n
  · have hlow : tracerLow h.hod M0 = M0 := by unfold tracerLow; rw [if_neg hb]
    have hm : ∀ n, (fine h M0 M1 D B U T Λ n).tracerMmin = none := fun n => by rw [hmmin, if_neg hb]
    rw [hlow]
    refine simp_case.congr fun n => ?_
    unfold Cross.beff
    rw [hm]
    exact hsim n

theorem cross_two_halo (E : Env) (hs : SplLin E.isp) (hc : SplConv E.isp) (h g : HM) (M0 M1 : ℝ) (h0 : 0 < M0) (h1 : M0 < M1)
    (hcut : h.hod.sharpCut = true → (10:ℝ) ^ h.hod.mmin ≤ M1) (gcut : g.hod.sharpCut = true → (10:ℝ) ^ g.hod.mmin ≤ M1)
    (D D' B B' : ℝ → ℝ) (U U' T T' Λ Λ' : ℕ → ℝ → ℝ) (j : ℕ)
    (hD : ContinuousOn D (Set.Icc M0 M1)) (hB : ContinuousOn B (Set.Icc M0 M1)) (hT : ContinuousOn (T j) (Set.Icc M0 M1))
    (hN : ContinuousOn (tracerNumber h.hod) (Set.Icc M0 M1))
    (gD : ContinuousOn D' (Set.Icc M0 M1)) (gB : ContinuousOn B' (Set.Icc M0 M1)) (gT : ContinuousOn (T' j) (Set.Icc M0 M1))
    (gN : ContinuousOn (tracerNumber g.hod) (Set.Icc M0 M1)) (n₁ n₂ : ℝ)
    (hn₁ : n₁ = ∫ m in tracerLow h.hod M0..M1, D m * tracerNumber h.hod m) (hn₂ : n₂ = ∫ m in tracerLow g.hod M0..M1, D' m * tracerNumber g.hod m)
    (hne : n₁ ≠ 0) (gne : n₂ ≠ 0) :
    Tendsto (fun n => Cross.power2hTab E (fine h M0 M1 D B U T Λ n) (fine g M0 M1 D' B' U' T' Λ' n) j) atTop
      (𝓝 ((∫ m in tracerLow h.hod M0..M1, D m * B m * tracerNumber h.hod m * T j m) / n₁ *
        ((∫ m in tracerLow g.hod M0..M1, D' m * B' m * tracerNumber g.hod m * T' j m) / n₂) * h.phc (h.k j))) := by
  have k1 := beff_tendsto E hs hc h M0 M1 h0 h1 hcut D B U T Λ j hD hB hT hN
  have k2 := beff_tendsto E hs hc g M0 M1 h0 h1 gcut D' B' U' T' Λ' j gD gB gT gN
  have m1 := C56_tracer_mean E hs hc h M0 M1 h0 h1 hcut D B U T Λ hD hN
  have m2 := C56_tracer_mean E hs hc g M0 M1 h0 h1 gcut D' B' U' T' Λ' gD gN
  rw [← hn₁] at m1
  rw [← hn₂] at m2
  have key := ((k1.mul k2).mul_const (h.phc (h.k j))).div (m1.mul m2) (mul_ne_zero hne gne)
  have e : ∀ a b p : ℝ, a * b * p / (n₁ * n₂) = a / n₁ * (b / n₂) * p := fun a b p => by field_simp
  rw [e] at key
  exact key

theorem cross_one_halo (E : Env) (hs : SplLin E.isp) (hc : SplConv E.isp) (h g : HM) (M0 M1 : ℝ) (h0 : 0 < M0) (h1 : M0 < M1)
    (hcut : h.hod.sharpCut = true → (10:ℝ) ^ h.hod.mmin ≤ M1) (gcut : g.hod.sharpCut = true → (10:ℝ) ^ g.hod.mmin ≤ M1)
    (D D' B B' : ℝ → ℝ) (U U' T T' Λ Λ' : ℕ → ℝ → ℝ) (j : ℕ) (c : Cross.CrossDef)
    (keep : ℕ → ℕ → Bool) (hk : ∀ n i, keep n i = true)
    (hD : ContinuousOn D (Set.Icc M0 M1)) (hT : ContinuousOn (T j) (Set.Icc M0 M1))
    (hN : ContinuousOn (tracerNumber h.hod) (Set.Icc M0 M1))
    (gD : ContinuousOn D' (Set.Icc M0 M1)) (gT : ContinuousOn (T' j) (Set.Icc M0 M1))
    (gN : ContinuousOn (tracerNumber g.hod) (Set.Icc M0 M1))
    (hss : ContinuousOn (Cross.ssCross c h.hod g.hod) (Set.Icc M0 M1)) (hcs : ContinuousOn (Cross.csCross c h.hod g.hod) (Set.Icc M0 M1))
    (hsc : ContinuousOn (Cross.scCross c h.hod g.hod) (Set.Icc M0 M1)) (n₁ n₂ : ℝ)
    (hn₁ : n₁ = ∫ m in tracerLow h.hod M0..M1, D m * tracerNumber h.hod m) (hn₂ : n₂ = ∫ m in tracerLow g.hod M0..M1, D' m * tracerNumber g.hod m)
    (hne : n₁ ≠ 0) (gne : n₂ ≠ 0) :
    Tendsto (fun n => Cross.power1hTab E c (keep n) (fine h M0 M1 D B U T Λ n) (fine g M0 M1 D' B' U' T' Λ' n) j) atTop
      (𝓝 ((∫ m in M0..M1, D m * (T j m * T' j m * Cross.ssCross c h.hod g.hod m + T j m * Cross.scCross c h.hod g.hod m
        + T' j m * Cross.csCross c h.hod g.hod m)) / (n₁ * n₂))) := by
  have m1 := C56_tracer_mean E hs hc h M0 M1 h0 h1 hcut D B U T Λ hD hN
  have m2 := C56_tracer_mean E hs hc g M0 M1 h0 h1 gcut D' B' U' T' Λ' gD gN
  rw [← hn₁] at m1
  rw [← hn₂] at m2
  have hf : ContinuousOn (fun m => D m * (T j m * T' j m * Cross.ssCross c h.hod g.hod m + T j m * Cross.scCross c h.hod g.hod m
        + T' j m * Cross.csCross c h.hod g.hod m)) (Set.Icc M0 M1) := hD.mul ((((hT.mul gT).mul hss).add (hT.mul hsc)).add (gT.mul hcs))
  refine ((simpson_mass h0 h1 hf).div (m1.mul m2) (mul_ne_zero hne gne)).congr fun n => ?_
  rw [(Cross.C41_undefined_masses (E := E) c (keep n) (fine h M0 M1 D B U T Λ n) (fine g M0 M1 D' B' U' T' Λ' n) j
    ⟨0, Nat.succ_pos _, hk n 0⟩).1 fun i _ => hk n i]
  rfl

/-- C56: at every wavenumber of the grid, where no pair count is NaN, the cross power spectra of two tracers converge, the
one-halo term to the documented integral over halo mass of the pairs weighted by their profiles, divided by both mean
densities; the two-halo term to the product of the two documented effective biases (each an integral over halo mass of that
model's own mass function, bias, occupation and profile, from that model's lowest mass) times the power of halo centres of
the first model; and the total to their sum. -/
theorem C56_cross_power (E : Env) (hs : SplLin E.isp) (hc : SplConv E.isp) (h g : HM) (ho : h.Ok) (M0 M1 : ℝ) (h0 : 0 < M0) (h1 : M0 < M1)
    (hcut : h.hod.sharpCut = true → (10:ℝ) ^ h.hod.mmin ≤ M1) (gcut : g.hod.sharpCut = true → (10:ℝ) ^ g.hod.mmin ≤ M1)
    (hnk : h.nk = g.nk) (D D' B B' : ℝ → ℝ) (U U' T T' Λ Λ' : ℕ → ℝ → ℝ) (c : Cross.CrossDef)
    (keep : ℕ → ℕ → Bool) (hk : ∀ n i, keep n i = true)
    (hD : ContinuousOn D (Set.Icc M0 M1)) (hB : ContinuousOn B (Set.Icc M0 M1)) (hT : ∀ j, ContinuousOn (T j) (Set.Icc M0 M1))
    (hN : ContinuousOn (tracerNumber h.hod) (Set.Icc M0 M1))
    (gD : ContinuousOn D' (Set.Icc M0 M1)) (gB : ContinuousOn B' (Set.Icc M0 M1)) (gT : ∀ j, ContinuousOn (T' j) (Set.Icc M0 M1))
    (gN : ContinuousOn (tracerNumber g.hod) (Set.Icc M0 M1))
    (hss : ContinuousOn (Cross.ssCross c h.hod g.hod) (Set.Icc M0 M1)) (hcs : ContinuousOn (Cross.csCross c h.hod g.hod) (Set.Icc M0 M1))
    (hsc : ContinuousOn (Cross.scCross c h.hod g.hod) (Set.Icc M0 M1)) (n₁ n₂ : ℝ)
    (hn₁ : n₁ = ∫ m in tracerLow h.hod M0..M1, D m * tracerNumber h.hod m) (hn₂ : n₂ = ∫ m in tracerLow g.hod M0..M1, D' m * tracerNumber g.hod m)
    (hne : n₁ ≠ 0) (gne : n₂ ≠ 0) :
    ∃ P Q R : ℕ → ℝ → ℝ,
      (∀ n, Cross.power1h E c (keep n) (fine h M0 M1 D B U T Λ n) (fine g M0 M1 D' B' U' T' Λ' n) = some (P n)) ∧
      (∀ n, Cross.power2h E (fine h M0 M1 D B U T Λ n) (fine g M0 M1 D' B' U' T' Λ' n) = some (Q n)) ∧
      (∀ n, Cross.power E c (keep n) (fine h M0 M1 D B U T Λ n) (fine g M0 M1 D' B' U' T' Λ' n) = some (R n)) ∧
      ∀ j < h.nk, ∃ a b : ℝ, a = (∫ m in M0..M1, D m * (T j m * T' j m * Cross.ssCross c h.hod g.hod m
          + T j m * Cross.scCross c h.hod g.hod m + T' j m * Cross.csCross c h.hod g.hod m)) / (n₁ * n₂) ∧
        b = (∫ m in tracerLow h.hod M0..M1, D m * B m * tracerNumber h.hod m * T j m) / n₁ *
          ((∫ m in tracerLow g.hod M0..M1, D' m * B' m * tracerNumber g.hod m * T' j m) / n₂) * h.phc (h.k j) ∧
        Tendsto (fun n => P n (h.k j)) atTop (𝓝 a) ∧ Tendsto (fun n => Q n (h.k j)) atTop (𝓝 b) ∧
        Tendsto (fun n => R n (h.k j)) atTop (𝓝 (a + b)) := by
  have hP : ∀ n, ∃ f, Cross.power1h E c (keep n) (fine h M0 M1 D B U T Λ n) (fine g M0 M1 D' B' U' T' Λ' n) = some f ∧
      ∀ j < h.nk, f (h.k j) = Cross.power1hTab E c (keep n) (fine h M0 M1 D B U T Λ n) (fine g M0 M1 D' B' U' T' Λ' n) j := by
    intro n
    obtain ⟨f, hf, hv, _⟩ := mkES_ok E hs.toSplOk { n := h.nk, x := h.k, y := Cross.power1hTab E c (keep n) (fine h M0 M1 D B U T Λ n) (fine g M0 M1 D' B' U' T' Λ' n), lower := .powerLaw, upper := .powerLaw } rfl rfl ho.k (by simp) (by simp)
    refine ⟨f, ?_, hv⟩
    unfold Cross.power1h
    rw [if_pos ⟨rfl, hnk⟩]
    exact hf
  have hQ : ∀ n, ∃ f, Cross.power2h E (fine h M0 M1 D B U T Λ n) (fine g M0 M1 D' B' U' T' Λ' n) = some f ∧
      ∀ j < h.nk, f (h.k j) = Cross.power2hTab E (fine h M0 M1 D B U T Λ n) (fine g M0 M1 D' B' U' T' Λ' n) j := by
    intro n
    obtain ⟨f, hf, hv, _⟩ := mkES_ok E hs.toSplOk { n := h.nk, x := h.k, y := Cross.power2hTab E (fine h M0 M1 D B U T Λ n) (fine g M0 M1 D' B' U' T' Λ' n), lower := .callable h.linPow, matchLower := true, upper := .powerLaw } rfl rfl ho.k (by simp) (by simp)
    refine ⟨f, ?_, hv⟩
    unfold Cross.power2h
    exact (if_pos hnk).trans hf
  choose P hP1 hP2 using hP
  choose Q hQ1 hQ2 using hQ
  refine ⟨P, Q, fun n k => P n k + Q n k, hP1, hQ1, fun n => ?_, fun j hj => ⟨_, _, rfl, rfl, ?_⟩⟩
  · unfold Cross.power
    rw [hP1, hQ1]
    rfl
  have k1 := (cross_one_halo E hs hc h g M0 M1 h0 h1 hcut gcut D D' B B' U U' T T' Λ Λ' j c keep hk hD (hT j) hN gD (gT j) gN
    hss hcs hsc n₁ n₂ hn₁ hn₂ hne gne).congr fun n => (hP2 n j hj).symm
  have k2 := (cross_two_halo E hs hc h g M0 M1 h0 h1 hcut gcut D D' B B' U U' T T' Λ Λ' j hD hB (hT j) hN gD gB (gT j) gN
    n₁ n₂ hn₁ hn₂ hne gne).congr fun n => (hQ2 n j hj).symm
  exact ⟨k1, k2, k1.add k2⟩

/-- a case that meets the hypotheses of the WDM theorem: a power-law mass function, linear bias, half the matter in haloes. -/
example (h : HM) : ∃ L, Tendsto (fun n => Wdm.powerSH { isp := linSpl, us := fun _ _ _ _ => 0, hankel := fun _ _ => 0 }
    (fine { h with forceUnity := false, rhoGtm := 1 } 1 2 (fun m => m⁻¹) (fun m => m) (fun _ _ => 1) (fun _ _ => 1) (fun _ _ => 1) n) 2
    (fun i => ((fine { h with forceUnity := false, rhoGtm := 1 } 1 2 (fun m => m⁻¹) (fun m => m) (fun _ _ => 1) (fun _ _ => 1) (fun _ _ => 1) n).m i)⁻¹) 1) atTop (𝓝 L) := by
  have hD : ContinuousOn (fun m : ℝ => m⁻¹) (Set.Icc 1 2) := continuousOn_inv₀.mono fun m hm => by
    have := hm.1
    simp only [Set.mem_compl_iff, Set.mem_singleton_iff]
    intro h0
    rw [h0] at this
    norm_num at this
  exact ⟨_, (C56_wdm { isp := linSpl, us := fun _ _ _ _ => 0, hankel := fun _ _ => 0 } linSpl_lin linSpl_conv
    { h with forceUnity := false, rhoGtm := 1 } rfl one_ne_zero 1 2 (by norm_num) (by norm_num) (fun m => m⁻¹) (fun m => m) (fun m => m⁻¹)
    (fun _ _ => 1) (fun _ _ => 1) (fun _ _ => 1) hD continuousOn_id hD 2 1 _ _ _ rfl rfl rfl).2.2.1⟩

/-- a case that meets the hypotheses: two tracers with the Zheng05 HOD, uncorrelated, on a power-law mass function. -/
example (h : HM) (ho : h.Ok) : ∃ P : ℕ → ℝ → ℝ, ∀ j < h.nk, ∃ L, Tendsto (fun n => P n (h.k j)) atTop (𝓝 L) := by
  have hD : ContinuousOn (fun m : ℝ => m⁻¹) (Set.Icc 1e11 1e15) := continuousOn_inv₀.mono fun m hm => by
    have := hm.1
    simp only [Set.mem_compl_iff, Set.mem_singleton_iff]
    intro h0
    rw [h0] at this
    norm_num at this
  obtain ⟨c1, c2, -, -⟩ := zheng_continuous {} (by norm_num) false 1e11 1e15 (by norm_num)
  have hcen : ContinuousOn (zheng05 {} false).cenOcc (Set.Icc (1e11:ℝ) 1e15) := by
    refine (c1.sub c2).congr fun m _ => ?_
    simp [tracerNumber, zheng05, poisson]
  have key := (C56_tracer_zheng05 { isp := linSpl, us := fun _ _ _ _ => 0, hankel := fun _ _ => 0 } linSpl_lin linSpl_conv
    { h with hod := zheng05 {} false } {} (by norm_num) false rfl 1e11 1e15 (by norm_num) (by norm_num) (fun m => m⁻¹) (fun m => m)
    (fun _ _ => 1) (fun _ _ => 1) (fun _ _ => 1) hD continuousOn_id (fun m hm => inv_pos.mpr (lt_of_lt_of_le (by norm_num) hm.1))).1.ne'
  have hlow : tracerLow (zheng05 {} false) 1e11 = 1e11 := by simp [tracerLow, zheng05, poisson]
  have hnum : tracerNumber (zheng05 {} false) = fun m => (zheng05 {} false).cenOcc m + (zheng05 {} false).satOcc m := by
    funext m; simp [tracerNumber, zheng05, poisson]
  have hne : (∫ m in tracerLow (zheng05 {} false) 1e11..1e15, (fun m : ℝ => m⁻¹) m * tracerNumber (zheng05 {} false) m) ≠ 0 := by
    rw [hlow, hnum]; exact key
  obtain ⟨P, Q, R, -, -, -, hlim⟩ := C56_cross_power { isp := linSpl, us := fun _ _ _ _ => 0, hankel := fun _ _ => 0 } linSpl_lin linSpl_conv
    { h with hod := zheng05 {} false } { h with hod := zheng05 {} false } ⟨ho.m, ho.k, ho.r, ho.nm0, ho.nk0, ho.nr0⟩ 1e11 1e15 (by norm_num) (by norm_num)
    (by simp [zheng05, poisson]) (by simp [zheng05, poisson]) rfl (fun m => m⁻¹) (fun m => m⁻¹) (fun m => m) (fun m => m) (fun _ _ => 1) (fun _ _ => 1)
    (fun _ _ => 1) (fun _ _ => 1) (fun _ _ => 1) (fun _ _ => 1) (Cross.constantCorr 0 0 0) (fun _ _ => true) (fun _ _ => rfl)
    hD continuousOn_id (fun _ => continuousOn_const) c1 hD continuousOn_id (fun _ => continuousOn_const) c1
    ((c2.mul c2).congr fun m _ => (Cross.C41_uncorrelated _ _ m).1) ((hcen.mul c2).congr fun m _ => (Cross.C41_uncorrelated _ _ m).2.1)
    ((c2.mul hcen).congr fun m _ => (Cross.C41_uncorrelated _ _ m).2.2) _ _ rfl rfl hne hne
  exact ⟨R, fun j hj => by
    obtain ⟨a, b, -, -, -, -, hR⟩ := hlim j hj
    exact ⟨a + b, hR⟩⟩

end Halomod.HaloModel
