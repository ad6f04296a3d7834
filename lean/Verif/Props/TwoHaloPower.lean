import Verif.Props.CodeEnv

/-! # C70: the two-halo power with halo exclusion or scale-dependent bias -/
namespace Halomod.HaloModel

open Finset Halomod.Tools Halomod.Exclusion

noncomputable section
variable {E : Env} {h : HM}

/-- the two-halo correlation is zero outside the table of separations. -/
theorem corr2h_outside (hs : SplLin E.isp) (ho : h.Ok) (e : ExclRes) (eb : ℝ) (db : Bool) (f : ℝ → ℝ) (hf : h.corr2h E e eb db = some f) :
    ∀ t, t < h.rt 0 ∨ h.rt (h.nr - 1) < t → f t = 0 := by
  unfold HM.corr2h at hf
  cases hm : (List.range e.rows).mapM (fun ir => h.power2hPrim E e eb db ir) with
  | none => rw [hm] at hf; exact absurd hf (by simp)
  | some l =>
    rw [hm] at hf
    have hf' : mkES E { n := h.nr, x := h.rt, y := fun i => E.hankelFine (if e.rows = 1 then l.getD 0 (fun _ => 0) else l.getD i (fun _ => 0)) (h.rt i), lower := .callable (fun _ => 0), upper := .callable fun _ => 0 } = some f := hf
    have := mkES_tails (E := E) hs.toSplOk _ ho.r ho.nr0 f hf' (by simp)
    rintro t (ht | ht)
    · exact this.2.1 rfl t ht
    · exact this.2.2.2.1 rfl t ht

/-- is there exclusion or scale-dependent bias? -/
def Modified (cls : ExclCls) (sd : Option (ℕ → ℝ)) : Prop := cls ≠ .noExclusion ∨ sd ≠ none

theorem power2hX_modified (junk : Mat) (cls : ExclCls) (e : Excl) (sd : Option (ℕ → ℝ)) (hm : Modified cls sd) (eb : ℝ) (db : Bool)
    (power : ℕ → ℝ) (nkhm : ℕ) (khm : ℕ → ℝ) : h.power2hX E junk cls e sd eb db power nkhm khm = (do
      let corr ← h.corr2h E (exclRes E junk cls e h.nr) eb db
      let out ← h.power2hFromCorr E corr power nkhm khm eb
      mkES E { n := h.nk, x := h.k, y := out, lower := .powerLaw, upper := .callable fun _ => 0 }) := by
  unfold HM.power2hX
  cases cls <;> cases sd <;> first | rfl | exact (hm.elim (fun h => absurd rfl h) fun h => absurd rfl h)

/-- C70: with exclusion or scale-dependent bias, two-halo power and two-halo correlation describe the same field: at every tabulated wavenumber the power
is the transform of the correlation that the model reports, and it is zero above the table; provided that no wavenumber of the halo-model grid is below
1e-2. -/
theorem C70_power_is_transform_partial (hs : SplLin E.isp) (ho : h.Ok) (junk : Mat) (cls : ExclCls) (sd : Option (ℕ → ℝ)) (hm : Modified cls sd)
    (power : ℕ → ℝ) (nkhm : ℕ) (khm : ℕ → ℝ) (hk : ∀ j < nkhm, 1e-2 ≤ khm j) :
    (∃ ξ P, h.corr2hTracerX E junk cls sd = some ξ ∧ h.power2hTracerX E junk cls sd power nkhm khm = some P ∧
      (∀ j < h.nk, P (h.k j) = E.hankelK ξ (h.k j)) ∧ ∀ t, h.k (h.nk - 1) < t → P t = 0) ∧
    (∃ ξ P, h.corr2hMatterX E junk cls sd = some ξ ∧ h.power2hMatterX E junk cls sd power nkhm khm = some P ∧
      (∀ j < h.nk, P (h.k j) = E.hankelK ξ (h.k j)) ∧ ∀ t, h.k (h.nk - 1) < t → P t = 0) := by
  have key : ∀ (e : Excl) (he : exclRows cls e h.nr = 1 ∨ exclRows cls e h.nr = h.nr) (eb : ℝ) (db : Bool),
      ∃ ξ P, h.corr2h E (exclRes E junk cls e h.nr) eb db = some ξ ∧ h.power2hX E junk cls e sd eb db power nkhm khm = some P ∧
        (∀ j < h.nk, P (h.k j) = E.hankelK ξ (h.k j)) ∧ ∀ t, h.k (h.nk - 1) < t → P t = 0 := by
    intro e he eb db
    obtain ⟨ξ, h1, -, -⟩ := corr2h_rows (E := E) hs ho (exclRes E junk cls e h.nr) he eb db
    obtain ⟨P, p1, p2, -⟩ := mkES_ok E hs.toSplOk { n := h.nk, x := h.k, y := fun j => E.hankelK ξ (h.k j), lower := .powerLaw, upper := .callable fun _ => 0 }
      rfl rfl ho.k (by simp) (by simp)
    refine ⟨ξ, P, h1, ?_, p2, (mkES_tails (E := E) hs.toSplOk _ ho.k ho.nk0 P p1 (by simp)).2.2.2.1 rfl⟩
    rw [power2hX_modified junk cls e sd hm, h1]
    have hno : ¬ ∃ j < nkhm, khm j < 1e-2 := by
      rintro ⟨j, hj, hl⟩
      exact absurd (hk j hj) (not_le.mpr hl)
    have : h.power2hFromCorr E ξ power nkhm khm eb = some fun j => E.hankelK ξ (h.k j) := by
      unfold HM.power2hFromCorr
      exact if_neg hno
    simp only [Option.bind_eq_bind, Option.bind_some, this]
    exact p1
  exact ⟨key _ (by cases sd <;> cases cls <;> simp [exclRows, noExclRows, HM.tracerExclX, HM.exclBias]) _ _,
    key _ (by cases sd <;> cases cls <;> simp [exclRows, noExclRows, HM.matterExclX, HM.exclBias]) _ _⟩

/-- C70 finding: with a wavenumber of the halo-model grid below 1e-2 the two-halo power cannot be computed at all unless both wavenumber grids have the same
number of entries; if they have, entry number `j` is the linear power *of the other grid* times one power of the bias, and the entries at the places where
the halo-model grid is not below 1e-2 are the transform of the correlation. -/
theorem C70_low_wavenumbers (hs : SplLin E.isp) (ho : h.Ok) (junk : Mat) (cls : ExclCls) (sd : Option (ℕ → ℝ)) (hm : Modified cls sd)
    (power : ℕ → ℝ) (nkhm : ℕ) (khm : ℕ → ℝ) (j : ℕ) (hj : j < nkhm) (hl : khm j < 1e-2) :
    (nkhm ≠ h.nk → h.power2hTracerX E junk cls sd power nkhm khm = none ∧ h.power2hMatterX E junk cls sd power nkhm khm = none) ∧
    (nkhm = h.nk → ∃ P Q ξ η, h.power2hTracerX E junk cls sd power nkhm khm = some P ∧ h.power2hMatterX E junk cls sd power nkhm khm = some Q ∧
      h.corr2hTracerX E junk cls sd = some ξ ∧ h.corr2hMatterX E junk cls sd = some η ∧
      P (h.k j) = h.biasEffTracer E * power j ∧ Q (h.k j) = h.biasEffMatter E * power j ∧
      ∀ i < h.nk, 1e-2 ≤ khm i → P (h.k i) = E.hankelK ξ (h.k i) ∧ Q (h.k i) = E.hankelK η (h.k i)) := by
  classical
  have key : ∀ (e : Excl) (he : exclRows cls e h.nr = 1 ∨ exclRows cls e h.nr = h.nr) (eb : ℝ) (db : Bool),
      (nkhm ≠ h.nk → h.power2hX E junk cls e sd eb db power nkhm khm = none) ∧
      (nkhm = h.nk → ∃ P ξ, h.power2hX E junk cls e sd eb db power nkhm khm = some P ∧ h.corr2h E (exclRes E junk cls e h.nr) eb db = some ξ ∧
        P (h.k j) = eb * power j ∧ ∀ i < h.nk, 1e-2 ≤ khm i → P (h.k i) = E.hankelK ξ (h.k i)) := by
    intro e he eb db
    obtain ⟨ξ, h1, -, -⟩ := corr2h_rows (E := E) hs ho (exclRes E junk cls e h.nr) he eb db
    have hex : ∃ j < nkhm, khm j < 1e-2 := ⟨j, hj, hl⟩
    rw [power2hX_modified junk cls e sd hm, h1]
    simp only [Option.bind_eq_bind, Option.bind_some]
    constructor
    · intro hne
      rw [(C44_low_k_overwrite (E := E) (h := h) ξ power nkhm khm eb j hj hl).1 hne]; rfl
    · intro he
      have hout : h.power2hFromCorr E ξ power nkhm khm eb = some fun j => if khm j < 1e-2 then power j * eb else E.hankelK ξ (h.k j) := by
        unfold HM.power2hFromCorr
        rw [if_pos hex, if_pos he]
      obtain ⟨P, p1, p2, -⟩ := mkES_ok E hs.toSplOk { n := h.nk, x := h.k, y := fun j => if khm j < 1e-2 then power j * eb else E.hankelK ξ (h.k j), lower := .powerLaw, upper := .callable fun _ => 0 }
        rfl rfl ho.k (by simp) (by simp)
      rw [hout]
      refine ⟨P, ξ, p1, rfl, ?_, fun i hi hki => ?_⟩
      · rw [p2 j (by rw [← he]; exact hj)]
        exact (if_pos hl).trans (mul_comm _ _)
      · rw [p2 i hi]
        exact if_neg (not_lt.mpr hki)
  have k1 := key (h.tracerExclX E sd) (by cases sd <;> cases cls <;> simp [exclRows, noExclRows, HM.tracerExclX, HM.exclBias]) (h.biasEffTracer E) false
  have k2 := key (h.matterExclX sd) (by cases sd <;> cases cls <;> simp [exclRows, noExclRows, HM.matterExclX, HM.exclBias]) (h.biasEffMatter E) h.forceUnity
  refine ⟨fun hne => ⟨k1.1 hne, k2.1 hne⟩, fun he => ?_⟩
  obtain ⟨P, ξ, p1, p2, p3, p4⟩ := k1.2 he
  obtain ⟨Q, η, q1, q2, q3, q4⟩ := k2.2 he
  exact ⟨P, Q, ξ, η, p1, q1, p2, q2, p3, q3, fun i hi hk => ⟨p4 i hi hk, q4 i hi hk⟩⟩

/-- C70: without either, the power is the one computed directly. -/
theorem C70_unmodified (junk : Mat) (power : ℕ → ℝ) (nkhm : ℕ) (khm : ℕ → ℝ) :
    h.power2hTracerX E junk .noExclusion none power nkhm khm = h.power2hTracer E ∧
    h.power2hMatterX E junk .noExclusion none power nkhm khm = h.power2hMatter E := ⟨rfl, rfl⟩

theorem hankelAt_zero {hh atol rtol rr : ℝ} {chunk : ℕ} (hc : 0 < chunk) (hn : 1 < ogNmax hh) (ha : 0 ≤ atol) (ha' : atol < 100) (name : List Char) (f : ℝ → ℝ)
    (hf : ∀ n, 1 ≤ n → n ≤ chunk → f (ogX hh n / rr) = 0) : hankelAt hh atol rtol chunk name f rr = 0 := by
  have h0 : hSum hh rr chunk f 0 = 0 := by simp [hSum]
  have h1 : hSum hh rr chunk f 1 = 0 := by
    unfold hSum
    refine sum_eq_zero fun n hn => ?_
    rw [mem_Ico] at hn
    rw [hf n hn.1 (by omega), mul_zero]
  have hstop : hStop hh atol rtol rr chunk f = 1 := by
    refine hStop_eq hc (Or.inr ?_) fun i hi => ?_
    · rw [if_neg (by norm_num), Nat.sub_self, h0, h1]
      unfold isclose
      simpa using ha
    · have : i = 0 := by omega
      subst this
      unfold HStops isclose
      rw [if_pos rfl, h0, not_or, not_le, not_le]
      refine ⟨by omega, ?_⟩
      norm_num
      exact ha'
  unfold hankelAt hNorm
  rw [hstop, h1]
  simp

/-- C70 finding: with exclusion or scale-dependent bias the two-halo power of the code is exactly zero at every tabulated wavenumber below `x₁ / r_max`
(`x₁ ≈ 0.005`, `r_max` the last tabulated separation, about 316 in the package) and above `x₁₀₀ / r_min` (`x₁₀₀ ≈ 49`): on the largest scales it does not approach the linear power. -/
theorem C70_zero_at_ends {isp : Spl} {us : USpl} (hs : SplLin isp) (ho : h.Ok) (junk : Mat) (cls : ExclCls) (sd : Option (ℕ → ℝ)) (hm : Modified cls sd)
    (power : ℕ → ℝ) (nkhm : ℕ) (khm : ℕ → ℝ) (hk : ∀ j < nkhm, 1e-2 ≤ khm j) :
    ∃ P Q, h.power2hTracerX (codeEnv isp us) junk cls sd power nkhm khm = some P ∧ h.power2hMatterX (codeEnv isp us) junk cls sd power nkhm khm = some Q ∧
      ∀ j < h.nk, h.k j * h.rt (h.nr - 1) < ogX 0.001 1 ∨ ogX 0.001 100 < h.k j * h.rt 0 → P (h.k j) = 0 ∧ Q (h.k j) = 0 := by
  obtain ⟨⟨ξ, P, a1, a2, a3, -⟩, ⟨η, Q, b1, b2, b3, -⟩⟩ := C70_power_is_transform_partial (E := codeEnv isp us) hs ho junk cls sd hm power nkhm khm hk
  refine ⟨P, Q, a2, b2, fun j hj hext => ?_⟩
  have hkj := ho.k.pos j hj
  have hN : 1 < ogNmax 0.001 := by
    unfold ogNmax
    exact lt_of_lt_of_le (by norm_num : 1 < 2) (Nat.le_floor (by norm_num))
  have hmono := (ogX_strictMono (h := 0.001) (by norm_num)).monotone
  have hout : ∀ n, 1 ≤ n → n ≤ 100 → ogX 0.001 n / h.k j < h.rt 0 ∨ h.rt (h.nr - 1) < ogX 0.001 n / h.k j := by
    intro n h1 h2
    rcases hext with hx | hx
    · right
      rw [lt_div_iff₀ hkj]
      have := hmono h1
      linarith [mul_comm (h.k j) (h.rt (h.nr - 1))]
    · left
      rw [div_lt_iff₀ hkj]
      have := hmono h2
      linarith [mul_comm (h.k j) (h.rt 0)]
  have z : ∀ f : ℝ → ℝ, (∀ t, t < h.rt 0 ∨ h.rt (h.nr - 1) < t → f t = 0) → (codeEnv isp us).hankelK f (h.k j) = 0 := fun f hf =>
    hankelAt_zero (by norm_num) hN (by norm_num) (by norm_num) ['k'] f fun n h1 h2 => hf _ (hout n h1 h2)
  exact ⟨(a3 j hj).trans (z ξ (corr2h_outside hs ho _ _ _ ξ a1)), (b3 j hj).trans (z η (corr2h_outside hs ho _ _ _ η b1))⟩

/-- C70: the lower of these ranges is met by the table of separations of the package, which ends below 10^2.5, at all wavenumbers up to 6e-6. -/
theorem C70_ends_met (k r : ℝ) (hk : 0 ≤ k) (hk' : k ≤ 6e-6) (hr : 0 ≤ r) (hr' : r ≤ (10:ℝ) ^ (2.5:ℝ)) : k * r < ogX 0.001 1 := by
  have hp := Real.pi_pos
  have hp3 := Real.pi_gt_three
  have h1 : (0.001:ℝ) ≤ Real.sinh (0.001 * (1:ℕ)) := by
    push_cast
    rw [mul_one]
    exact Real.self_le_sinh_iff.mpr (by norm_num)
  have h2 : (0.0015:ℝ) ≤ ogS (0.001 * (1:ℕ)) / 2 := by unfold ogS; nlinarith
  have h3 : Real.tanh 0.0015 ≤ Real.tanh (ogS (0.001 * (1:ℕ)) / 2) := tanh_mono h2
  have h4 : (0.0007:ℝ) ≤ Real.tanh 0.0015 := by
    rw [Real.tanh_eq_sinh_div_cosh, le_div_iff₀ (Real.cosh_pos _)]
    have a : (0.0015:ℝ) ≤ Real.sinh 0.0015 := Real.self_le_sinh_iff.mpr (by norm_num)
    have b : Real.cosh 0.0015 ≤ 2 := by
      have e1 := Real.cosh_sq_sub_sinh_sq 0.0015
      have e2 : Real.sinh 0.0015 ≤ 1 := (sinh_le' (by norm_num) (by norm_num)).trans (by norm_num)
      have e3 := Real.cosh_pos 0.0015
      nlinarith [Real.sinh_nonneg_iff.mpr (by norm_num : (0:ℝ) ≤ 0.0015)]
    nlinarith

  have h5 : (10:ℝ) ^ (2.5:ℝ) ≤ 320 := by
    have e : ((10:ℝ) ^ (2.5:ℝ)) ^ 2 = 100000 := by
      rw [← Real.rpow_natCast, ← Real.rpow_mul (by norm_num)]
      norm_num
    have h0 : 0 ≤ (10:ℝ) ^ (2.5:ℝ) := by positivity
    nlinarith
  have h6 : k * r ≤ 6e-6 * 320 := by gcongr; linarith
  unfold ogX
  push_cast at h3 ⊢
  nlinarith

/-- a model, an exclusion class and grids that meet the hypotheses above. -/
example : demoHM.Ok ∧ Modified .dblEllipsoid none ∧ ∀ j < 2, (1e-2:ℝ) ≤ demoHM.k j :=
  ⟨demo_ok, Or.inl (by simp), fun j _ => by
    have : (0:ℝ) ≤ j := Nat.cast_nonneg j
    change (1e-2:ℝ) ≤ 1 + j
    norm_num
    linarith⟩

end
end Halomod.HaloModel
