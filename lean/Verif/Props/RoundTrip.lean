import Verif.Props.Ogata
import Verif.Lemmas.SineInversion

/-!
# C66: transforming to correlations and back recovers the spectrum
-/
namespace Halomod.Tools

open Finset Filter Topology MeasureTheory

noncomputable section

/-- what makes a spectrum (or a correlation function) `f` transformable: it is continuous, and `k f(k)` has a
decreasing integrable majorant. -/
structure Transformable (f : ℝ → ℝ) : Prop where
  cont : ContinuousOn f (Set.Ioi 0)
  major : ∃ G : ℝ → ℝ, AntitoneOn G (Set.Ici 0) ∧ IntegrableOn G (Set.Ioi 0) ∧ ∀ k, 0 < k → |f k * k| ≤ G k

theorem Transformable.sinMajor {f : ℝ → ℝ} {G : ℝ → ℝ} (hG : ∀ k, 0 < k → |f k * k| ≤ G k) (r k : ℝ) (hk : 0 < k) :
    |f k * k * Real.sin (k * r)| ≤ G k := by
  rw [abs_mul]
  have h1 := Real.abs_sin_le_one (k * r)
  have h2 := hG k hk
  calc |f k * k| * |Real.sin (k * r)| ≤ |f k * k| * 1 := by gcongr
    _ ≤ G k := by linarith

theorem Transformable.origin {f : ℝ → ℝ} (hf : Transformable f) : Tendsto (fun k => k ^ 2 * f k) (𝓝[>] 0) (𝓝 0) := by
  obtain ⟨G, hG, _, hb⟩ := hf.major
  have h1 : Tendsto (fun k : ℝ => k * G 0) (𝓝[>] 0) (𝓝 0) := by
    have : Tendsto (fun k : ℝ => k * G 0) (𝓝 0) (𝓝 (0 * G 0)) := tendsto_id.mul_const _
    rw [zero_mul] at this
    exact tendsto_nhdsWithin_of_tendsto_nhds this
  refine squeeze_zero_norm' ?_ h1
  filter_upwards [self_mem_nhdsWithin] with k hk
  have hk' : 0 < k := hk
  have h2 := hb k hk'
  have h3 : G k ≤ G 0 := hG (Set.mem_Ici.mpr le_rfl) (Set.mem_Ici.mpr hk'.le) hk'.le
  rw [Real.norm_eq_abs, show k ^ 2 * f k = k * (f k * k) by ring, abs_mul, abs_of_pos hk']
  gcongr
  linarith

theorem Transformable.integrable {f : ℝ → ℝ} (hf : Transformable f) : IntegrableOn (fun k => f k * k) (Set.Ioi 0) := by
  obtain ⟨G, _, hGi, hb⟩ := hf.major
  refine hGi.mono' ?_ ?_
  · exact (hf.cont.mul continuousOn_id).aestronglyMeasurable measurableSet_Ioi
  · filter_upwards [ae_restrict_mem measurableSet_Ioi] with k hk
    exact hb k hk

theorem exact_eq_sine (f : ℝ → ℝ) {r : ℝ} (hr : 0 < r) :
    (∫ k in Set.Ioi (0:ℝ), f k * k ^ 2 * (Real.sin (k * r) / (k * r))) = Sine.sineT (fun k => f k * k) r / r := by
  unfold Sine.sineT
  rw [div_eq_inv_mul, ← integral_const_mul]
  refine setIntegral_congr_fun (measurableSet_Ioi (a := (0:ℝ))) fun k hk => ?_
  have hk' : 0 < k := hk
  show f k * k ^ 2 * (Real.sin (k * r) / (k * r)) = r⁻¹ * (f k * k * Real.sin (r * k))
  rw [mul_comm r k]
  field_simp

/-- the exact transforms invert each other. -/
theorem exact_inverse {P xi : ℝ → ℝ} (hP : Transformable P) (hxi : Transformable xi) {a b : ℝ} (hab : a * b = 2 / Real.pi)
    (ha : a ≠ 0)
    (h : ∀ r, 0 < r → xi r = a * ∫ k in Set.Ioi (0:ℝ), P k * k ^ 2 * (Real.sin (k * r) / (k * r))) {k : ℝ} (hk : 0 < k) :
    b * (∫ r in Set.Ioi (0:ℝ), xi r * r ^ 2 * (Real.sin (r * k) / (r * k))) = P k := by
  have hS : ∀ r, 0 < r → Sine.sineT (fun k => P k * k) r = xi r * r / a := by
    intro r hr
    have := h r hr
    rw [exact_eq_sine P hr] at this
    rw [this]
    field_simp
  have hSi : IntegrableOn (Sine.sineT fun k => P k * k) (Set.Ioi 0) := by
    have h0 : IntegrableOn (fun r => xi r * r / a) (Set.Ioi 0) := hxi.integrable.div_const a
    exact h0.congr_fun (fun r hr => (hS r hr).symm) measurableSet_Ioi
  have hc : ContinuousAt (fun k => P k * k) k :=
    (hP.cont.continuousAt (Ioi_mem_nhds hk)).mul continuousAt_id
  have key := Sine.sine_inversion hP.integrable hSi hk hc
  rw [exact_eq_sine xi hk]
  have e : Sine.sineT (fun r => xi r * r) k = a * ∫ r in Set.Ioi (0:ℝ), Sine.sineT (fun k => P k * k) r * Real.sin (k * r) := by
    unfold Sine.sineT
    rw [← integral_const_mul]
    refine setIntegral_congr_fun (measurableSet_Ioi (a := (0:ℝ))) fun r hr => ?_
    have := hS r hr
    unfold Sine.sineT at this
    show xi r * r * Real.sin (k * r) = a * ((∫ k in Set.Ioi (0:ℝ), P k * k * Real.sin (r * k)) * Real.sin (k * r))
    rw [this]
    field_simp
  rw [e]
  generalize (∫ r in Set.Ioi (0:ℝ), Sine.sineT (fun k => P k * k) r * Real.sin (k * r)) = I at *
  have e2 : b * (a * I / k) = (a * b * I) / k := by ring
  rw [e2, hab]
  rw [← key]
  field_simp

/-- **C66**: transform a spectrum to separations, `xi(r) = hankel_transform(P, r, "r")`, and the result back,
`hankel_transform(xi, k, "k")`: in the limit of fine steps (chunks covering the nodes) the spectrum is
recovered at every wavenumber: the two normalisations belong together. -/
theorem C66_round_trip_power {P xi : ℝ → ℝ} (hP : Transformable P) (hxi : Transformable xi)
    {atol rtol : ℝ} (ha : atol < 100) (chunk : ℝ → ℕ) (hc0 : ∀ h, 0 < chunk h) (hc : ∀ h, 0 < h → ogNmax h ≤ chunk h)
    (v : ℝ → ℝ → ℝ)
    (hv : ∀ r, 0 < r → ∀ h, 0 < h → HankelReturns h atol rtol r (fun k => some (P k)) (chunk h) ['r'] (some (v r h)))
    (hlim : ∀ r, 0 < r → Tendsto (v r) (𝓝[>] 0) (𝓝 (xi r)))
    {k : ℝ} (hk : 0 < k) (w : ℝ → ℝ)
    (hw : ∀ h, 0 < h → HankelReturns h atol rtol k (fun r => some (xi r)) (chunk h) ['k'] (some (w h))) :
    Tendsto w (𝓝[>] 0) (𝓝 (P k)) := by
  have hpi := Real.pi_pos
  have hval : ∀ r, 0 < r → xi r = 1 / (2 * Real.pi ^ 2) * ∫ k in Set.Ioi (0:ℝ), P k * k ^ 2 * (Real.sin (k * r) / (k * r)) := by
    intro r hr
    obtain ⟨G, hG, hGi, hb⟩ := hP.major
    exact tendsto_nhds_unique (hlim r hr) (C65_hankel_r_partial hr hP.cont hP.origin hG hGi
      (fun k hk => Transformable.sinMajor hb r k hk) ha chunk hc (v r) (hv r hr))
  obtain ⟨G, hG, hGi, hb⟩ := hxi.major
  have key := C65_hankel_k_partial hk hxi.cont hxi.origin hG hGi (fun r hr => Transformable.sinMajor hb k r hr) ha chunk hc0 hc w hw
  rwa [exact_inverse hP hxi (a := 1 / (2 * Real.pi ^ 2)) (b := 4 * Real.pi) (by field_simp; norm_num) (by positivity) hval hk] at key

/-- **C66**, the other way round: a correlation function transformed to wavenumbers and back. -/
theorem C66_round_trip_corr {P xi : ℝ → ℝ} (hP : Transformable P) (hxi : Transformable xi)
    {atol rtol : ℝ} (ha : atol < 100) (chunk : ℝ → ℕ) (hc0 : ∀ h, 0 < chunk h) (hc : ∀ h, 0 < h → ogNmax h ≤ chunk h)
    (w : ℝ → ℝ → ℝ)
    (hw : ∀ k, 0 < k → ∀ h, 0 < h → HankelReturns h atol rtol k (fun r => some (xi r)) (chunk h) ['k'] (some (w k h)))
    (hlim : ∀ k, 0 < k → Tendsto (w k) (𝓝[>] 0) (𝓝 (P k)))
    {r : ℝ} (hr : 0 < r) (v : ℝ → ℝ)
    (hv : ∀ h, 0 < h → HankelReturns h atol rtol r (fun k => some (P k)) (chunk h) ['r'] (some (v h))) :
    Tendsto v (𝓝[>] 0) (𝓝 (xi r)) := by
  have hpi := Real.pi_pos
  have hval : ∀ k, 0 < k → P k = 4 * Real.pi * ∫ r in Set.Ioi (0:ℝ), xi r * r ^ 2 * (Real.sin (r * k) / (r * k)) := by
    intro k hk
    obtain ⟨G, hG, hGi, hb⟩ := hxi.major
    exact tendsto_nhds_unique (hlim k hk) (C65_hankel_k_partial hk hxi.cont hxi.origin hG hGi
      (fun r hr => Transformable.sinMajor hb k r hr) ha chunk hc0 hc (w k) (hw k hk))
  obtain ⟨G, hG, hGi, hb⟩ := hP.major
  have key := C65_hankel_r_partial hr hP.cont hP.origin hG hGi (fun k hk => Transformable.sinMajor hb r k hk) ha chunk hc v hv
  rwa [exact_inverse hxi hP (a := 4 * Real.pi) (b := 1 / (2 * Real.pi ^ 2)) (by field_simp; norm_num) (by positivity) hval hr] at key

/-! ## A worked pair: `P(k) = exp(-k)`, `xi(r) = 1 / (pi² (1 + r²)²)` -/

/-- `∫₀^∞ k exp(-k) sin(kr) dk = 2 r / (1 + r²)²`. -/
theorem exp_sine (r : ℝ) : Sine.sineT (fun k => Real.exp (-k) * k) r = 2 * r / (1 + r ^ 2) ^ 2 := by
  unfold Sine.sineT
  have hD : (1 + r ^ 2) ≠ 0 := by positivity
  let A : ℝ → ℝ := fun k => Real.exp (-k) * ((-k / (1 + r ^ 2) + (r ^ 2 - 1) / (1 + r ^ 2) ^ 2) * Real.sin (r * k)
    + (-r * k / (1 + r ^ 2) - 2 * r / (1 + r ^ 2) ^ 2) * Real.cos (r * k))
  have hderiv : ∀ k ∈ Set.Ici (0:ℝ), HasDerivAt A (Real.exp (-k) * k * Real.sin (r * k)) k := by
    intro k _
    have h1 : HasDerivAt (fun k : ℝ => Real.exp (-k)) (Real.exp (-k) * (-1)) k := (hasDerivAt_neg k).exp
    have hs : HasDerivAt (fun k : ℝ => Real.sin (r * k)) (Real.cos (r * k) * (r * 1)) k := ((hasDerivAt_id k).const_mul r).sin
    have hc : HasDerivAt (fun k : ℝ => Real.cos (r * k)) (-Real.sin (r * k) * (r * 1)) k := ((hasDerivAt_id k).const_mul r).cos
    have ha : HasDerivAt (fun k : ℝ => -k / (1 + r ^ 2) + (r ^ 2 - 1) / (1 + r ^ 2) ^ 2) (-1 / (1 + r ^ 2)) k :=
      ((hasDerivAt_neg k).div_const _).add_const _
    have hb : HasDerivAt (fun k : ℝ => -r * k / (1 + r ^ 2) - 2 * r / (1 + r ^ 2) ^ 2) (-r * 1 / (1 + r ^ 2)) k :=
      (((hasDerivAt_id k).const_mul (-r)).div_const _).sub_const _
    refine (h1.mul ((ha.mul hs).add (hb.mul hc))).congr_deriv ?_
    simp only [Pi.mul_apply, Pi.add_apply]
    field_simp
    ring
  have hint : IntegrableOn (fun k : ℝ => Real.exp (-k) * k * Real.sin (r * k)) (Set.Ioi 0) := by
    have h1 : IntegrableOn (fun k : ℝ => 2 * Real.exp (-(1 / 2) * k)) (Set.Ioi 0) :=
      (exp_neg_integrableOn_Ioi 0 (by norm_num : (0:ℝ) < 1 / 2)).const_mul 2
    refine h1.mono' ?_ ?_
    · exact (by fun_prop : Continuous fun k : ℝ => Real.exp (-k) * k * Real.sin (r * k)).aestronglyMeasurable
    · filter_upwards [ae_restrict_mem measurableSet_Ioi] with k hk
      have hk' : 0 < k := hk
      rw [Real.norm_eq_abs, abs_mul, abs_of_nonneg (by positivity : 0 ≤ Real.exp (-k) * k)]
      have h2 := Real.abs_sin_le_one (r * k)
      have h3 : k ≤ 2 * Real.exp (1 / 2 * k) := by
        have := Real.add_one_le_exp (1 / 2 * k)
        linarith
      have h4 : Real.exp (-k) * Real.exp (1 / 2 * k) = Real.exp (-(1 / 2) * k) := by
        rw [← Real.exp_add]; congr 1; ring
      calc Real.exp (-k) * k * |Real.sin (r * k)| ≤ Real.exp (-k) * k * 1 := by gcongr
        _ ≤ Real.exp (-k) * (2 * Real.exp (1 / 2 * k)) * 1 := by gcongr
        _ = 2 * Real.exp (-(1 / 2) * k) := by rw [← h4]; ring
  have hz : Tendsto A atTop (𝓝 0) := by
    have h1 : Tendsto (fun k : ℝ => k ^ 1 * Real.exp (-k)) atTop (𝓝 0) := Real.tendsto_pow_mul_exp_neg_atTop_nhds_zero 1
    have h0 : Tendsto (fun k : ℝ => k ^ 0 * Real.exp (-k)) atTop (𝓝 0) := Real.tendsto_pow_mul_exp_neg_atTop_nhds_zero 0
    set B := (1 + |r|) / (1 + r ^ 2) with hB
    set C := |(r ^ 2 - 1) / (1 + r ^ 2) ^ 2| + |2 * r / (1 + r ^ 2) ^ 2| with hC
    have h2 := (h1.const_mul B).add (h0.const_mul C)
    rw [mul_zero, mul_zero, add_zero] at h2
    refine squeeze_zero_norm' ?_ h2
    filter_upwards [eventually_ge_atTop (0:ℝ)] with k hk
    have hs := Real.abs_sin_le_one (r * k)
    have hc := Real.abs_cos_le_one (r * k)
    have he := Real.exp_pos (-k)
    have hDp : 0 < 1 + r ^ 2 := by positivity
    have e1 : |-k / (1 + r ^ 2) + (r ^ 2 - 1) / (1 + r ^ 2) ^ 2| ≤ k / (1 + r ^ 2) + |(r ^ 2 - 1) / (1 + r ^ 2) ^ 2| := by
      refine le_trans (abs_add_le _ _) ?_
      rw [abs_div, abs_neg, abs_of_nonneg hk, abs_of_pos hDp]
    have e2 : |-r * k / (1 + r ^ 2) - 2 * r / (1 + r ^ 2) ^ 2| ≤ |r| * k / (1 + r ^ 2) + |2 * r / (1 + r ^ 2) ^ 2| := by
      refine le_trans (abs_sub _ _) ?_
      rw [abs_div (-r * k), abs_mul, abs_neg, abs_of_nonneg hk, abs_of_pos hDp]
    rw [Real.norm_eq_abs, abs_mul, abs_of_pos he]
    have e3 : |(-k / (1 + r ^ 2) + (r ^ 2 - 1) / (1 + r ^ 2) ^ 2) * Real.sin (r * k)
        + (-r * k / (1 + r ^ 2) - 2 * r / (1 + r ^ 2) ^ 2) * Real.cos (r * k)|
        ≤ (k / (1 + r ^ 2) + |(r ^ 2 - 1) / (1 + r ^ 2) ^ 2|) * 1 + (|r| * k / (1 + r ^ 2) + |2 * r / (1 + r ^ 2) ^ 2|) * 1 := by
      refine le_trans (abs_add_le _ _) ?_
      rw [abs_mul, abs_mul]
      gcongr
    refine le_trans (mul_le_mul_of_nonneg_left e3 he.le) (le_of_eq ?_)
    rw [hB, hC]
    ring
  have key := integral_Ioi_of_hasDerivAt_of_tendsto' hderiv hint hz
  rw [key]
  simp only [A]
  simp

theorem exp_transformable : Transformable fun k => Real.exp (-k) where
  cont := by fun_prop
  major := by
    refine ⟨fun k => 2 * Real.exp (-(1 / 2) * k), ?_, (exp_neg_integrableOn_Ioi 0 (by norm_num : (0:ℝ) < 1 / 2)).const_mul 2, ?_⟩
    · intro a _ b _ hab
      show 2 * Real.exp (-(1 / 2) * b) ≤ 2 * Real.exp (-(1 / 2) * a)
      gcongr 2 * Real.exp ?_
      linarith
    · intro k hk
      rw [abs_of_nonneg (by positivity)]
      have h3 : k ≤ 2 * Real.exp (1 / 2 * k) := by
        have := Real.add_one_le_exp (1 / 2 * k)
        linarith
      have h4 : Real.exp (-k) * Real.exp (1 / 2 * k) = Real.exp (-(1 / 2) * k) := by
        rw [← Real.exp_add]; congr 1; ring
      calc Real.exp (-k) * k ≤ Real.exp (-k) * (2 * Real.exp (1 / 2 * k)) := by gcongr
        _ = 2 * Real.exp (-(1 / 2) * k) := by rw [← h4]; ring

theorem lorentz_transformable : Transformable fun r => 1 / (Real.pi ^ 2 * (1 + r ^ 2) ^ 2) where
  cont := by
    refine ContinuousOn.div (by fun_prop) (by fun_prop) fun r _ => ?_
    have := Real.pi_pos
    positivity
  major := by
    have hpi := Real.pi_pos
    refine ⟨fun r => (1 + r ^ 2)⁻¹, ?_, integrable_inv_one_add_sq.integrableOn, ?_⟩
    · intro a ha b _ hab
      have ha' : (0:ℝ) ≤ a := ha
      show (1 + b ^ 2)⁻¹ ≤ (1 + a ^ 2)⁻¹
      gcongr
    · intro r hr
      rw [abs_of_nonneg (by positivity), one_div, mul_inv, mul_assoc, ← div_eq_inv_mul, ← div_eq_inv_mul, div_div]
      rw [div_le_iff₀ (by positivity)]
      have h1 : (1:ℝ) ≤ Real.pi ^ 2 := by nlinarith [Real.two_le_pi]
      have h2 : r ≤ 1 + r ^ 2 := by nlinarith [sq_nonneg (r - 1)]
      have e : (1 + r ^ 2)⁻¹ * ((1 + r ^ 2) ^ 2 * Real.pi ^ 2) = (1 + r ^ 2) * Real.pi ^ 2 := by field_simp
      rw [e]
      nlinarith

/-- a pair to which `C66_round_trip_power` applies: with `P(k) = exp(-k)` the refined transform is
`1/(pi² (1+r²)²)` at every separation, and transforming that back gives `exp(-k)`. -/
theorem C66_worked_pair {atol rtol : ℝ} (ha : atol < 100) (chunk : ℝ → ℕ) (hc0 : ∀ h, 0 < chunk h)
    (hc : ∀ h, 0 < h → ogNmax h ≤ chunk h) :
    (∀ r, 0 < r → ∀ v : ℝ → ℝ,
      (∀ h, 0 < h → HankelReturns h atol rtol r (fun k => some (Real.exp (-k))) (chunk h) ['r'] (some (v h))) →
      Tendsto v (𝓝[>] 0) (𝓝 (1 / (Real.pi ^ 2 * (1 + r ^ 2) ^ 2)))) ∧
    (∀ k, 0 < k → ∀ w : ℝ → ℝ,
      (∀ h, 0 < h → HankelReturns h atol rtol k (fun r => some (1 / (Real.pi ^ 2 * (1 + r ^ 2) ^ 2))) (chunk h) ['k'] (some (w h))) →
      Tendsto w (𝓝[>] 0) (𝓝 (Real.exp (-k)))) := by
  have hpi := Real.pi_pos
  have h1 : ∀ r, 0 < r → ∀ v : ℝ → ℝ,
      (∀ h, 0 < h → HankelReturns h atol rtol r (fun k => some (Real.exp (-k))) (chunk h) ['r'] (some (v h))) →
      Tendsto v (𝓝[>] 0) (𝓝 (1 / (Real.pi ^ 2 * (1 + r ^ 2) ^ 2))) := by
    intro r hr v hv
    obtain ⟨G, hG, hGi, hb⟩ := exp_transformable.major
    have key := C65_hankel_r_partial hr exp_transformable.cont exp_transformable.origin hG hGi
      (fun k hk => Transformable.sinMajor hb r k hk) ha chunk hc v hv
    rw [exact_eq_sine _ hr, exp_sine] at key
    convert key using 2
    field_simp
  refine ⟨h1, fun k hk w hw => ?_⟩
  choose v hv using fun r h => C11_returns h atol rtol r (fun k => some (Real.exp (-k))) (chunk h) (hc0 h) ['r'] (Or.inr rfl)
  exact C66_round_trip_power exp_transformable lorentz_transformable ha chunk hc0 hc v (fun r _ h _ => hv r h)
    (fun r hr => h1 r hr (v r) fun h _ => hv r h) hk w hw

end

end Halomod.Tools
