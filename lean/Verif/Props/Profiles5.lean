import Verif.Props.Profiles4
import Verif.Lemmas.GammaTrig

/-!
# C26 continued: the Fourier transform of `PowerLawWithExpCut`
-/
namespace Halomod.Profiles

open MeasureTheory Set Filter Topology

theorem plF_w {a b x : ℝ} (hx : 0 < x) : x * plF a b x = GammaTrig.w a (2 - b) x := by
  unfold plF GammaTrig.w
  have e1 : (1.0 : ℝ) = 1 := by norm_num
  rw [e1, one_div, ← Real.rpow_neg hx.le, ← mul_assoc, neg_mul]
  congr 1
  conv_lhs => rw [← Real.rpow_one x, ← Real.rpow_mul hx.le, one_mul, ← Real.rpow_add hx]
  congr 1; ring

theorem plP_form {a b K : ℝ} : plP a b K = GammaTrig.sinForm a (2 - b) K / K := by
  unfold plP GammaTrig.sinForm
  by_cases h : b = 2
  · subst h; simp
  · have h' : ¬ (2 - b = 0) := fun hh => h (by linarith)
    rw [if_neg h, if_neg h']
    have e1 : -(2 - b) / 2 = b / 2 - 1 := by ring
    have e2 : (2 - b) * Real.arctan (K / a) = -((b - 2) * Real.arctan (K / a)) := by ring
    rw [e1, e2, Real.sin_neg]
    ring

/-- C26: for every cut-off scale `a > 0`, slope `b < 3` (beyond which the mass diverges) and wavenumber,
`PowerLawWithExpCut._p` is the Fourier integral of its own density over all space. -/
theorem C26_powerlaw {a b : ℝ} (ha : 0 < a) (hb : b < 3) (K : ℝ) :
    plP a b K = (1 / K) * ∫ x in Ioi (0 : ℝ), x * plF a b x * Real.sin (K * x) := by
  rw [plP_form, ← GammaTrig.sin_moment ha (by linarith) K, one_div, div_eq_inv_mul]
  congr 1
  apply setIntegral_congr_fun measurableSet_Ioi
  intro x hx
  simp only
  rw [plF_w hx]

/-- C26: hence the normalised transform is bounded by one in absolute value ... -/
theorem C26_powerlaw_bounded {a b K : ℝ} (ha : 0 < a) (hb : b < 3) (hK : 0 < K) :
    |plP a b K / plH a b| ≤ 1 := by
  have hH : 0 < plH a b := by
    unfold plH
    have := Real.Gamma_pos_of_pos (by linarith : 0 < 3 - b)
    positivity
  rw [abs_div, abs_of_pos hH, div_le_one hH, C24_powerlaw ha hb, C26_powerlaw ha hb, abs_mul,
    abs_of_pos (by positivity)]
  have hi : IntegrableOn (fun x : ℝ => x ^ 2 * plF a b x) (Ioi 0) := by
    refine (GammaTrig.w_int ha (by linarith : 0 < 2 - b + 1)).congr_fun (fun x hx => ?_) measurableSet_Ioi
    rw [← GammaTrig.w_succ hx, ← plF_w hx]; ring
  rw [one_div, inv_mul_le_iff₀ hK, ← integral_const_mul]
  refine (abs_integral_le_integral_abs (f := fun x => x * plF a b x * Real.sin (K * x))
    (μ := volume.restrict (Ioi (0:ℝ)))).trans ?_
  apply setIntegral_mono_on _ (hi.const_mul K) measurableSet_Ioi
  · intro x hx
    have hx0 : (0:ℝ) < x := hx
    rw [plF_w hx, abs_mul, abs_of_nonneg (GammaTrig.w_nonneg hx)]
    have h := GammaTrig.sin_le (K := K) hx0
    rw [abs_of_pos hK] at h
    calc _ ≤ GammaTrig.w a (2 - b) x * (K * x) := mul_le_mul_of_nonneg_left h (GammaTrig.w_nonneg hx)
      _ = K * (x ^ 2 * plF a b x) := by rw [← plF_w hx]; ring
  · have h : IntegrableOn (fun x => |GammaTrig.w a (3 - b - 1) x * Real.sin (K * x)|) (Ioi 0) :=
      (GammaTrig.ws_int ha (by linarith : 0 < 3 - b) K).abs
    refine h.congr_fun (fun x hx => ?_) measurableSet_Ioi
    simp only
    rw [plF_w hx, show 3 - b - 1 = 2 - b by ring]

/-- C26: ... and tends to one on large scales. -/
theorem C26_powerlaw_limit {a b : ℝ} (ha : 0 < a) (hb : b < 3) :
    Tendsto (fun K => plP a b K / plH a b) (𝓝[>] 0) (𝓝 1) := by
  have hH : 0 < plH a b := by
    unfold plH
    have := Real.Gamma_pos_of_pos (by linarith : 0 < 3 - b)
    positivity
  have hd := GammaTrig.sinForm_deriv ha (by linarith : -1 < 2 - b) 0
  have hv : Real.Gamma (2 - b + 1) * (a ^ 2 + 0 ^ 2) ^ (-(2 - b + 1) / 2)
      * Real.cos ((2 - b + 1) * Real.arctan (0 / a)) = plH a b := by
    have e1 : (a ^ 2 + 0 ^ 2 : ℝ) = a ^ (2 : ℝ) := by norm_num
    rw [e1, ← Real.rpow_mul ha.le]
    unfold plH
    rw [zero_div, Real.arctan_zero, mul_zero, Real.cos_zero, mul_one]
    congr 2 <;> ring
  rw [hv, hasDerivAt_iff_tendsto_slope] at hd
  have h2 : Tendsto (fun K => plP a b K) (𝓝[>] 0) (𝓝 (plH a b)) := by
    refine (hd.mono_left (nhdsWithin_mono 0 ?_)).congr ?_
    · intro x hx; exact (ne_of_gt hx)
    · intro K
      rw [plP_form, slope_def_field]
      have h0 : GammaTrig.sinForm a (2 - b) 0 = 0 := by
        unfold GammaTrig.sinForm; split_ifs <;> simp
      rw [h0, sub_zero, sub_zero]
  have h3 := h2.div_const (plH a b)
  rwa [div_self hH.ne'] at h3

/-- C26: the same for the user-facing `u` of an untruncated class built from these functions, for every
mass and positive wavenumber with a positive scale radius. -/
theorem C26_powerlaw_u {a b : ℝ} (ha : 0 < a) (hb : b < 3) (s : Shape) (hs : s.h = fun _ => plH a b)
    (e : Env) {k m : ℝ} (hk : 0 < k) (hrs : 0 < s.rs e m (s.cm e m)) :
    ∃ v, s.uInf (plP a b) e k m = .ok v ∧ |v| ≤ 1 ∧
      v = (∫ x in Ioi (0 : ℝ), x ^ 2 * plF a b x *
        (Real.sin (k * s.rs e m (s.cm e m) * x) / (k * s.rs e m (s.cm e m) * x))) /
        ∫ x in Ioi (0 : ℝ), x ^ 2 * plF a b x := by
  refine ⟨plP a b (k * s.rs e m (s.cm e m)) / plH a b, ?_, C26_powerlaw_bounded ha hb (by positivity), ?_⟩
  · unfold Shape.uInf Shape.kVars
    rw [hs]; rfl
  · rw [C24_powerlaw ha hb, C26_powerlaw ha hb, ← integral_const_mul]
    congr 1
    apply setIntegral_congr_fun measurableSet_Ioi
    intro x hx
    have hx0 : (0:ℝ) < x := hx
    simp only
    field_simp

private theorem lit_zero : (0.0 : ℝ) = 0 := by norm_num
private theorem lit_one : (1.0 : ℝ) = 1 := by norm_num

/-- C25: the three normalisations of `rho`, and the two of `lam`, describe the same halo: `norm="rho"` is
`norm=None` in units of the mean density, and `norm=None` is `norm="m"` times one and the same mass (for
`lam`, its square); this mass is the halo mass when the mean density at `z` equals the one today. -/
theorem C25_norms_consistent {s : Shape} (hs : s.Exact) {e : Env} (he : e.Good) (hb : e.etaBloat = 0) {m : ℝ}
    (hm : 0 < m) {c : Option ℝ} (hc : ∀ v, c = some v → 0 < v) (l : ℝ → ℝ → ℝ) :
    ∃ M, 0 < M ∧ (e.meanDens = e.meanDens0 → M = m) ∧ ∀ r, ∃ v w,
      s.rho e r m .m c = .ok v ∧ s.rho e r m .none c = .ok (M * v) ∧
      s.rho e r m .rho c = .ok (M * v / e.meanDens) ∧
      s.lam (some l) e r m .m c = .ok w ∧ s.lam (some l) e r m .none c = .ok (M ^ 2 * w) := by
  have hR := (C23_overdensity he false hm).1
  have hcp := conc_pos hs he hm hc
  have hM := massInt_pos hs hcp
  have hpi := Real.pi_pos
  have hd0 := he.dens0_pos
  have hd := he.dens_pos
  have hdl := he.delta_pos
  have h3 := C23_mass_radius_mass he false hm.le
  simp only [Env.radiusToMass, Bool.false_eq_true, if_false] at h3
  refine ⟨m * (e.meanDens / e.meanDens0), by positivity, fun h => ?_, fun r => ?_⟩
  · rw [h, div_self hd0.ne', mul_one]
  have r1 : s.rho e r m .m c = .ok (if s.conc e m c < r / s.rs e m (s.conc e m c) then 0.0 else
      s.f (r / s.rs e m (s.conc e m c)) * (1.0 / (4 * Real.pi *
        (s.rs e m (s.conc e m c)) ^ 3 * s.h (s.conc e m c)))) := rfl
  have r2 : s.rho e r m .none c = .ok (if s.conc e m c < r / s.rs e m (s.conc e m c) then 0.0 else
      s.f (r / s.rs e m (s.conc e m c)) *
        (s.conc e m c ^ 3 * e.deltaHalo * e.meanDens / (3 * s.h (s.conc e m c)))) := rfl
  have r3 : s.rho e r m .rho c = .ok (if s.conc e m c < r / s.rs e m (s.conc e m c) then 0.0 else
      s.f (r / s.rs e m (s.conc e m c)) *
        (s.conc e m c ^ 3 * e.deltaHalo / (3 * s.h (s.conc e m c)))) := rfl
  have l1 : s.lam (some l) e r m .m c = .ok (l (r / s.rs e m (s.conc e m c)) (s.conc e m c) *
      s.rs e m (s.conc e m c) ^ 3 * (1.0 / (4 * Real.pi *
        (s.rs e m (s.conc e m c)) ^ 3 * s.h (s.conc e m c))) ^ 2) := rfl
  have l2 : s.lam (some l) e r m .none c = .ok (l (r / s.rs e m (s.conc e m c)) (s.conc e m c) *
      s.rs e m (s.conc e m c) ^ 3 *
        (s.conc e m c ^ 3 * e.deltaHalo * e.meanDens / (3 * s.h (s.conc e m c))) ^ 2) := rfl
  rw [lit_zero, lit_one] at r1
  rw [lit_zero] at r2 r3
  rw [lit_one] at l1
  have key : s.conc e m c ^ 3 * e.deltaHalo * e.meanDens / (3 * s.h (s.conc e m c))
      = m * (e.meanDens / e.meanDens0) * (1 / (4 * Real.pi *
        (s.rs e m (s.conc e m c)) ^ 3 * s.h (s.conc e m c))) := by
    have hrs := rs_eq hs hb (e := e) (m := m) (c := s.conc e m c)
    rw [hrs, hs.mass _ hcp]
    generalize s.conc e m c = c at *
    generalize e.massToRadius m = R at *
    have hm' : m = 4 * Real.pi * R ^ 3 * e.deltaHalo * e.meanDens0 / 3 := h3.symm
    rw [hm']
    field_simp
  have key2 : s.conc e m c ^ 3 * e.deltaHalo / (3 * s.h (s.conc e m c))
      = (s.conc e m c ^ 3 * e.deltaHalo * e.meanDens / (3 * s.h (s.conc e m c))) / e.meanDens := by
    field_simp
  refine ⟨_, _, r1, ?_, ?_, l1, ?_⟩
  · rw [r2, key]
    split_ifs
    · rw [mul_zero]
    · congr 1; ring
  · rw [r3, key2, key]
    split_ifs
    · rw [mul_zero, zero_div]
    · congr 1; ring
  · rw [l2, key]; congr 1; ring

/-- C25: in units of the scale radius (`coord="x"`) an array of radii works with a single mass given as a
one-element array or with as many masses as radii, paired element by element; with any other number of
masses it raises. -/
theorem C25_shape_x (n k : ℕ) (hn : 1 < n) :
    rhoShape (xShape [n] [k] .x) (xShape [n] [k] .x) [k]
      = if k = 1 ∨ k = n then .ok [n] else .error .valueError := by
  have hn1 : n ≠ 1 := by omega
  by_cases h1 : k = 1
  · subst h1; simp [rhoShape, xShape, broadcastRev, hn1]
  · by_cases h2 : k = n
    · subst h2; simp [rhoShape, xShape, broadcastRev]
    · have h3 : ¬ n = k := fun h => h2 h.symm
      simp [rhoShape, xShape, broadcastRev, hn1, h1, h2, h3]

/-- the default parameters qualify. -/
example : (0:ℝ) < 0.049 ∧ (2.248:ℝ) < 3 := by norm_num

end Halomod.Profiles
