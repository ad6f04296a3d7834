import Verif.Model.Bias
import Verif.Spec.Bias
import Mathlib.Analysis.SpecialFunctions.Pow.Deriv
import Mathlib.Analysis.SpecialFunctions.ExpDeriv
import Mathlib.Analysis.SpecialFunctions.Sqrt
import Mathlib.Tactic

/-! # C33-C35: halo bias -/
namespace Halomod.Bias

open Set MeasureTheory Filter Topology

/-! ## C33: peak-background split -/

/-- one Gaussian-damped power. -/
noncomputable def gp (b s x : ℝ) : ℝ := x ^ s * Real.exp (-b * x ^ 2)

theorem gp_deriv (b s : ℝ) {x : ℝ} (hx : 0 < x) :
    HasDerivAt (gp b s) (s * gp b (s - 1) x - 2 * b * gp b (s + 1) x) x := by
  unfold gp
  have h1 := Real.hasDerivAt_rpow_const (x := x) (p := s) (Or.inl hx.ne')
  have h2 : HasDerivAt (fun x : ℝ => Real.exp (-b * x ^ 2)) (Real.exp (-b * x ^ 2) * (-b * (2 * x))) x := by
    have := ((hasDerivAt_pow 2 x).const_mul (-b)).exp
    simpa using this
  refine (h1.fun_mul h2).congr_deriv ?_
  rw [Real.rpow_add_one hx.ne']; ring

theorem gp_tendsto {b : ℝ} (hb : 0 < b) (s : ℝ) : Tendsto (gp b s) atTop (𝓝 0) := by
  have h := rpow_mul_exp_neg_mul_sq_isLittleO_exp_neg hb s
  apply h.trans_tendsto
  have : Tendsto (fun x : ℝ => (1 / 2 : ℝ) * x) atTop atTop := tendsto_id.const_mul_atTop (by norm_num)
  simpa [Function.comp_def] using (Real.tendsto_exp_neg_atTop_nhds_zero.comp this)

theorem gp_integral {b s : ℝ} (hb : 0 < b) (hs : 0 < s) :
    IntegrableOn (fun x => s * gp b (s - 1) x - 2 * b * gp b (s + 1) x) (Ioi 0) ∧
    ∫ x in Ioi 0, (s * gp b (s - 1) x - 2 * b * gp b (s + 1) x) = 0 := by
  have hi : IntegrableOn (fun x => s * gp b (s - 1) x - 2 * b * gp b (s + 1) x) (Ioi 0) :=
    ((integrableOn_rpow_mul_exp_neg_mul_sq hb (by linarith)).const_mul s).sub
      ((integrableOn_rpow_mul_exp_neg_mul_sq hb (by linarith)).const_mul (2 * b))
  refine ⟨hi, ?_⟩
  rw [integral_Ioi_of_hasDerivAt_of_tendsto (f := gp b s) (m := 0) _
    (fun x hx => gp_deriv b s hx) hi (gp_tendsto hb s)]
  · simp [gp, Real.zero_rpow hs.ne']
  · have : Continuous (gp b s) := by
      unfold gp
      exact (Real.continuous_rpow_const hs.le).mul (by fun_prop)
    exact this.continuousWithinAt

/-- A bias obeying the peak-background split for an abundance that is a sum of two damped positive powers is
unbiased overall. -/
theorem unbiased_of_pbs {f bias : ℝ → ℝ} {dc A B b s t : ℝ} (hdc : dc ≠ 0) (hb : 0 < b) (hs : 0 < s)
    (ht : 0 < t) (hf : ∀ x, 0 < x → f x = A * gp b s x + B * gp b t x)
    (hp : PeakBackgroundSplit dc f bias) : Unbiased f bias := by
  have hg : ∀ x, 0 < x → HasDerivAt f (A * (s * gp b (s - 1) x - 2 * b * gp b (s + 1) x) +
      B * (t * gp b (t - 1) x - 2 * b * gp b (t + 1) x)) x := by
    intro x hx
    have h := ((gp_deriv b s hx).const_mul A).add ((gp_deriv b t hx).const_mul B)
    apply h.congr_of_eventuallyEq
    filter_upwards [lt_mem_nhds hx] with y hy
    exact hf y hy
  have hfx : ∀ x ∈ Ioi (0 : ℝ), f x / x = A * gp b (s - 1) x + B * gp b (t - 1) x := by
    intro x hx
    have hx : 0 < x := hx
    rw [hf x hx]
    have e : ∀ r, gp b r x = gp b (r - 1) x * x := by
      intro r; unfold gp; rw [Real.rpow_sub_one hx.ne']; field_simp
    rw [e s, e t]; field_simp
  have hbx : ∀ x ∈ Ioi (0 : ℝ), bias (x ^ 2) * (f x / x) = (A * gp b (s - 1) x + B * gp b (t - 1) x) -
      (1 / dc) * (A * (s * gp b (s - 1) x - 2 * b * gp b (s + 1) x) +
      B * (t * gp b (t - 1) x - 2 * b * gp b (t + 1) x)) := by
    intro x hx
    have hx' : 0 < x := hx
    obtain ⟨f', hf', he⟩ := hp x hx'
    rw [← hfx x hx, ← hf'.unique (hg x hx')]
    have h2 : f' = -(dc * (bias (x ^ 2) - 1)) * f x / x := by
      rw [eq_div_iff hx'.ne', mul_comm]; exact he
    rw [h2]; field_simp; ring
  have i1 : IntegrableOn (fun x => A * gp b (s - 1) x + B * gp b (t - 1) x) (Ioi 0) :=
    ((integrableOn_rpow_mul_exp_neg_mul_sq hb (by linarith)).const_mul A).add
      ((integrableOn_rpow_mul_exp_neg_mul_sq hb (by linarith)).const_mul B)
  obtain ⟨j1, z1⟩ := gp_integral hb hs
  obtain ⟨j2, z2⟩ := gp_integral hb ht
  have i2 : IntegrableOn (fun x => (1 / dc) * (A * (s * gp b (s - 1) x - 2 * b * gp b (s + 1) x) +
      B * (t * gp b (t - 1) x - 2 * b * gp b (t + 1) x))) (Ioi 0) :=
    ((j1.const_mul A).add (j2.const_mul B)).const_mul _
  refine ⟨i1.congr_fun (fun x hx => (hfx x hx).symm) measurableSet_Ioi,
    (i1.sub i2).congr_fun (fun x hx => (hbx x hx).symm) measurableSet_Ioi, ?_⟩
  rw [setIntegral_congr_fun measurableSet_Ioi hbx, setIntegral_congr_fun measurableSet_Ioi hfx,
    integral_sub i1 i2, integral_const_mul, integral_add (j1.const_mul A) (j2.const_mul B),
    integral_const_mul, integral_const_mul, z1, z2]
  ring

/-- derivative of an abundance of that form. -/
theorem pbs_of_form {f bias : ℝ → ℝ} {dc A B b s t : ℝ}
    (hf : ∀ x, 0 < x → f x = A * gp b s x + B * gp b t x)
    (h : ∀ x, 0 < x → A * gp b s x * (s - 2 * b * x ^ 2) + B * gp b t x * (t - 2 * b * x ^ 2) =
      -(dc * (bias (x ^ 2) - 1)) * (A * gp b s x + B * gp b t x)) : PeakBackgroundSplit dc f bias := by
  intro x hx
  refine ⟨_, (((gp_deriv b s hx).const_mul A).add ((gp_deriv b t hx).const_mul B)).congr_of_eventuallyEq
    (by filter_upwards [lt_mem_nhds hx] with y hy using hf y hy), ?_⟩
  rw [hf x hx, ← h x hx]
  have e : ∀ r, gp b (r - 1) x * x = gp b r x := by
    intro r; unfold gp; rw [Real.rpow_sub_one hx.ne']; field_simp
  have e' : ∀ r, gp b (r + 1) x = gp b r x * x := by
    intro r; unfold gp; rw [Real.rpow_add_one hx.ne']; ring
  rw [e' s, e' t]
  linear_combination A * s * e s + B * t * e t

theorem psF_form (x : ℝ) (_hx : 0 < x) : psF x = Real.sqrt (2 / Real.pi) * gp (1 / 2) 1 x + 0 * gp (1 / 2) 1 x := by
  unfold psF gp
  rw [Real.rpow_one]
  have : -(1 / 2 : ℝ) * x ^ 2 = -x ^ 2 / 2 := by ring
  rw [this]; ring

/-- C33: `Mo96` is the peak-background-split bias of the Press-Schechter abundance, and matter is unbiased. -/
theorem C33_mo96 {dc : ℝ} (hdc : dc ≠ 0) :
    PeakBackgroundSplit dc psF (mo96 dc) ∧ Unbiased psF (mo96 dc) := by
  have h : PeakBackgroundSplit dc psF (mo96 dc) := by
    apply pbs_of_form psF_form
    intro x _
    unfold mo96; field_simp; ring
  exact ⟨h, unbiased_of_pbs hdc (by norm_num) one_pos one_pos psF_form h⟩

/-- C33: unit bias is unbiased with any integrable abundance. -/
theorem C33_unity {f : ℝ → ℝ} (hf : IntegrableOn (fun x => f x / x) (Ioi 0)) : Unbiased f unity := by
  refine ⟨hf, ?_, ?_⟩ <;> simp only [unity, one_mul]
  exact hf

/-- C33: the Press-Schechter abundance puts all mass in haloes, so the mean bias of `Mo96` is one. -/
theorem C33_mo96_mean {dc : ℝ} (hdc : dc ≠ 0) : ∫ x in Ioi 0, mo96 dc (x ^ 2) * (psF x / x) = 1 := by
  rw [(C33_mo96 hdc).2.2.2]
  have e : ∀ x ∈ Ioi (0 : ℝ), psF x / x = Real.sqrt (2 / Real.pi) * Real.exp (-(1 / 2) * x ^ 2) := by
    intro x hx
    have hx : x ≠ 0 := ne_of_gt hx
    unfold psF
    have : -(1 / 2 : ℝ) * x ^ 2 = -x ^ 2 / 2 := by ring
    rw [this]; field_simp
  rw [setIntegral_congr_fun measurableSet_Ioi e, integral_const_mul, integral_gaussian_Ioi]
  have h2 : Real.pi / (1 / 2) = (2 / Real.pi)⁻¹ * 4 := by
    rw [inv_div]; ring
  rw [h2, Real.sqrt_mul (by positivity), Real.sqrt_inv]
  have h4 : Real.sqrt 4 = 2 := by
    rw [show (4 : ℝ) = 2 ^ 2 by norm_num]; exact Real.sqrt_sq (by norm_num)
  have h5 : Real.sqrt (2 / Real.pi) ≠ 0 := by positivity
  rw [h4]; field_simp

theorem stF_form {A q p : ℝ} (hq : 0 < q) (x : ℝ) (hx : 0 < x) :
    stF A q p x = (A * Real.sqrt (2 * q / Real.pi)) * gp (q / 2) 1 x +
      (A * Real.sqrt (2 * q / Real.pi) * q ^ (-p)) * gp (q / 2) (1 - 2 * p) x := by
  unfold stF gp
  have e1 : (q * x ^ 2) ^ (-p) = q ^ (-p) * x ^ (-(2 * p)) := by
    rw [Real.mul_rpow hq.le (by positivity), ← Real.rpow_natCast, ← Real.rpow_mul hx.le]
    congr 2; push_cast; ring
  have e2 : x ^ (1 - 2 * p) = x * x ^ (-(2 * p)) := by
    rw [sub_eq_add_neg, Real.rpow_add hx, Real.rpow_one]
  have e3 : -q * x ^ 2 / 2 = -(q / 2) * x ^ 2 := by ring
  rw [e1, e2, e3, Real.rpow_one]; ring

/-- C33: `ST99` (and with other parameter values `Mandelbaum05` and `Manera10`) is the peak-background-split bias of
the Sheth-Tormen abundance with the same `q`, `p`, and matter is unbiased. -/
theorem C33_st99 {A q p dc : ℝ} (hdc : dc ≠ 0) (hq : 0 < q) (hp : p < 1 / 2) :
    PeakBackgroundSplit dc (stF A q p) (st99 q p dc) ∧ Unbiased (stF A q p) (st99 q p dc) := by
  have h : PeakBackgroundSplit dc (stF A q p) (st99 q p dc) := by
    apply pbs_of_form (stF_form hq)
    intro x hx
    unfold st99
    have e1 : (q * x ^ 2) ^ p = q ^ p * x ^ (2 * p) := by
      rw [Real.mul_rpow hq.le (by positivity), ← Real.rpow_natCast, ← Real.rpow_mul hx.le]
      push_cast; rfl
    have e2 : gp (q / 2) (1 - 2 * p) x * x ^ (2 * p) = gp (q / 2) 1 x := by
      unfold gp
      rw [mul_right_comm, ← Real.rpow_add hx]
      congr 2; ring
    rw [e1, ← e2]
    have h3 : q ^ (-p) = (q ^ p)⁻¹ := Real.rpow_neg hq.le p
    rw [h3]
    have h4 : 0 < q ^ p := by positivity
    have h5 : 0 < x ^ (2 * p) := by positivity
    have h6 : 1 + q ^ p * x ^ (2 * p) ≠ 0 := by positivity
    generalize q ^ p = Q at *
    generalize x ^ (2 * p) = X at *
    generalize gp (q / 2) (1 - 2 * p) x = G
    generalize Real.sqrt (2 * q / Real.pi) = S
    obtain ⟨D, hD⟩ : ∃ D, 1 + Q * X = D := ⟨_, rfl⟩
    rw [hD] at h6 ⊢
    field_simp
    have hQX : Q * X = D - 1 := by linarith
    linear_combination (2 * p * S * A * G) * hQX
  exact ⟨h, unbiased_of_pbs hdc (by positivity) one_pos (by linarith) (stF_form hq) h⟩

/-- non-vacuity: the three default parameter pairs. -/
example : Unbiased (stF 0.3222 0.707 0.3) (st99 0.707 0.3 1.686) ∧
    Unbiased (stF 1 0.73 0.15) (st99 0.73 0.15 1.686) ∧
    Unbiased (stF 1 0.709 0.248) (st99 0.709 0.248 1.686) :=
  ⟨(C33_st99 (by norm_num) (by norm_num) (by norm_num)).2,
   (C33_st99 (by norm_num) (by norm_num) (by norm_num)).2,
   (C33_st99 (by norm_num) (by norm_num) (by norm_num)).2⟩

theorem tkF_form {α β γ φ η : ℝ} (hβ : 0 < β) (x : ℝ) (hx : 0 < x) :
    tkF α β γ φ η x = α * gp (γ / 2) (1 + 2 * η) x +
      (α * β ^ (-2 * φ)) * gp (γ / 2) (1 + 2 * η - 2 * φ) x := by
  unfold tkF gp
  have e1 : (β * x) ^ (-2 * φ) = β ^ (-2 * φ) * x ^ (-2 * φ) := Real.mul_rpow hβ.le hx.le
  have e2 : x ^ (1 + 2 * η) = x * x ^ (2 * η) := by rw [Real.rpow_add hx, Real.rpow_one]
  have e3 : x ^ (1 + 2 * η - 2 * φ) = x * x ^ (2 * η) * x ^ (-2 * φ) := by
    rw [← e2, ← Real.rpow_add hx]; congr 1; ring
  have e4 : -γ * x ^ 2 / 2 = -(γ / 2) * x ^ 2 := by ring
  rw [e1, e2, e3, e4]; ring

/-- C33: `Tinker10PBSplit` is the peak-background-split bias of the Tinker abundance with the same parameters, and
matter is unbiased. -/
theorem C33_tinkerPB {α dc : ℝ} (r : TkRow) (hdc : dc ≠ 0) (hβ : 0 < r.beta) (hγ : 0 < r.gamma)
    (hη : -1 / 2 < r.eta) (hφ : r.phi < 1 / 2 + r.eta) :
    PeakBackgroundSplit dc (tkF α r.beta r.gamma r.phi r.eta) (tinkerPB r dc) ∧
    Unbiased (tkF α r.beta r.gamma r.phi r.eta) (tinkerPB r dc) := by
  obtain ⟨β, γ, φ, η⟩ := r
  simp only at hβ hγ hη hφ ⊢
  have h : PeakBackgroundSplit dc (tkF α β γ φ η) (tinkerPB ⟨β, γ, φ, η⟩ dc) := by
    apply pbs_of_form (tkF_form hβ)
    intro x hx
    simp only [tinkerPB]
    have e1 : (β ^ 2 * x ^ 2) ^ φ = β ^ (2 * φ) * x ^ (2 * φ) := by
      rw [← mul_pow, ← Real.rpow_natCast, ← Real.rpow_mul (by positivity), Real.mul_rpow hβ.le hx.le]
      push_cast; rfl
    have e2 : gp (γ / 2) (1 + 2 * η - 2 * φ) x * x ^ (2 * φ) = gp (γ / 2) (1 + 2 * η) x := by
      unfold gp
      rw [mul_right_comm, ← Real.rpow_add hx]
      congr 2; ring
    rw [e1, ← e2]
    have h3 : β ^ (-2 * φ) = (β ^ (2 * φ))⁻¹ := by rw [← Real.rpow_neg hβ.le]; congr 1; ring
    rw [h3]
    have h4 : 0 < β ^ (2 * φ) := by positivity
    have h5 : 0 < x ^ (2 * φ) := by positivity
    have h6 : 1 + β ^ (2 * φ) * x ^ (2 * φ) ≠ 0 := by positivity
    generalize β ^ (2 * φ) = Q at *
    generalize x ^ (2 * φ) = X at *
    generalize gp (γ / 2) (1 + 2 * η - 2 * φ) x = G
    obtain ⟨D, hD⟩ : ∃ D, 1 + Q * X = D := ⟨_, rfl⟩
    rw [hD] at h6 ⊢
    field_simp
    have hQX : Q * X = D - 1 := by linarith
    linear_combination (2 * φ * α * G) * hQX
  exact ⟨h, unbiased_of_pbs hdc (by positivity) (by linarith) (by linarith) (tkF_form hβ) h⟩

/-- every tabulated row. -/
theorem tkRow_bounds {d : ℝ} {r : TkRow} (h : tkRow d = some r) :
    0 < r.beta ∧ 0 < r.gamma ∧ r.phi ≤ -0.729 ∧ -0.336 ≤ r.eta ∧ r.eta ≤ -0.243 := by
  unfold tkRow at h
  split_ifs at h <;> (cases h; norm_num)

/-- C33: with its default parameters `Tinker10PBSplit` is consistent at every tabulated overdensity and every
redshift (because the evolution is capped at `max_z = 3`, the abundance stays normalisable). -/
theorem C33_tinkerPB_default {α dc d z : ℝ} {r : TkRow} (hdc : dc ≠ 0) (h : tkRow d = some r) (hz : 0 ≤ z)
    (spl : ℝ → TkRow) :
    Unbiased (tkF α (tkEvolve r {} z).beta (tkEvolve r {} z).gamma (tkEvolve r {} z).phi
      (tkEvolve r {} z).eta) (tinker10PBSplit spl {} d z dc) := by
  obtain ⟨h1, h2, h3, h4, h5⟩ := tkRow_bounds h
  have e : tinker10PBSplit spl {} d z dc = tinkerPB (tkEvolve r {} z) dc := by
    funext nu; simp [tinker10PBSplit, h]
  rw [e]
  have hw : 1 ≤ 1 + min z 3 := by
    have : 0 ≤ min z 3 := le_min hz (by norm_num)
    linarith
  have hw0 : 0 < 1 + min z 3 := by linarith
  have hw4 : 1 + min z 3 ≤ 4 := by
    have := min_le_right z 3
    linarith
  have heta : (1 + min z 3) ^ (0.27 : ℝ) ≤ 1.488 := by
    calc (1 + min z 3) ^ (0.27 : ℝ) ≤ 4 ^ (0.27 : ℝ) := Real.rpow_le_rpow hw0.le hw4 (by norm_num)
      _ ≤ 1.488 := by
        have h : ((4 : ℝ) ^ (0.27 : ℝ)) ^ (100 : ℕ) ≤ (1.488 : ℝ) ^ (100 : ℕ) := by
          rw [← Real.rpow_natCast, ← Real.rpow_mul (by norm_num)]
          have : (0.27 : ℝ) * ((100 : ℕ) : ℝ) = ((27 : ℕ) : ℝ) := by norm_num
          rw [this, Real.rpow_natCast]; norm_num
        exact le_of_pow_le_pow_left₀ (by norm_num) (by norm_num) h
  have heta0 : 0 < (1 + min z 3) ^ (0.27 : ℝ) := by positivity
  have hphi : (1 + min z 3) ^ (-0.08 : ℝ) > 0 := by positivity
  refine (C33_tinkerPB (α := α) (tkEvolve r {} z) hdc ?_ ?_ ?_ ?_).2
  · simp only [tkEvolve]; positivity
  · simp only [tkEvolve]; positivity
  · simp only [tkEvolve]; nlinarith
  · simp only [tkEvolve]
    have a : r.phi * (1 + min z 3) ^ (-0.08 : ℝ) < 0 := mul_neg_of_neg_of_pos (by linarith) hphi
    nlinarith

/-- non-vacuity: overdensity 200. -/
example : ∃ r, tkRow 200 = some r := ⟨_, by simp [tkRow]; rfl⟩

/-- C33: the bias stops evolving beyond `max_z`. -/
theorem C33_tinkerPB_saturates (spl : ℝ → TkRow) (x : TkExp) (d dc nu : ℝ) {z z' : ℝ} (h : x.max_z ≤ z)
    (h' : x.max_z ≤ z') : tinker10PBSplit spl x d z dc nu = tinker10PBSplit spl x d z' dc nu := by
  simp only [tinker10PBSplit, tkEvolve, min_eq_right h, min_eq_right h']

/-! ## C34: shape of the bias functions -/

/-- C34: `Mo96`: unbiased at unit peak height, strictly increasing, positive for `delta_c >= 1`. -/
theorem C34_mo96 {dc : ℝ} (hdc : 0 < dc) :
    mo96 dc 1 = 1 ∧ StrictMono (mo96 dc) ∧ (1 ≤ dc → ∀ nu, 0 < nu → 0 < mo96 dc nu) ∧
    (∀ nu, mo96 dc nu < 1 ↔ nu < 1) := by
  refine ⟨by simp [mo96], ?_, ?_, ?_⟩
  · intro a b hab
    unfold mo96
    have : (a - 1) / dc < (b - 1) / dc := div_lt_div_of_pos_right (by linarith) hdc
    linarith
  · intro h1 nu hnu
    unfold mo96
    have e : 1 + (nu - 1) / dc = (dc - 1 + nu) / dc := by field_simp; ring
    rw [e]; apply div_pos _ hdc; linarith
  · intro nu
    unfold mo96
    constructor
    · intro h
      by_contra hc
      have : 0 ≤ (nu - 1) / dc := div_nonneg (by linarith) hdc.le
      linarith
    · intro h
      have : (nu - 1) / dc < 0 := div_neg_of_neg_of_pos (by linarith) hdc
      linarith

/-- C34: `ST99` with `p = 0`, `q = 1` is `Mo96`; for `p >= 0` it is at least `1 - 1/delta_c` plus the `Mo96`-like
term, hence positive when `delta_c >= 1`; and it stays within `2p/delta_c` of its large-mass asymptote. -/
theorem C34_st99 {q p dc nu : ℝ} (hdc : 0 < dc) (hq : 0 < q) (hp : 0 ≤ p) (hnu : 0 < nu) :
    st99 1 0 dc nu = mo96 dc nu ∧
    mo96 dc (q * nu) ≤ st99 q p dc nu ∧ st99 q p dc nu ≤ mo96 dc (q * nu) + 2 * p / dc ∧
    (1 ≤ dc → 0 < st99 q p dc nu) := by
  have hx : 0 < (q * nu) ^ p := by positivity
  have h0 : 0 ≤ 2 * p / dc / (1 + (q * nu) ^ p) := by positivity
  have h1 : 2 * p / dc / (1 + (q * nu) ^ p) ≤ 2 * p / dc :=
    div_le_self (by positivity) (by linarith)
  have e : st99 q p dc nu = mo96 dc (q * nu) + 2 * p / dc / (1 + (q * nu) ^ p) := by
    simp [st99, mo96]
  refine ⟨by simp [st99, mo96], by rw [e]; linarith, by rw [e]; linarith, ?_⟩
  intro h
  have := (C34_mo96 hdc).2.2.1 h (q * nu) (by positivity)
  rw [e]; linarith

/-- C34: for `p > 0` the small-mass limit of the `ST99` bias is `1 + (2p-1)/delta_c`. -/
theorem C34_st99_limit {q p dc : ℝ} (hp : 0 < p) :
    Tendsto (st99 q p dc) (𝓝[>] 0) (𝓝 (1 + (2 * p - 1) / dc)) := by
  have hc : Continuous (st99 q p dc) ∨ ContinuousAt (st99 q p dc) 0 := by
    right
    unfold st99
    have h1 : ContinuousAt (fun nu : ℝ => (q * nu) ^ p) 0 :=
      ContinuousAt.rpow_const (by fun_prop) (Or.inr hp.le)
    have h2 : (1 : ℝ) + (q * 0) ^ p ≠ 0 := by simp [Real.zero_rpow hp.ne']
    have h3 : ContinuousAt (fun nu : ℝ => 2 * p / dc / (1 + (q * nu) ^ p)) 0 :=
      continuousAt_const.div (continuousAt_const.add h1) h2
    have h4 : ContinuousAt (fun nu : ℝ => 1 + (q * nu - 1) / dc) 0 := by fun_prop
    exact h4.add h3
  have hc : ContinuousAt (st99 q p dc) 0 := hc.elim (fun h => h.continuousAt) id
  have := hc.tendsto.mono_left (nhdsWithin_le_nhds (s := Ioi 0))
  have e : st99 q p dc 0 = 1 + (2 * p - 1) / dc := by
    simp [st99, Real.zero_rpow hp.ne']; ring
  rwa [e] at this

/-- C34: and for `0 < p < 1` (the defaults included) `ST99` is *not* increasing: somewhere it is below that limit. -/
theorem C34_st99_not_monotone {q p dc : ℝ} (hq : 0 < q) (hp : 0 < p) (hp1 : p < 1) (hdc : 0 < dc) :
    (∃ nu, 0 < nu ∧ st99 q p dc nu < 1 + (2 * p - 1) / dc) ∧ ¬ MonotoneOn (st99 q p dc) (Ioi 0) := by
  have hex : ∃ nu, 0 < nu ∧ st99 q p dc nu < 1 + (2 * p - 1) / dc := by
    obtain ⟨x, hx⟩ : ∃ x, p ^ (1 / (1 - p)) = x := ⟨_, rfl⟩
    have h1p : 0 < 1 - p := by linarith
    have hx0 : 0 < x := by rw [← hx]; positivity
    have hx1 : x < 1 := by rw [← hx]; exact Real.rpow_lt_one hp.le hp1 (by positivity)
    have hxp : x ^ (1 - p) = p := by
      rw [← hx, ← Real.rpow_mul hp.le, one_div, inv_mul_cancel₀ h1p.ne', Real.rpow_one]
    have hxx : x = p * x ^ p := by
      calc x = x ^ ((1 - p) + p) := by rw [sub_add_cancel, Real.rpow_one]
        _ = x ^ (1 - p) * x ^ p := Real.rpow_add hx0 _ _
        _ = p * x ^ p := by rw [hxp]
    have hxp1 : x ^ p < 1 := Real.rpow_lt_one hx0.le hx1 hp
    have hxp0 : 0 < x ^ p := by positivity
    refine ⟨x / q, by positivity, ?_⟩
    unfold st99
    rw [mul_div_cancel₀ _ hq.ne']
    have key : x - 1 + 2 * p / (1 + x ^ p) < 2 * p - 1 := by
      have : 2 * p / (1 + x ^ p) < 2 * p - x := by
        rw [div_lt_iff₀ (by positivity)]
        have : x * (1 + x ^ p) < 2 * p * x ^ p := by
          conv_lhs => rw [hxx]
          have hc : (p * x ^ p) ^ p = x ^ p := by rw [← hxx]
          rw [hc]
          nlinarith [mul_pos hp hxp0]
        linarith
      linarith
    have e : 2 * p / dc / (1 + x ^ p) = 2 * p / (1 + x ^ p) / dc := by
      rw [div_div, div_div, mul_comm dc]
    have e2 : 1 + (x - 1) / dc + 2 * p / dc / (1 + x ^ p) = 1 + (x - 1 + 2 * p / (1 + x ^ p)) / dc := by
      rw [e]; ring
    rw [e2]
    have := div_lt_div_of_pos_right key hdc
    linarith
  refine ⟨hex, fun hm => ?_⟩
  obtain ⟨nu, hnu, h⟩ := hex
  have hl := C34_st99_limit (q := q) (dc := dc) hp
  have := le_of_tendsto hl (b := st99 q p dc nu) (by
    filter_upwards [Ioo_mem_nhdsGT hnu] with y hy
    exact hm hy.1 hnu hy.2.le)
  linarith

/-- C34: `Jing98` is positive for `delta_c >= 1`, `a >= 0`, whatever the exponents; it exceeds `Mo96` where the exponent is
non-negative, and it is `Mo96` for exponent 0 or `a = 0`. -/
theorem C34_jing98 {a b c neff dc nu : ℝ} (ha : 0 ≤ a) (hdc : 1 ≤ dc) (hnu : 0 < nu) :
    0 < jing98 a b c neff dc nu ∧ (0 ≤ b - c * neff → mo96 dc nu ≤ jing98 a b c neff dc nu) ∧
    (b = c * neff → jing98 a b c neff dc nu = mo96 dc nu) := by
  have hm := (C34_mo96 (by linarith : 0 < dc)).2.2.1 hdc nu hnu
  have h1 : 1 ≤ a / nu ^ 2 + 1 := by
    have : 0 ≤ a / nu ^ 2 := by positivity
    linarith
  have e : jing98 a b c neff dc nu = (a / nu ^ 2 + 1) ^ (b - c * neff) * mo96 dc nu := rfl
  rw [e]
  refine ⟨by positivity, fun h => ?_, fun h => ?_⟩
  · have := Real.one_le_rpow h1 h
    nlinarith
  · rw [h, sub_self, Real.rpow_zero, one_mul]

/-- C34: `SMT01`/`Tinker05`: positive whenever `delta_c sqrt(a) >= 1` (true of the defaults), `b >= 0`, `c <= 1`. -/
theorem C34_smt01 {a b c dc nu : ℝ} (ha : 0 < a) (hb : 0 ≤ b) (hc : c ≤ 1) (hdc : 1 ≤ dc * Real.sqrt a)
    (hnu : 0 < nu) : 0 < smt01 a b c dc nu := by
  unfold smt01
  have hsa : 0 < Real.sqrt a := Real.sqrt_pos.2 ha
  have hx : 0 < (a * nu) ^ c := by positivity
  have hk : 0 ≤ b * (1 - c) * (1 - c / 2) :=
    mul_nonneg (mul_nonneg hb (by linarith)) (by linarith)
  have hw : (a * nu) ^ c / ((a * nu) ^ c + b * (1 - c) * (1 - c / 2)) ≤ 1 := by
    rw [div_le_one (by linarith)]; linarith
  have h1 : 0 < Real.sqrt a * (a * nu) := by positivity
  have h2 : 0 ≤ Real.sqrt a * b * (a * nu) ^ (1 - c) := by positivity
  have hd : 0 < dc * Real.sqrt a := by linarith
  simp only
  have : -1 < (Real.sqrt a * (a * nu) + Real.sqrt a * b * (a * nu) ^ (1 - c)
    - (a * nu) ^ c / ((a * nu) ^ c + b * (1 - c) * (1 - c / 2))) / (dc * Real.sqrt a) := by
    rw [lt_div_iff₀ hd]; linarith
  linarith

/-- C34: at large peak height `SMT01` with `b = 0` is the rescaled `Mo96`. -/
theorem C34_smt01_mo96 {a c dc nu : ℝ} (ha : 0 < a) (hnu : 0 < nu) :
    smt01 a 0 c dc nu = 1 + (a * nu - 1 / Real.sqrt a) / dc := by
  have hsa : 0 < Real.sqrt a := Real.sqrt_pos.2 ha
  have hx : (a * nu) ^ c ≠ 0 := by positivity
  unfold smt01
  simp only [mul_zero, zero_mul, add_zero, div_self hx]
  congr 1
  rw [mul_comm dc, ← div_div]
  congr 1
  field_simp

/-- non-vacuity: both default parameter sets satisfy the hypotheses. -/
example (nu : ℝ) (h : 0 < nu) : 0 < smt01 0.707 0.5 0.6 1.686 nu ∧ 0 < smt01 0.707 0.35 0.8 1.686 nu := by
  have : (0.8 : ℝ) ≤ Real.sqrt 0.707 := Real.le_sqrt_of_sq_le (by norm_num)
  exact ⟨C34_smt01 (by norm_num) (by norm_num) (by norm_num) (by linarith) h,
    C34_smt01 (by norm_num) (by norm_num) (by norm_num) (by linarith) h⟩

/-- C34: `Pillepich10` is positive at every peak height with its default parameters (its discriminant is negative), and
in general exactly when `B1^2 < 4 B0 B2` guarantees it. -/
theorem C34_pillepich {B0 B1 B2 nu : ℝ} (hnu : 0 ≤ nu) (h2 : 0 < B2) (hd : B1 ^ 2 < 4 * B0 * B2) :
    0 < pillepich10 B0 B1 B2 nu := by
  unfold pillepich10
  obtain ⟨s, hs⟩ : ∃ s, Real.sqrt nu = s := ⟨_, rfl⟩
  have : nu = s ^ 2 := by rw [← hs, Real.sq_sqrt hnu]
  rw [hs, this]
  have h4 : 0 < 4 * B2 * (B0 + B1 * s + B2 * s ^ 2) := by nlinarith [sq_nonneg (2 * B2 * s + B1)]
  exact (mul_pos_iff_of_pos_left (by positivity)).1 h4

example (nu : ℝ) (h : 0 ≤ nu) : 0 < pillepich10 0.647 (-0.320) 0.568 nu :=
  C34_pillepich h (by norm_num) (by norm_num)

/-- C34: `Seljak04` is positive for positive masses and non-negative coefficients with `a > 0`, and at the nonlinear
mass equals `a + b + d/(e+1) + f`. -/
theorem C34_seljak04 (p : SeljakParams) (ha : 0 < p.a) (hb : 0 ≤ p.b) (hd : 0 ≤ p.d) (he : 0 ≤ p.e) (hf : 0 ≤ p.f)
    {m mstar : ℝ} (hm : 0 < m) (hs : 0 < mstar) :
    0 < seljak04 p m mstar ∧ p.a ≤ seljak04 p m mstar ∧
    seljak04 p mstar mstar = p.a + p.b + p.d / (p.e + 1) + p.f := by
  unfold seljak04
  have hx : 0 < m / mstar := by positivity
  have : 0 ≤ p.b * (m / mstar) ^ p.c + p.d / (p.e * (m / mstar) + 1) + p.f * (m / mstar) ^ p.g := by
    positivity
  refine ⟨by simp only; linarith, by simp only; linarith, ?_⟩
  simp [div_self hs.ne']

/-- C34: `Seljak04Cosmo` reduces to `Seljak04` at the nonlinear mass and at the fiducial cosmology, and below a tenth of
the nonlinear mass its correction is frozen. -/
theorem C34_seljak04_cosmo (p : SeljakParams) (a1 a2 Om0 n s8 h : ℝ) {m mstar : ℝ} (hs : 0 < mstar) :
    seljak04Cosmo p a1 a2 Om0 n s8 h mstar mstar = seljak04 p mstar mstar ∧
    seljak04Cosmo p a1 a2 0.3 1 0.9 0.7 m mstar = seljak04 p m mstar ∧
    (0 < m → m ≤ mstar / 10 → seljak04Cosmo p a1 a2 Om0 n s8 h m mstar = seljak04 p m mstar -
      (a1 * (Om0 - 0.3 + n - 1) + a2 * (s8 - 0.9 + h - 0.7))) := by
  refine ⟨?_, ?_, ?_⟩
  · simp only [seljak04Cosmo, div_self hs.ne', Real.logb_one]
    rw [if_neg (by norm_num)]; ring
  · simp only [seljak04Cosmo]; norm_num
  · intro hm hle
    have hx : m / mstar ≤ 10⁻¹ := by rw [div_le_iff₀ hs]; linarith
    have hl : Real.logb 10 (m / mstar) ≤ -1 := by
      have h1 : Real.logb 10 (10⁻¹) = -1 := by rw [Real.logb_inv, Real.logb_self_eq_one (by norm_num)]
      rw [← h1]
      exact Real.logb_le_logb_of_le (by norm_num) (by positivity) hx
    simp only [seljak04Cosmo]
    split_ifs with h
    · ring
    · have : Real.logb 10 (m / mstar) = -1 := le_antisymm hl (not_lt.1 h)
      rw [this]; ring

theorem tk_exp_bound {y : ℝ} (h2 : 2 ≤ y) (h4 : y ≤ 3.52) : Real.exp (-((4 / y) ^ 4)) ≤ 0.381 := by
  have hq : (1.13 : ℝ) ≤ 4 / y := by
    rw [le_div_iff₀ (by linarith)]; linarith
  have hq4 : (1.63 : ℝ) ≤ (4 / y) ^ 4 := by
    calc (1.63 : ℝ) ≤ 1.13 ^ 4 := by norm_num
      _ ≤ (4 / y) ^ 4 := pow_le_pow_left₀ (by norm_num) hq 4
  rw [Real.exp_neg]
  have := Real.add_one_le_exp ((4 / y) ^ 4)
  have h3 : (2.63 : ℝ) ≤ Real.exp ((4 / y) ^ 4) := by linarith
  calc (Real.exp ((4 / y) ^ 4))⁻¹ ≤ (2.63 : ℝ)⁻¹ := inv_anti₀ (by norm_num) h3
    _ ≤ 0.381 := by norm_num

/-- C34: `Tinker10` (default parameters) is positive for every peak height and every overdensity from 100 to 3200. -/
theorem C34_tinker10 {dh dc nu : ℝ} (h1 : 100 ≤ dh) (h2 : dh ≤ 3200) (hdc : 1 ≤ dc) (hnu : 0 < nu) :
    0 < tinker10 0.183 1.5 2.4 dh dc nu := by
  obtain ⟨y, hy⟩ : ∃ y, Real.logb 10 dh = y := ⟨_, rfl⟩
  have hy2 : 2 ≤ y := by
    rw [← hy, Real.le_logb_iff_rpow_le (by norm_num) (by linarith)]; norm_num; exact h1
  have hy4 : y ≤ 3.52 := by
    rw [← hy, Real.logb_le_iff_le_rpow (by norm_num) (by linarith)]
    refine h2.trans ?_
    have : ((3200 : ℝ)) ^ (25 : ℕ) ≤ ((10 : ℝ) ^ (3.52 : ℝ)) ^ (25 : ℕ) := by
      rw [← Real.rpow_natCast ((10 : ℝ) ^ (3.52 : ℝ)), ← Real.rpow_mul (by norm_num)]
      have : (3.52 : ℝ) * ((25 : ℕ) : ℝ) = ((88 : ℕ) : ℝ) := by norm_num
      rw [this, Real.rpow_natCast]; norm_num
    exact le_of_pow_le_pow_left₀ (by norm_num) (by positivity) this
  obtain ⟨s, hs⟩ : ∃ s, Real.sqrt nu = s := ⟨_, rfl⟩
  have hs0 : 0 < s := by rw [← hs]; exact Real.sqrt_pos.2 hnu
  have hE := tk_exp_bound hy2 hy4
  have hE0 := Real.exp_pos (-((4 / y) ^ 4))
  have hA : tkA y < 1.33 := by unfold tkA; nlinarith
  have hA0 : 0 < tkA y := by unfold tkA; nlinarith
  have hC : 0.23 < tkC y := by unfold tkC; nlinarith
  simp only [tinker10, hy, hs]
  have ha : 0 ≤ 0.44 * y - 0.88 := by linarith
  obtain ⟨a, hae⟩ : ∃ a, 0.44 * y - 0.88 = a := ⟨_, rfl⟩
  rw [hae] at ha ⊢
  have hsa : 0 < s ^ a := by positivity
  have hda : 0 < dc ^ a := by positivity
  have hb0 : 0 < s ^ (1.5 : ℝ) := by positivity
  have hc0 : 0 < s ^ (2.4 : ℝ) := by positivity
  rcases le_or_gt s 1 with h | h
  · have hle : s ^ a ≤ dc ^ a := Real.rpow_le_rpow hs0.le (h.trans hdc) ha
    have hw : tkA y * s ^ a / (s ^ a + dc ^ a) < 1 := by
      rw [div_lt_one (by positivity)]; nlinarith
    have : 0 < tkC y * s ^ (2.4 : ℝ) := mul_pos (by linarith) hc0
    linarith
  · have hw : tkA y * s ^ a / (s ^ a + dc ^ a) ≤ tkA y := by
      rw [div_le_iff₀ (by positivity)]; nlinarith
    have hb1 : 1 ≤ s ^ (1.5 : ℝ) := Real.one_le_rpow h.le (by norm_num)
    have hc1 : 1 ≤ s ^ (2.4 : ℝ) := Real.one_le_rpow h.le (by norm_num)
    nlinarith

/-! ## C35: scale-dependent bias -/

/-- C35: where the matter correlation vanishes the correction is exactly one; for non-negative correlations (and down to
`-1/max(a,c)`) it is a positive number; it falls to NaN only where `1 + a xi` or `1 + c xi` is negative. -/
theorem C35_tinkerSD05 {a b c d xi : ℝ} :
    tinkerSD05 a b c d 0 = some 1 ∧
    (0 < 1 + a * xi → 0 < 1 + c * xi → ∃ v, tinkerSD05 a b c d xi = some v ∧ 0 < v ∧
      v ^ 2 * (1 + c * xi) ^ d = (1 + a * xi) ^ b) ∧
    (0 ≤ a → 0 ≤ c → 0 ≤ xi → ∃ v, tinkerSD05 a b c d xi = some v ∧ 0 < v) ∧
    (tinkerSD05 a b c d xi = none ↔ 1 + a * xi < 0 ∨ 1 + c * xi < 0) := by
  have key : 0 < 1 + a * xi → 0 < 1 + c * xi → ∃ v, tinkerSD05 a b c d xi = some v ∧ 0 < v ∧
      v ^ 2 * (1 + c * xi) ^ d = (1 + a * xi) ^ b := by
    intro h1 h2
    unfold tinkerSD05
    rw [if_neg (by rintro (h | h) <;> linarith)]
    have h3 : 0 < (1 + a * xi) ^ b / (1 + c * xi) ^ d := by positivity
    refine ⟨_, rfl, Real.sqrt_pos.2 h3, ?_⟩
    rw [Real.sq_sqrt h3.le, div_mul_cancel₀ _ (by positivity)]
  refine ⟨?_, key, ?_, ?_⟩
  · unfold tinkerSD05; simp
  · intro ha hc hx
    obtain ⟨v, h1, h2, -⟩ := key (by positivity) (by positivity)
    exact ⟨v, h1, h2⟩
  · unfold tinkerSD05; split_ifs with h <;> simp [h]

/-- C35: with the default parameters the correction is a positive number for every correlation above `-1/1.17`, and NaN
below. -/
theorem C35_default (xi : ℝ) :
    (-1 / 1.17 < xi → ∃ v, tinkerSD05 1.17 1.49 0.69 2.09 xi = some v ∧ 0 < v) ∧
    (xi < -1 / 1.17 → tinkerSD05 1.17 1.49 0.69 2.09 xi = none) := by
  obtain ⟨-, h1, -, h2⟩ := C35_tinkerSD05 (a := 1.17) (b := 1.49) (c := 0.69) (d := 2.09) (xi := xi)
  constructor
  · intro h
    rw [div_lt_iff₀ (by norm_num)] at h
    obtain ⟨v, hv, hv', -⟩ := h1 (by linarith) (by nlinarith)
    exact ⟨v, hv, hv'⟩
  · intro h
    rw [lt_div_iff₀ (by norm_num)] at h
    exact h2.2 (Or.inl (by linarith))

end Halomod.Bias
