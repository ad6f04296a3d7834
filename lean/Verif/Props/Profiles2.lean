import Verif.Props.Profiles

/-!
# C28, C29: untruncated profiles and self-convolutions
-/
namespace Halomod.Profiles

open MeasureTheory Set Filter Topology

noncomputable section

/-! ### C28 -/

lemma tendsto_arg {K : ℝ} (hK : 0 < K) : Tendsto (fun c : ℝ => (1 + c) * K) atTop atTop :=
  (tendsto_atTop_add_const_left _ 1 tendsto_id).atTop_mul_const hK

lemma tendsto_bdd_over {g : ℝ → ℝ} {d : ℝ → ℝ} (hg : ∀ t, |g t| ≤ 1) (hd : Tendsto d atTop atTop) :
    Tendsto (fun c => g c / d c) atTop (𝓝 0) := by
  have h : Tendsto (fun c : ℝ => (d c)⁻¹ * g c) atTop (𝓝 0) := by
    refine (tendsto_inv_atTop_zero.comp hd).zero_mul_isBoundedUnder_le ?_
    exact isBoundedUnder_of ⟨1, fun x => by simpa using hg x⟩
  refine h.congr fun x => ?_
  rw [div_eq_mul_inv, mul_comm]

/-- C28: the transform of `NFWInf` is the large-concentration limit of the Fourier integral of the NFW
shape (and of the truncated closed form). -/
theorem C28_nfw_limit {K : ℝ} (hK : 0 < K) :
    Tendsto (fun c => fourierInt nfw.f K c) atTop (𝓝 (nfwInfP K)) ∧
    Tendsto (fun c => nfw.p K c) atTop (𝓝 (nfwInfP K)) := by
  have h : Tendsto (fun c => nfwP K c) atTop (𝓝 (nfwInfP K)) := by
    have h1 := (Si_tendsto.comp (tendsto_arg hK)).sub_const (Si K) |>.const_mul (Real.sin K)
    have h2 := (Ci_tendsto.comp (tendsto_arg hK)).sub_const (Ci K) |>.const_mul (Real.cos K)
    have h3 := tendsto_bdd_over (g := fun c => Real.sin (c * K)) (fun t => Real.abs_sin_le_one _)
      (tendsto_arg hK)
    have := (h1.sub h3).add h2
    have e : Real.sin K * (Real.pi / 2 - Si K) - 0 + Real.cos K * (0 - Ci K) = nfwInfP K := by
      unfold nfwInfP
      have : (0.5 : ℝ) = 1 / 2 := by norm_num
      rw [this]
      ring
    rw [e] at this
    exact this
  refine ⟨h.congr' ?_, h⟩
  filter_upwards [eventually_gt_atTop 0] with c hc
  exact nfw_fourierInt hK hc

/-- C28: the same for Hernquist. -/
theorem C28_hernquist_limit {K : ℝ} (hK : 0 < K) :
    Tendsto (fun c => fourierInt hernquist.f K c) atTop (𝓝 (herInfP K)) ∧
    Tendsto (fun c => hernquist.p K c) atTop (𝓝 (herInfP K)) := by
  have h : Tendsto (fun c => herP K c) atTop (𝓝 (herInfP K)) := by
    have hc1 : Tendsto (fun c : ℝ => 1 + c) atTop atTop := tendsto_atTop_add_const_left _ 1 tendsto_id
    have harg : Tendsto (fun c : ℝ => K + c * K) atTop atTop := by
      refine (tendsto_arg hK).congr fun c => by ring
    have h1 := (Si_tendsto.comp harg).const_mul (Real.cos K)
    have h2 := (Ci_tendsto.comp harg).mul_const (Real.sin K)
    have h3 := ((h2.sub h1).const_mul (K ^ 2))
    have hcos := (tendsto_bdd_over (g := fun c => Real.cos (c * K)) (fun t => Real.abs_cos_le_one _) hc1).const_mul K
    have hsin := (tendsto_bdd_over (g := fun c => Real.sin (c * K)) (fun t => Real.abs_sin_le_one _) hc1).mul
      (tendsto_inv_atTop_zero.comp hc1)
    have h4 := ((hcos.add hsin).neg.add h3).const_mul 0.5
    have h5 := (h4.const_add (-K / 2 * (K * Ci K * Real.sin K - K * Real.cos K * Si K - 1))).div_const K
    have e : (-K / 2 * (K * Ci K * Real.sin K - K * Real.cos K * Si K - 1) +
        0.5 * (-(K * 0 + 0 * 0) + K ^ 2 * (0 * Real.sin K - Real.cos K * (Real.pi / 2)))) / K = herInfP K := by
      unfold herInfP
      have e5 : (0.5 : ℝ) = 1 / 2 := by norm_num
      have e25 : (0.25 : ℝ) = 1 / 4 := by norm_num
      rw [e5, e25]
      field_simp
      ring
    rw [e] at h5
    refine h5.congr' ?_
    filter_upwards [eventually_gt_atTop 0] with c hc
    unfold herP
    simp only [Function.comp]
    have hc1 : (0 : ℝ) < 1 + c := by linarith
    congr 4
    field_simp
  refine ⟨h.congr' ?_, h⟩
  filter_upwards [eventually_gt_atTop 0] with c hc
  exact her_fourierInt hK hc

/-- C28: an untruncated profile has the density of the truncated one inside the halo, and is the same
multiple of the shape function everywhere. -/
theorem C28_density {s : Shape} (hs : s.Exact) {e : Env} (he : e.Good) (hb : e.etaBloat = 0) {m : ℝ}
    (hm : 0 < m) {c : Option ℝ} (hc : ∀ v, c = some v → 0 < v) {norm : Norm} (hn : norm ≠ .other) :
    (∀ r, r ≤ e.massToRadius m → s.rhoInf e r m norm c = s.rho e r m norm c) ∧
    ∃ a, 0 < a ∧ ∀ r, s.rhoInf e r m norm c = .ok (s.f (r * s.conc e m c / e.massToRadius m) * a) := by
  have hR := (C23_overdensity he false hm).1
  have hcp := conc_pos hs he hm hc
  have hM := massInt_pos hs hcp
  have hpi := Real.pi_pos
  have hd := he.dens_pos
  have hdl := he.delta_pos
  have hrs : 0 < s.rs e m (s.conc e m c) := by
    rw [rs_eq hs hb]
    positivity
  have hh : 0 < s.h (s.conc e m c) := by
    rw [hs.mass _ hcp]
    exact hM
  obtain ⟨a, ha, hapos⟩ : ∃ a, s.rhoS e (s.conc e m c) (s.rs e m (s.conc e m c)) norm = .ok a ∧ 0 < a := by
    cases norm with
    | other => exact absurd rfl hn
    | none => exact ⟨_, rfl, by positivity⟩
    | m => exact ⟨_, rfl, by positivity⟩
    | rho => exact ⟨_, rfl, by positivity⟩
  have key : ∀ r, s.rhoInf e r m norm c = .ok (s.f (r / s.rs e m (s.conc e m c)) * a) := by
    intro r
    show (do let a ← s.rhoS e (s.conc e m c) (s.rs e m (s.conc e m c)) norm
             return (s.f (r / s.rs e m (s.conc e m c)) * a)) = _
    rw [ha]
    rfl
  have key2 : ∀ r, s.rho e r m norm c = .ok (if s.conc e m c < r / s.rs e m (s.conc e m c) then 0.0 else
        s.f (r / s.rs e m (s.conc e m c)) * a) := by
    intro r
    show (do let a ← s.rhoS e (s.conc e m c) (s.rs e m (s.conc e m c)) norm
             return (if s.conc e m c < r / s.rs e m (s.conc e m c) then (0.0 : ℝ) else
               s.f (r / s.rs e m (s.conc e m c)) * a)) = _
    rw [ha]
    rfl
  refine ⟨fun r hr => ?_, a, hapos, fun r => ?_⟩
  · rw [key, key2, if_neg]
    rw [not_lt, rs_eq hs hb, div_le_iff₀ (by positivity)]
    field_simp
    exact hr
  · rw [key, rs_eq hs hb]
    congr 3
    field_simp

/-- C28, finding: the `u` of untruncated profiles ignores the arguments `c` and `coord`: a dimensionless
wavenumber passed with `coord="kappa"` is treated as a physical one. -/
theorem C28_u_ignores_arguments (s : Shape) (pInf : ℝ → ℝ) (e : Env) (k m : ℝ) (norm : Norm) (c : Option ℝ)
    (coord : KCoord) :
    s.uInf pInf e k m norm c coord = s.uInf pInf e k m norm := rfl

/-- C28, finding: `lam` of an untruncated profile defaults to `norm=None`, that of a truncated one to
`norm="m"`; with the same explicit `norm` the two calls agree. -/
theorem C28_lam_default (s : Shape) (l : ℝ → ℝ → ℝ) (e : Env) (r m : ℝ) :
    s.lam (some l) e r m = s.lamInf (some l) e r m .m ∧ s.lamInf (some l) e r m = s.lam (some l) e r m .none ∧
    ∀ norm c coord, s.lam (some l) e r m norm c coord = s.lamInf (some l) e r m norm c coord := ⟨rfl, rfl, fun _ _ _ => rfl⟩

/-- C28: a profile without a self-convolution refuses `lam` whatever the arguments. -/
theorem C28_lam_undefined (s : Shape) (e : Env) (r m : ℝ) (norm : Norm) (c : Option ℝ) (coord : RCoord) :
    s.lam Option.none e r m norm c coord = .error .attributeError ∧
    (coord ≠ .other → s.lamInf Option.none e r m norm c coord = .error .attributeError) ∧
    s.lamInf Option.none e r m norm c .other = .error .valueError := by
  refine ⟨rfl, fun h => ?_, rfl⟩
  cases coord <;> first | rfl | exact absurd rfl h

/-! ### C29 -/

/-- C29: the two branches agree at the virial radius, and the outer branch is zero at twice that radius. -/
theorem C29_branches {c : ℝ} (hc : 0 < c) : nfwLlo c c = nfwLhi c c ∧ nfwLhi (2 * c) c = 0 := by
  have e1 : (1.0 : ℝ) = 1 := by norm_num
  constructor
  · unfold nfwLlo nfwLhi
    simp only [e1]
    have h1 : (1 + 1 / c - 1 / c * c) * (1 + c) / (1 + 1 / c) = 1 := by
      have : (1 : ℝ) + 1 / c ≠ 0 := by positivity
      field_simp
      ring
    have h2 : (1 + 1 / c) / (1 / c + 1 / c * c - 1) = 1 + c := by
      have : (1 : ℝ) / c + 1 / c * c - 1 = 1 / c := by field_simp; ring
      rw [this]
      field_simp
      ring
    rw [h1, h2, Real.log_one]
    have : (0 : ℝ) < 1 + 1 / c := by positivity
    field_simp
    ring
  · unfold nfwLhi
    simp only [e1]
    have h2 : (1 + 1 / c) / (1 / c + 1 / c * (2 * c) - 1) = 1 := by
      have h : 1 / c + 1 / c * (2 * c) - 1 = 1 + 1 / c := by field_simp; ring
      rw [h, div_self (by positivity)]
    rw [h2, Real.log_one]
    have : (0 : ℝ) < 1 + 1 / c := by positivity
    field_simp
    ring

lemma nfw_inner {a b : ℝ} (ha : 0 ≤ a) (hb : 0 ≤ b) : ∫ t in a..b, t * nfwF t = 1 / (1 + a) - 1 / (1 + b) := by
  have h1 : ∫ t in a..b, t * nfwF t = ∫ t in a..b, 1 / (1 + t) ^ 2 := by
    refine intervalIntegral.integral_congr_ae (ae_of_all _ fun x hx => ?_)
    have : 0 < x := by
      rcases le_total a b with h | h
      · rw [uIoc_of_le h] at hx
        exact lt_of_le_of_lt ha hx.1
      · rw [uIoc_of_ge h] at hx
        exact lt_of_le_of_lt hb hx.1
    exact nfw_lin this
  have hpos : ∀ x ∈ uIcc a b, 0 < 1 + x := by
    intro x hx
    rw [mem_uIcc] at hx
    rcases hx with h | h <;> linarith
  rw [h1, intervalIntegral.integral_eq_sub_of_hasDerivAt (f := fun t => -(1 / (1 + t)))]
  · ring
  · intro x hx
    have hp := hpos x hx
    have hl : HasDerivAt (fun y : ℝ => 1 + y) 1 x := (hasDerivAt_id x).const_add 1
    have := ((hasDerivAt_const x (1 : ℝ)).div hl hp.ne').neg
    refine this.congr_deriv ?_
    field_simp
    ring
  · apply ContinuousOn.intervalIntegrable
    refine continuousOn_const.div (by fun_prop) ?_
    intro x hx
    have := hpos x hx
    positivity

/-- `∫ 1/(1+s)² · 1/(1+x-s)`. -/
lemma int_A {x a b : ℝ} (hab : a ≤ b) (ha : 0 ≤ a) (hb : b < 1 + x) :
    IntervalIntegrable (fun s => 1 / (1 + s) ^ 2 * (1 / (1 + x - s))) volume a b ∧
    ∫ s in a..b, 1 / (1 + s) ^ 2 * (1 / (1 + x - s)) =
      (-(1 / ((2 + x) * (1 + b))) + Real.log (1 + b) / (2 + x) ^ 2 - Real.log (1 + x - b) / (2 + x) ^ 2)
      - (-(1 / ((2 + x) * (1 + a))) + Real.log (1 + a) / (2 + x) ^ 2 - Real.log (1 + x - a) / (2 + x) ^ 2) := by
  have hp : ∀ s ∈ uIcc a b, 0 < 1 + s ∧ 0 < 1 + x - s := by
    intro s hs
    rw [uIcc_of_le hab] at hs
    exact ⟨by linarith [hs.1], by linarith [hs.2]⟩
  have hi : IntervalIntegrable (fun s => 1 / (1 + s) ^ 2 * (1 / (1 + x - s))) volume a b := by
    apply ContinuousOn.intervalIntegrable
    refine ContinuousOn.mul (continuousOn_const.div (by fun_prop) ?_) (continuousOn_const.div (by fun_prop) ?_)
    · intro s hs
      have := (hp s hs).1
      positivity
    · intro s hs
      exact (hp s hs).2.ne'
  refine ⟨hi, ?_⟩
  rw [intervalIntegral.integral_eq_sub_of_hasDerivAt (f := fun s => -(1 / ((2 + x) * (1 + s)))
    + Real.log (1 + s) / (2 + x) ^ 2 - Real.log (1 + x - s) / (2 + x) ^ 2) _ hi]
  intro s hs
  obtain ⟨h1, h2⟩ := hp s hs
  have hD : (0 : ℝ) < 2 + x := by linarith
  have hl : HasDerivAt (fun y : ℝ => 1 + y) 1 s := (hasDerivAt_id s).const_add 1
  have hl2 : HasDerivAt (fun y : ℝ => 1 + x - y) (-1) s := (hasDerivAt_id s).const_sub (1 + x)
  have := ((((hasDerivAt_const s (1 : ℝ)).div (hl.const_mul (2 + x)) (by positivity)).neg).add
    ((hl.log h1.ne').div_const ((2 + x) ^ 2))).sub ((hl2.log h2.ne').div_const ((2 + x) ^ 2))
  refine this.congr_deriv ?_
  obtain ⟨u, hu⟩ : ∃ u, 1 + s = u := ⟨_, rfl⟩
  obtain ⟨v, hv⟩ : ∃ v, 1 + x - s = v := ⟨_, rfl⟩
  obtain ⟨D, hDD⟩ : ∃ D, 2 + x = D := ⟨_, rfl⟩
  have hsum : D = u + v := by linarith
  rw [hu] at h1 ⊢
  rw [hv] at h2 ⊢
  rw [hDD] at hD ⊢
  field_simp
  rw [hsum]
  ring

/-- `∫ 1/(1+s)² · 1/(1+s-x)`. -/
lemma int_B {x a b : ℝ} (hx : 0 < x) (hab : a ≤ b) (ha : x ≤ a) :
    IntervalIntegrable (fun s => 1 / (1 + s) ^ 2 * (1 / (1 + s - x))) volume a b ∧
    ∫ s in a..b, 1 / (1 + s) ^ 2 * (1 / (1 + s - x)) =
      (1 / (x * (1 + b)) + (Real.log (1 + b - x) - Real.log (1 + b)) / x ^ 2)
      - (1 / (x * (1 + a)) + (Real.log (1 + a - x) - Real.log (1 + a)) / x ^ 2) := by
  have hp : ∀ s ∈ uIcc a b, 0 < 1 + s ∧ 0 < 1 + s - x := by
    intro s hs
    rw [uIcc_of_le hab] at hs
    exact ⟨by linarith [hs.1], by linarith [hs.1]⟩
  have hi : IntervalIntegrable (fun s => 1 / (1 + s) ^ 2 * (1 / (1 + s - x))) volume a b := by
    apply ContinuousOn.intervalIntegrable
    refine ContinuousOn.mul (continuousOn_const.div (by fun_prop) ?_) (continuousOn_const.div (by fun_prop) ?_)
    · intro s hs
      have := (hp s hs).1
      positivity
    · intro s hs
      exact (hp s hs).2.ne'
  refine ⟨hi, ?_⟩
  rw [intervalIntegral.integral_eq_sub_of_hasDerivAt (f := fun s => 1 / (x * (1 + s))
    + (Real.log (1 + s - x) - Real.log (1 + s)) / x ^ 2) _ hi]
  intro s hs
  obtain ⟨h1, h2⟩ := hp s hs
  have hl : HasDerivAt (fun y : ℝ => 1 + y) 1 s := (hasDerivAt_id s).const_add 1
  have hl2 : HasDerivAt (fun y : ℝ => 1 + y - x) 1 s := hl.sub_const x
  have := ((hasDerivAt_const s (1 : ℝ)).div (hl.const_mul x) (by positivity)).add
    (((hl2.log h2.ne').sub (hl.log h1.ne')).div_const (x ^ 2))
  refine this.congr_deriv ?_
  obtain ⟨u, hu⟩ : ∃ u, 1 + s = u := ⟨_, rfl⟩
  rw [hu] at h1 h2 ⊢
  have h2' : u - x ≠ 0 := h2.ne'
  field_simp
  ring

/-- `∫ 1/(1+s)² · 1/(1+x+s)`. -/
lemma int_C {x a b : ℝ} (hx : 0 < x) (hab : a ≤ b) (ha : 0 ≤ a) :
    IntervalIntegrable (fun s => 1 / (1 + s) ^ 2 * (1 / (1 + (x + s)))) volume a b ∧
    ∫ s in a..b, 1 / (1 + s) ^ 2 * (1 / (1 + (x + s))) =
      (-(1 / (x * (1 + b))) + (Real.log (1 + (x + b)) - Real.log (1 + b)) / x ^ 2)
      - (-(1 / (x * (1 + a))) + (Real.log (1 + (x + a)) - Real.log (1 + a)) / x ^ 2) := by
  have hp : ∀ s ∈ uIcc a b, 0 < 1 + s ∧ 0 < 1 + (x + s) := by
    intro s hs
    rw [uIcc_of_le hab] at hs
    exact ⟨by linarith [hs.1], by linarith [hs.1]⟩
  have hi : IntervalIntegrable (fun s => 1 / (1 + s) ^ 2 * (1 / (1 + (x + s)))) volume a b := by
    apply ContinuousOn.intervalIntegrable
    refine ContinuousOn.mul (continuousOn_const.div (by fun_prop) ?_) (continuousOn_const.div (by fun_prop) ?_)
    · intro s hs
      have := (hp s hs).1
      positivity
    · intro s hs
      exact (hp s hs).2.ne'
  refine ⟨hi, ?_⟩
  rw [intervalIntegral.integral_eq_sub_of_hasDerivAt (f := fun s => -(1 / (x * (1 + s)))
    + (Real.log (1 + (x + s)) - Real.log (1 + s)) / x ^ 2) _ hi]
  intro s hs
  obtain ⟨h1, h2⟩ := hp s hs
  have hl : HasDerivAt (fun y : ℝ => 1 + y) 1 s := (hasDerivAt_id s).const_add 1
  have hl2 : HasDerivAt (fun y : ℝ => 1 + (x + y)) 1 s := ((hasDerivAt_id s).const_add x).const_add 1
  have := ((hasDerivAt_const s (1 : ℝ)).div (hl.const_mul x) (by positivity)).neg.add
    (((hl2.log h2.ne').sub (hl.log h1.ne')).div_const (x ^ 2))
  refine this.congr_deriv ?_
  obtain ⟨u, hu⟩ : ∃ u, 1 + s = u := ⟨_, rfl⟩
  have h3 : 1 + (x + s) = u + x := by linarith
  rw [h3] at h2 ⊢
  rw [hu] at h1 ⊢
  field_simp
  ring

lemma int_D {a b : ℝ} (k : ℝ) (hab : a ≤ b) (ha : 0 ≤ a) :
    IntervalIntegrable (fun s => 1 / (1 + s) ^ 2 * k) volume a b ∧
    ∫ s in a..b, 1 / (1 + s) ^ 2 * k = (1 / (1 + a) - 1 / (1 + b)) * k := by
  have hp : ∀ s ∈ uIcc a b, 0 < 1 + s := by
    intro s hs
    rw [uIcc_of_le hab] at hs
    linarith [hs.1]
  have hi : IntervalIntegrable (fun s => 1 / (1 + s) ^ 2 * k) volume a b := by
    apply ContinuousOn.intervalIntegrable
    refine ContinuousOn.mul (continuousOn_const.div (by fun_prop) ?_) continuousOn_const
    intro s hs
    have := hp s hs
    positivity
  refine ⟨hi, ?_⟩
  rw [intervalIntegral.integral_eq_sub_of_hasDerivAt (f := fun s => -(1 / (1 + s)) * k) _ hi]
  · ring
  · intro s hs
    have h1 := hp s hs
    have hl : HasDerivAt (fun y : ℝ => 1 + y) 1 s := (hasDerivAt_id s).const_add 1
    have := (((hasDerivAt_const s (1 : ℝ)).div hl h1.ne').neg).mul_const k
    refine this.congr_deriv ?_
    field_simp
    ring

lemma integrable_congr_Ioc {f g : ℝ → ℝ} {a b : ℝ} (hab : a ≤ b) (h : ∀ x ∈ Ioc a b, f x = g x)
    (hg : IntervalIntegrable g volume a b) : IntervalIntegrable f volume a b := by
  refine hg.congr ?_
  intro x hx
  rw [uIoc_of_le hab] at hx
  exact (h x hx).symm

lemma nfw_conv_lo {x c : ℝ} (hx : 0 < x) (hxc : x ≤ c) : selfConv nfwF c x = nfwLlo x c := by
  have hc : 0 < c := by linarith
  -- the integrand as a difference
  have hG : ∀ s ∈ Ioc 0 c, s * nfwF s * (if |x - s| < c then ∫ t in |x - s|..min (x + s) c, t * nfwF t else 0)
      = 1 / (1 + s) ^ 2 * (1 / (1 + |x - s|)) - 1 / (1 + s) ^ 2 * (1 / (1 + min (x + s) c)) := by
    intro s hs
    have hlt : |x - s| < c := by
      rw [abs_lt]
      exact ⟨by linarith [hs.2], by linarith [hs.1]⟩
    have hmin : 0 ≤ min (x + s) c := le_min (by linarith [hs.1]) hc.le
    rw [if_pos hlt, nfw_inner (abs_nonneg _) hmin, nfw_lin hs.1]
    ring
  have h1a : ∀ s ∈ Ioc 0 x, 1 / (1 + s) ^ 2 * (1 / (1 + |x - s|)) = 1 / (1 + s) ^ 2 * (1 / (1 + x - s)) := by
    intro s hs
    rw [abs_of_nonneg (by linarith [hs.2]), add_sub_assoc]
  have h1b : ∀ s ∈ Ioc x c, 1 / (1 + s) ^ 2 * (1 / (1 + |x - s|)) = 1 / (1 + s) ^ 2 * (1 / (1 + s - x)) := by
    intro s hs
    rw [abs_of_nonpos (by linarith [hs.1]), neg_sub, add_sub_assoc]
  have h2a : ∀ s ∈ Ioc 0 (c - x), 1 / (1 + s) ^ 2 * (1 / (1 + min (x + s) c))
      = 1 / (1 + s) ^ 2 * (1 / (1 + (x + s))) := by
    intro s hs
    rw [min_eq_left (by linarith [hs.2])]
  have h2b : ∀ s ∈ Ioc (c - x) c, 1 / (1 + s) ^ 2 * (1 / (1 + min (x + s) c))
      = 1 / (1 + s) ^ 2 * (1 / (1 + c)) := by
    intro s hs
    rw [min_eq_right (by linarith [hs.1])]
  have hcx : 0 ≤ c - x := by linarith
  have hcx' : c - x ≤ c := by linarith
  obtain ⟨iA, eA⟩ := int_A (x := x) hx.le le_rfl (by linarith)
  obtain ⟨iB, eB⟩ := int_B hx hxc le_rfl
  obtain ⟨iC, eC⟩ := int_C hx hcx le_rfl
  obtain ⟨iD, eD⟩ := int_D (1 / (1 + c)) hcx' hcx
  have jA := integrable_congr_Ioc hx.le h1a iA
  have jB := integrable_congr_Ioc hxc h1b iB
  have jC := integrable_congr_Ioc hcx h2a iC
  have jD := integrable_congr_Ioc hcx' h2b iD
  unfold selfConv
  rw [integral_congr_Ioc hc.le hG, intervalIntegral.integral_sub (jA.trans jB) (jC.trans jD),
    ← intervalIntegral.integral_add_adjacent_intervals jA jB,
    ← intervalIntegral.integral_add_adjacent_intervals jC jD,
    integral_congr_Ioc hx.le h1a, integral_congr_Ioc hxc h1b, integral_congr_Ioc hcx h2a,
    integral_congr_Ioc hcx' h2b, eA, eB, eC, eD]
  have e1 : (1.0 : ℝ) = 1 := by norm_num
  unfold nfwLlo
  simp only [e1]
  have p1 : (0 : ℝ) < 1 + x := by linarith
  have p2 : (0 : ℝ) < 1 + c := by linarith
  have p3 : (0 : ℝ) < 1 + c - x := by linarith
  have p4 : (0 : ℝ) < 2 + x := by linarith
  have hlog : Real.log ((1 + 1 / c - 1 / c * x) * (1 + x) / (1 + 1 / c))
      = Real.log (1 + c - x) + Real.log (1 + x) - Real.log (1 + c) := by
    have : (1 + 1 / c - 1 / c * x) * (1 + x) / (1 + 1 / c) = (1 + c - x) * (1 + x) / (1 + c) := by
      have : (0 : ℝ) < 1 + 1 / c := by positivity
      field_simp
      ring
    rw [this, Real.log_div (by positivity) p2.ne', Real.log_mul p3.ne' p1.ne']
  rw [hlog]
  have e2 : 1 + x - x = (1 : ℝ) := by ring
  have e3 : 1 + (x + (c - x)) = 1 + c := by ring
  have e4 : 1 + (c - x) = 1 + c - x := by ring
  simp only [e2, e3, e4, add_zero, sub_zero, Real.log_one]
  generalize Real.log (1 + x) = L1
  generalize Real.log (1 + c) = L2
  generalize Real.log (1 + c - x) = L3
  obtain ⟨y, hy⟩ : ∃ y, 1 + c - x = y := ⟨_, rfl⟩
  rw [hy] at p3 ⊢
  have hcy : c = y + x - 1 := by linarith
  have p5 : (0 : ℝ) < 1 + 1 / c := by positivity
  have p6 : (1 : ℝ) + 1 / c = (1 + c) / c := by field_simp; ring
  rw [p6]
  field_simp
  rw [hcy]
  ring

lemma nfw_conv_hi {x c : ℝ} (hc : 0 < c) (hxc : c < x) (hx2 : x ≤ 2 * c) : selfConv nfwF c x = nfwLhi x c := by
  have hx : 0 < x := by linarith
  have hG0 : ∀ s ∈ Ioc 0 (x - c), s * nfwF s *
      (if |x - s| < c then ∫ t in |x - s|..min (x + s) c, t * nfwF t else 0) = 0 := by
    intro s hs
    rw [if_neg, mul_zero]
    rw [not_lt, abs_of_nonneg (by linarith [hs.2])]
    linarith [hs.2]
  have hG1 : ∀ s ∈ Ioc (x - c) c, s * nfwF s *
      (if |x - s| < c then ∫ t in |x - s|..min (x + s) c, t * nfwF t else 0)
      = 1 / (1 + s) ^ 2 * (1 / (1 + x - s)) - 1 / (1 + s) ^ 2 * (1 / (1 + c)) := by
    intro s hs
    have hs0 : 0 < s := by linarith [hs.1]
    have habs : |x - s| = x - s := abs_of_nonneg (by linarith [hs.2])
    rw [habs, if_pos (by linarith [hs.1]), min_eq_right (by linarith), nfw_inner (by linarith [hs.2]) hc.le,
      nfw_lin hs0, ← add_sub_assoc]
    ring
  have a1 : 0 ≤ x - c := by linarith
  have a2 : x - c ≤ c := by linarith
  obtain ⟨iA, eA⟩ := int_A (x := x) a2 a1 (by linarith)
  obtain ⟨iD, eD⟩ := int_D (1 / (1 + c)) a2 a1
  have j0 := integrable_congr_Ioc a1 hG0 intervalIntegrable_const
  have j1 := integrable_congr_Ioc a2 hG1 (iA.sub iD)
  unfold selfConv
  rw [← intervalIntegral.integral_add_adjacent_intervals j0 j1, integral_congr_Ioc a1 hG0,
    integral_congr_Ioc a2 hG1, intervalIntegral.integral_sub iA iD, eA, eD]
  have e1 : (1.0 : ℝ) = 1 := by norm_num
  unfold nfwLhi
  simp only [e1]
  have p2 : (0 : ℝ) < 1 + c := by linarith
  have p3 : (0 : ℝ) < 1 + x - c := by linarith
  have p4 : (0 : ℝ) < 2 + x := by linarith
  have hlog : Real.log ((1 + 1 / c) / (1 / c + 1 / c * x - 1)) = Real.log (1 + c) - Real.log (1 + x - c) := by
    have : (1 + 1 / c) / (1 / c + 1 / c * x - 1) = (1 + c) / (1 + x - c) := by
      have h : 1 / c + 1 / c * x - 1 = (1 + x - c) / c := by field_simp
      rw [h]
      field_simp
      ring
    rw [this, Real.log_div p2.ne' p3.ne']
  rw [hlog]
  have e2 : 1 + x - (x - c) = 1 + c := by ring
  have e4 : 1 + (x - c) = 1 + x - c := by ring
  simp only [e2, e4, intervalIntegral.integral_zero, zero_add]
  generalize Real.log (1 + c) = L2
  generalize Real.log (1 + x - c) = L3
  obtain ⟨y, hy⟩ : ∃ y, 1 + x - c = y := ⟨_, rfl⟩
  rw [hy] at p3 ⊢
  have hxy : x = y + c - 1 := by linarith
  have p6 : (1 : ℝ) + 1 / c = (1 + c) / c := by field_simp; ring
  rw [p6]
  field_simp
  rw [hxy]
  ring

/-- C29: the closed form is the self-convolution of the NFW shape truncated at `c`, at every separation
and for every concentration. -/
theorem C29_selfconv {x c : ℝ} (hx : 0 < x) (hc : 0 < c) : nfwL x c = selfConv nfw.f c x := by
  unfold nfwL
  by_cases h1 : x ≤ c
  · rw [if_pos h1]
    exact (nfw_conv_lo hx h1).symm
  · rw [if_neg h1]
    by_cases h2 : x ≤ 2 * c
    · rw [if_pos h2]
      exact (nfw_conv_hi hc (not_le.mp h1) h2).symm
    · rw [if_neg h2]
      unfold selfConv
      rw [integral_congr_Ioc hc.le (g := fun _ => 0)]
      · simp
      · intro s hs
        rw [if_neg, mul_zero]
        rw [not_lt, abs_of_nonneg (by linarith [hs.2])]
        linarith [hs.2]

/-- C29: bounded support: zero at and beyond twice the virial radius. -/
theorem C29_support {x c : ℝ} (hc : 0 < c) (hx : 2 * c ≤ x) : nfwL x c = 0 := by
  unfold nfwL
  rw [if_neg (by linarith)]
  by_cases h : x ≤ 2 * c
  · rw [if_pos h, le_antisymm h hx]
    exact (C29_branches hc).2
  · rw [if_neg h]

/-- C29: continuity in the separation, on all `x > 0`. -/
theorem C29_continuous {c : ℝ} (hc : 0 < c) : ContinuousOn (fun x => nfwL x c) (Ioi 0) := by
  have e1 : (1.0 : ℝ) = 1 := by norm_num
  have hlo : ContinuousOn (fun x => nfwLlo x c) (Ioo 0 (1 + c)) := by
    unfold nfwLlo
    simp only [e1]
    have p : (0 : ℝ) < 1 + 1 / c := by positivity
    refine continuousOn_const.mul (((ContinuousOn.div (by fun_prop) (by fun_prop) ?_).add
      (ContinuousOn.div (ContinuousOn.log (by fun_prop) ?_) (by fun_prop) ?_)).add
      (ContinuousOn.div (ContinuousOn.log (by fun_prop) ?_) (by fun_prop) ?_))
    · intro x hx
      have : 0 < x := hx.1
      positivity
    · intro x hx
      have h0 : 0 < x := hx.1
      have h1 : 0 < 1 + 1 / c - 1 / c * x := by
        have : 1 + 1 / c - 1 / c * x = (1 + c - x) / c := by field_simp; ring
        rw [this]
        have := hx.2
        apply div_pos (by linarith) hc
      positivity
    · intro x hx
      have : 0 < x := hx.1
      positivity
    · intro x hx
      have : 0 < x := hx.1
      positivity
    · intro x hx
      have : 0 < x := hx.1
      positivity
  have hhi : ContinuousOn (fun x => nfwLhi x c) (Ioi (c - 1) ∩ Ioi 0) := by
    unfold nfwLhi
    simp only [e1]
    have p : (0 : ℝ) < 1 + 1 / c := by positivity
    have hd : ∀ x ∈ Ioi (c - 1) ∩ Ioi 0, 0 < 1 / c + 1 / c * x - 1 := by
      intro x hx
      have h : 1 / c + 1 / c * x - 1 = (1 + x - c) / c := by field_simp
      rw [h]
      have : c - 1 < x := hx.1
      exact div_pos (by linarith) hc
    refine continuousOn_const.mul ((ContinuousOn.div (ContinuousOn.log (ContinuousOn.div (by fun_prop) (by fun_prop) ?_) ?_)
      (by fun_prop) ?_).add (ContinuousOn.div (by fun_prop) (by fun_prop) ?_))
    · intro x hx
      exact (hd x hx).ne'
    · intro x hx
      exact (div_pos p (hd x hx)).ne'
    · intro x hx
      have : 0 < x := hx.2
      positivity
    · intro x hx
      have : 0 < x := hx.2
      positivity
  have hb := C29_branches hc
  -- outer part
  have hout : ContinuousOn (fun x => if x ≤ 2 * c then nfwLhi x c else 0) (Ioi (c - 1) ∩ Ioi 0) := by
    refine ContinuousOn.if ?_ ?_ continuousOn_const
    · intro a ha
      have h2 : a = 2 * c := by
        have := frontier_le_subset_eq continuous_id continuous_const ha.2
        exact this
      rw [h2]
      exact hb.2
    · exact hhi.mono inter_subset_left
  unfold nfwL
  refine ContinuousOn.if ?_ ?_ ?_
  · intro a ha
    have h2 : a = c := frontier_le_subset_eq continuous_id continuous_const ha.2
    rw [h2, if_pos (by linarith)]
    exact hb.1
  · refine hlo.mono ?_
    intro a ha
    have hcl : closure {a : ℝ | a ≤ c} = {a | a ≤ c} := (isClosed_le continuous_id continuous_const).closure_eq
    rw [hcl] at ha
    exact ⟨ha.1, by have := ha.2; simp only [mem_ofPred_eq] at this; linarith⟩
  · refine hout.mono ?_
    intro a ha
    have hcl := closure_minimal (s := {a : ℝ | ¬ a ≤ c}) (t := Ici c) (fun x hx => (not_le.mp hx).le) isClosed_Ici
    have : c ≤ a := hcl ha.2
    exact ⟨by simp only [mem_Ioi]; linarith, ha.1⟩

end

end Halomod.Profiles
