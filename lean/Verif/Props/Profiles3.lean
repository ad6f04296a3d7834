import Verif.Props.Profiles2

/-!
# C28/C29 continued: physical `lam`, and the self-convolutions of the untruncated profiles
-/
namespace Halomod.Profiles

open MeasureTheory Set Filter Topology

noncomputable section

/-- C29: `lam(r, m)` (default `norm="m"`) is the self-convolution of the unit-normalised NFW density of that
halo, in physical units. -/
theorem C29_lam {e : Env} (he : e.Good) (hb : e.etaBloat = 0) {m r : ℝ} (hm : 0 < m) (hr : 0 < r)
    {c : Option ℝ} (hc : ∀ v, c = some v → 0 < v) :
    nfw.lam (some nfwL) e r m .m c = .ok (selfConv (fun t => val (nfw.rho e t m .m c)) (e.massToRadius m) r) := by
  have hs := C24_nfw_exact
  have hR := (C23_overdensity he false hm).1
  have hcp := conc_pos hs he hm hc
  have hrs : 0 < e.massToRadius m / nfw.conc e m c := by positivity
  obtain ⟨rs, hrsd⟩ : ∃ rs, e.massToRadius m / nfw.conc e m c = rs := ⟨_, rfl⟩
  obtain ⟨cc, hccd⟩ : ∃ cc, nfw.conc e m c = cc := ⟨_, rfl⟩
  rw [hrsd] at hrs
  have hRc : e.massToRadius m = cc * rs := by
    rw [← hrsd, hccd]
    rw [hccd] at hcp
    field_simp
  obtain ⟨a, had⟩ : ∃ a, (1.0 : ℝ) / (4 * Real.pi * rs ^ 3 * nfwH cc) = a := ⟨_, rfl⟩
  have hl : nfw.lam (some nfwL) e r m .m c = .ok (nfwL (r / rs) cc * rs ^ 3 * a ^ 2) := by
    have : nfw.lam (some nfwL) e r m .m c = .ok (nfwL (r / nfw.rs e m (nfw.conc e m c)) (nfw.conc e m c)
      * (nfw.rs e m (nfw.conc e m c)) ^ 3 *
      (1.0 / (4 * Real.pi * (nfw.rs e m (nfw.conc e m c)) ^ 3 * nfwH (nfw.conc e m c))) ^ 2) := rfl
    rw [this, rs_eq hs hb, hrsd, hccd, had]
  have hrho : ∀ t, val (nfw.rho e t m .m c) = if cc < t / rs then 0.0 else nfwF (t / rs) * a := by
    intro t
    have : nfw.rho e t m .m c = .ok (if nfw.conc e m c < t / nfw.rs e m (nfw.conc e m c) then 0.0 else
        nfwF (t / nfw.rs e m (nfw.conc e m c)) * (1.0 / (4 * Real.pi *
          (nfw.rs e m (nfw.conc e m c)) ^ 3 * nfwH (nfw.conc e m c)))) := rfl
    rw [this, rs_eq hs hb, hrsd, hccd, had]
    rfl
  rw [hccd] at hcp
  rw [hl, C29_selfconv (div_pos hr hrs) hcp]
  congr 1
  simp only [hrho]
  rw [hRc]
  unfold selfConv
  -- inner integral in physical units
  have hin : ∀ s ∈ Ioc 0 (cc * rs), (if |r - s| < cc * rs then ∫ t in |r - s|..min (r + s) (cc * rs),
        t * (if cc < t / rs then 0.0 else nfwF (t / rs) * a) else 0)
      = rs ^ 2 * a * (if |r / rs - s / rs| < cc then
          ∫ t in |r / rs - s / rs|..min (r / rs + s / rs) cc, t * nfwF t else 0) := by
    intro s hs
    have hs0 : 0 < s := hs.1
    have habs : |r / rs - s / rs| = |r - s| / rs := by rw [← sub_div, abs_div, abs_of_pos hrs]
    have hmin : min (r / rs + s / rs) cc = min (r + s) (cc * rs) / rs := by
      rw [← min_div_div_right hrs.le, mul_div_cancel_right₀ _ hrs.ne', add_div]
    rw [habs, hmin]
    by_cases hlt : |r - s| < cc * rs
    · have hlt' : |r - s| / rs < cc := by rwa [div_lt_iff₀ hrs]
      rw [if_pos hlt, if_pos hlt']
      have hle : |r - s| ≤ min (r + s) (cc * rs) := by
        refine le_min ?_ hlt.le
        rw [abs_le]
        constructor <;> linarith
      rw [integral_congr_Ioc hle (g := fun t => rs * a * ((t / rs) * nfwF (t / rs)))]
      · rw [intervalIntegral.integral_const_mul, intervalIntegral.integral_comp_div
          (fun t => t * nfwF t) hrs.ne', smul_eq_mul]
        ring
      · intro t ht
        have h1 : ¬ cc < t / rs := by
          rw [not_lt, div_le_iff₀ hrs]
          exact ht.2.trans (min_le_right _ _)
        rw [if_neg h1]
        field_simp
    · have hlt' : ¬ |r - s| / rs < cc := by rwa [div_lt_iff₀ hrs]
      rw [if_neg hlt, if_neg hlt', mul_zero]
  have hout : ∀ s ∈ Ioc 0 (cc * rs), s * (if cc < s / rs then 0.0 else nfwF (s / rs) * a) *
        (if |r - s| < cc * rs then ∫ t in |r - s|..min (r + s) (cc * rs),
        t * (if cc < t / rs then 0.0 else nfwF (t / rs) * a) else 0)
      = rs ^ 3 * a ^ 2 * ((fun u => u * nfwF u * (if |r / rs - u| < cc then
          ∫ t in |r / rs - u|..min (r / rs + u) cc, t * nfwF t else 0)) (s / rs)) := by
    intro s hs
    rw [hin s hs]
    have h1 : ¬ cc < s / rs := by
      rw [not_lt, div_le_iff₀ hrs]
      exact hs.2
    rw [if_neg h1]
    beta_reduce
    generalize (if |r / rs - s / rs| < cc then ∫ t in |r / rs - s / rs|..min (r / rs + s / rs) cc, t * nfwF t else 0) = I
    field_simp
  have hcomp := intervalIntegral.integral_comp_div (a := 0) (b := cc * rs) (fun u => u * nfwF u *
    (if |r / rs - u| < cc then ∫ t in |r / rs - u|..min (r / rs + u) cc, t * nfwF t else 0)) hrs.ne'
  rw [smul_eq_mul, zero_div, mul_div_cancel_right₀ _ hrs.ne'] at hcomp
  rw [integral_congr_Ioc (by positivity) hout, intervalIntegral.integral_const_mul]
  beta_reduce at hcomp ⊢
  rw [hcomp]
  simp only [nfw]
  generalize (∫ s in (0 : ℝ)..cc, s * nfwF s * (if |r / rs - s| < cc then
          ∫ t in |r / rs - s|..min (r / rs + s) cc, t * nfwF t else 0)) = I
  field_simp

example : fidEnv.Good ∧ fidEnv.etaBloat = 0 ∧ (0 : ℝ) < 1e14 ∧ (0 : ℝ) < 0.3 :=
  ⟨fidEnv_good, rfl, by norm_num, by norm_num⟩

/-- C29: the other arguments of `lam`. -/
theorem C29_lam_arguments (s : Shape) (l : ℝ → ℝ → ℝ) (e : Env) (r m : ℝ) (c : Option ℝ) (coord : RCoord)
    (norm : Norm) :
    s.lam Option.none e r m norm c coord = .error .attributeError ∧
    s.lam (some l) e r m .rho c coord = .error .valueError := by
  refine ⟨rfl, ?_⟩
  cases coord <;> rfl

/-! #### untruncated -/

lemma split_Ioi {F : ℝ → ℝ} {x : ℝ} (hx : 0 ≤ x) (h1 : IntervalIntegrable F volume 0 x)
    (h2 : IntegrableOn F (Ioi x)) :
    ∫ s in Ioi (0 : ℝ), F s = (∫ s in (0 : ℝ)..x, F s) + ∫ s in Ioi x, F s := by
  rw [intervalIntegral.integral_of_le hx, ← setIntegral_union Ioc_disjoint_Ioi_same measurableSet_Ioi h1.1 h2,
    Ioc_union_Ioi_eq_Ioi hx]

/-- Improper integral of a non-negative derivative. -/
lemma ioi_ftc {F g : ℝ → ℝ} {a l : ℝ} (hd : ∀ x ∈ Ici a, HasDerivAt F (g x) x) (hg : ∀ x ∈ Ioi a, 0 ≤ g x)
    (hl : Tendsto F atTop (𝓝 l)) : IntegrableOn g (Ioi a) ∧ ∫ x in Ioi a, g x = l - F a :=
  ⟨integrableOn_Ioi_deriv_of_nonneg' hd hg hl, integral_Ioi_of_hasDerivAt_of_nonneg' hd hg hl⟩

lemma tendsto_log_ratio (a b : ℝ) : Tendsto (fun s : ℝ => Real.log (s + a) - Real.log (s + b)) atTop (𝓝 0) := by
  have h1 : Tendsto (fun s : ℝ => (s + a) / (s + b)) atTop (𝓝 1) := by
    have : Tendsto (fun s : ℝ => 1 + (a - b) * (s + b)⁻¹) atTop (𝓝 (1 + (a - b) * 0)) := by
      refine ((tendsto_inv_atTop_zero.comp (tendsto_atTop_add_const_right _ b tendsto_id)).const_mul _).const_add _
    rw [mul_zero, add_zero] at this
    refine this.congr' ?_
    filter_upwards [eventually_gt_atTop (-b)] with s hs
    have : s + b ≠ 0 := by linarith
    field_simp
    ring
  have h2 := (Real.continuousAt_log one_ne_zero).tendsto.comp h1
  rw [Real.log_one] at h2
  refine h2.congr' ?_
  filter_upwards [eventually_gt_atTop (-b), eventually_gt_atTop (-a)] with s hs hs'
  exact Real.log_div (by linarith) (by linarith)

lemma tendsto_inv_shift (k b : ℝ) : Tendsto (fun s : ℝ => k / (s + b)) atTop (𝓝 0) := by
  have := (tendsto_inv_atTop_zero.comp (tendsto_atTop_add_const_right atTop b tendsto_id)).const_mul k
  rw [mul_zero] at this
  exact this

/-- C28: `NFWInf`'s closed form is the self-convolution of the untruncated NFW shape. -/
theorem C28_nfwInf_selfconv {x : ℝ} (hx : 0 < x) : nfwInfL x = selfConvInf nfw.f x := by
  -- B and C pieces on half lines
  have hB := ioi_ftc (a := x) (l := 0) (g := fun s => 1 / (1 + s) ^ 2 * (1 / (1 + s - x)))
    (F := fun s => (1 / x) / (s + 1) + (Real.log (s + (1 - x)) - Real.log (s + 1)) / x ^ 2) ?_ ?_ ?_
  rotate_left
  · intro s hs
    have hs' : x ≤ s := hs
    have h1 : 0 < s + 1 := by linarith
    have h2 : 0 < s + (1 - x) := by linarith
    have hl : HasDerivAt (fun y : ℝ => y + 1) 1 s := (hasDerivAt_id s).add_const 1
    have hl2 : HasDerivAt (fun y : ℝ => y + (1 - x)) 1 s := (hasDerivAt_id s).add_const (1 - x)
    have := ((hasDerivAt_const s (1 / x)).div hl h1.ne').add
      (((hl2.log h2.ne').sub (hl.log h1.ne')).div_const (x ^ 2))
    refine this.congr_deriv ?_
    obtain ⟨u, hu⟩ : ∃ u, s + 1 = u := ⟨_, rfl⟩
    have e1 : 1 + s = u := by linarith
    have e2 : s + (1 - x) = u - x := by linarith
    rw [e2] at h2
    have h2' : u - x ≠ 0 := h2.ne'
    rw [hu] at h1
    rw [e1, e2, hu]
    field_simp
    ring
  · intro s hs
    have hs' : x < s := hs
    have h2 : 0 < 1 + s - x := by linarith
    positivity
  · have := (tendsto_inv_shift (1 / x) 1).add ((tendsto_log_ratio (1 - x) 1).div_const (x ^ 2))
    simpa using this
  have hC := ioi_ftc (a := 0) (l := 0) (g := fun s => 1 / (1 + s) ^ 2 * (1 / (1 + (x + s))))
    (F := fun s => (-1 / x) / (s + 1) + (Real.log (s + (1 + x)) - Real.log (s + 1)) / x ^ 2) ?_ ?_ ?_
  rotate_left
  · intro s hs
    have hs' : 0 ≤ s := hs
    have h1 : 0 < s + 1 := by linarith
    have h2 : 0 < s + (1 + x) := by linarith
    have hl : HasDerivAt (fun y : ℝ => y + 1) 1 s := (hasDerivAt_id s).add_const 1
    have hl2 : HasDerivAt (fun y : ℝ => y + (1 + x)) 1 s := (hasDerivAt_id s).add_const (1 + x)
    have := ((hasDerivAt_const s (-1 / x)).div hl h1.ne').add
      (((hl2.log h2.ne').sub (hl.log h1.ne')).div_const (x ^ 2))
    refine this.congr_deriv ?_
    obtain ⟨u, hu⟩ : ∃ u, s + 1 = u := ⟨_, rfl⟩
    have e1 : 1 + s = u := by linarith
    have e2 : s + (1 + x) = u + x := by linarith
    have e3 : 1 + (x + s) = u + x := by linarith
    rw [e2] at h2
    rw [hu] at h1
    rw [e1, e2, e3, hu]
    field_simp
    ring
  · intro s hs
    have hs' : (0 : ℝ) < s := hs
    positivity
  · have := (tendsto_inv_shift (-1 / x) 1).add ((tendsto_log_ratio (1 + x) 1).div_const (x ^ 2))
    simpa using this
  obtain ⟨iA, eA⟩ := int_A (x := x) hx.le le_rfl (by linarith)
  have h1a : ∀ s ∈ Ioc 0 x, 1 / (1 + s) ^ 2 * (1 / (1 + |x - s|)) = 1 / (1 + s) ^ 2 * (1 / (1 + x - s)) := by
    intro s hs
    rw [abs_of_nonneg (by linarith [hs.2]), add_sub_assoc]
  have h1b : ∀ s ∈ Ioi x, 1 / (1 + s) ^ 2 * (1 / (1 + |x - s|)) = 1 / (1 + s) ^ 2 * (1 / (1 + s - x)) := by
    intro s hs
    have hs' : x < s := hs
    rw [abs_of_nonpos (by linarith), neg_sub, add_sub_assoc]
  have jA := integrable_congr_Ioc hx.le h1a iA
  have jB : IntegrableOn (fun s => 1 / (1 + s) ^ 2 * (1 / (1 + |x - s|))) (Ioi x) :=
    hB.1.congr_fun (fun s hs => (h1b s hs).symm) measurableSet_Ioi
  have jAB : IntegrableOn (fun s => 1 / (1 + s) ^ 2 * (1 / (1 + |x - s|))) (Ioi 0) := by
    rw [← Ioc_union_Ioi_eq_Ioi hx.le]
    exact jA.1.union jB
  have hG : ∀ s ∈ Ioi (0 : ℝ), s * nfwF s * (∫ t in |x - s|..(x + s), t * nfwF t)
      = 1 / (1 + s) ^ 2 * (1 / (1 + |x - s|)) - 1 / (1 + s) ^ 2 * (1 / (1 + (x + s))) := by
    intro s hs
    have hs' : 0 < s := hs
    rw [nfw_inner (abs_nonneg _) (by linarith), nfw_lin hs']
    ring
  unfold selfConvInf
  simp only [nfw]
  rw [setIntegral_congr_fun measurableSet_Ioi hG, integral_sub jAB hC.1, split_Ioi hx.le jA jB,
    integral_congr_Ioc hx.le h1a, setIntegral_congr_fun measurableSet_Ioi h1b, eA, hB.2, hC.2]
  unfold nfwInfL
  have p1 : (0 : ℝ) < 1 + x := by linarith
  have e2 : 1 + x - x = (1 : ℝ) := by ring
  have e3 : x + (1 - x) = (1 : ℝ) := by ring
  simp only [e2, e3, add_zero, sub_zero, zero_add, Real.log_one, add_comm x 1]
  generalize Real.log (1 + x) = L
  field_simp
  ring

lemma her_inner {a b : ℝ} (ha : 0 ≤ a) (hb : 0 ≤ b) :
    ∫ t in a..b, t * herF t = 1 / 2 * (1 / (1 + a) ^ 2 - 1 / (1 + b) ^ 2) := by
  have h1 : ∫ t in a..b, t * herF t = ∫ t in a..b, 1 / (1 + t) ^ 3 := by
    refine intervalIntegral.integral_congr_ae (ae_of_all _ fun x hx => ?_)
    have : 0 < x := by
      rcases le_total a b with h | h
      · rw [uIoc_of_le h] at hx
        exact lt_of_le_of_lt ha hx.1
      · rw [uIoc_of_ge h] at hx
        exact lt_of_le_of_lt hb hx.1
    exact her_lin this
  have hpos : ∀ x ∈ uIcc a b, 0 < 1 + x := by
    intro x hx
    rw [mem_uIcc] at hx
    rcases hx with h | h <;> linarith
  rw [h1, intervalIntegral.integral_eq_sub_of_hasDerivAt (f := fun t => -(1 / (2 * (1 + t) ^ 2)))]
  · have := hpos a left_mem_uIcc
    have := hpos b right_mem_uIcc
    field_simp
    ring
  · intro x hx
    have hp := hpos x hx
    have hl : HasDerivAt (fun y : ℝ => 1 + y) 1 x := (hasDerivAt_id x).const_add 1
    have hl2 : HasDerivAt (fun y : ℝ => 2 * (1 + y) ^ 2) (2 * (2 * (1 + x))) x := by
      refine ((hl.pow 2).const_mul 2).congr_deriv ?_
      push_cast
      ring
    have hne : 2 * (1 + x) ^ 2 ≠ 0 := by positivity
    have := ((hasDerivAt_const x (1 : ℝ)).div hl2 hne).neg
    refine this.congr_deriv ?_
    field_simp
    ring
  · apply ContinuousOn.intervalIntegrable
    refine continuousOn_const.div (by fun_prop) ?_
    intro x hx
    have := hpos x hx
    positivity

/-- C28, finding: `HernquistInf`'s closed form is exactly four times the self-convolution of the
untruncated Hernquist shape (a spurious factor 4 in `_l`). -/
theorem C28_hernquistInf_selfconv {x : ℝ} (hx : 0 < x) : herInfL x = 4 * selfConvInf hernquist.f x := by
  have hdinv : ∀ (b k : ℝ) (s : ℝ), 0 < s + b → HasDerivAt (fun y => k / (y + b)) (-k / (s + b) ^ 2) s := by
    intro b k s h
    have hl : HasDerivAt (fun y : ℝ => y + b) 1 s := (hasDerivAt_id s).add_const b
    refine ((hasDerivAt_const s k).div hl h.ne').congr_deriv ?_
    field_simp
    ring
  have hdinv2 : ∀ (b k : ℝ) (s : ℝ), 0 < s + b →
      HasDerivAt (fun y => k / (y + b) ^ 2) (-(2 * k) / (s + b) ^ 3) s := by
    intro b k s h
    have hl : HasDerivAt (fun y : ℝ => (y + b) ^ 2) (2 * (s + b)) s := by
      refine (((hasDerivAt_id s).add_const b).pow 2).congr_deriv ?_
      simp
    have hne : (s + b) ^ 2 ≠ 0 := pow_ne_zero 2 h.ne'
    refine ((hasDerivAt_const s k).div hl hne).congr_deriv ?_
    field_simp
    ring
  have hdlog : ∀ (b : ℝ) (s : ℝ), 0 < s + b → HasDerivAt (fun y => Real.log (y + b)) (1 / (s + b)) s := by
    intro b s h
    exact ((hasDerivAt_id s).add_const b).log h.ne'
  have tinv2 : ∀ (k b : ℝ), Tendsto (fun s : ℝ => k / (s + b) ^ 2) atTop (𝓝 0) := by
    intro k b
    have := (tendsto_inv_shift k b).mul (tendsto_inv_shift 1 b)
    rw [mul_zero] at this
    refine this.congr fun s => ?_
    rw [div_mul_div_comm, mul_one, sq]
  have hB := ioi_ftc (a := x) (l := 0) (g := fun s => 1 / (1 + s) ^ 3 * (1 / (1 + s - x) ^ 2))
    (F := fun s => 3 / x ^ 4 * (Real.log (s + 1) - Real.log (s + (1 - x))) + (-2 / x ^ 3) / (s + 1)
      + (-1 / (2 * x ^ 2)) / (s + 1) ^ 2 + (-1 / x ^ 3) / (s + (1 - x))) ?_ ?_ ?_
  rotate_left
  · intro s hs
    have hs' : x ≤ s := hs
    have h1 : 0 < s + 1 := by linarith
    have h2 : 0 < s + (1 - x) := by linarith
    have := (((((hdlog 1 s h1).sub (hdlog (1 - x) s h2)).const_mul (3 / x ^ 4)).add (hdinv 1 (-2 / x ^ 3) s h1)).add
      (hdinv2 1 (-1 / (2 * x ^ 2)) s h1)).add (hdinv (1 - x) (-1 / x ^ 3) s h2)
    refine this.congr_deriv ?_
    obtain ⟨u, hu⟩ : ∃ u, s + 1 = u := ⟨_, rfl⟩
    have e1 : 1 + s = u := by linarith
    have e2 : s + (1 - x) = u - x := by linarith
    rw [e2] at h2
    have h2' : u - x ≠ 0 := h2.ne'
    rw [hu] at h1
    rw [e1, e2, hu]
    field_simp
    ring
  · intro s hs
    have hs' : x < s := hs
    have h2 : 0 < 1 + s - x := by linarith
    have h3 : 0 < 1 + s := by linarith
    positivity
  · have := ((((tendsto_log_ratio 1 (1 - x)).const_mul (3 / x ^ 4)).add (tendsto_inv_shift (-2 / x ^ 3) 1)).add
      (tinv2 (-1 / (2 * x ^ 2)) 1)).add (tendsto_inv_shift (-1 / x ^ 3) (1 - x))
    simpa using this
  have hC := ioi_ftc (a := 0) (l := 0) (g := fun s => 1 / (1 + s) ^ 3 * (1 / (1 + (x + s)) ^ 2))
    (F := fun s => 3 / x ^ 4 * (Real.log (s + 1) - Real.log (s + (1 + x))) + (2 / x ^ 3) / (s + 1)
      + (-1 / (2 * x ^ 2)) / (s + 1) ^ 2 + (1 / x ^ 3) / (s + (1 + x))) ?_ ?_ ?_
  rotate_left
  · intro s hs
    have hs' : 0 ≤ s := hs
    have h1 : 0 < s + 1 := by linarith
    have h2 : 0 < s + (1 + x) := by linarith
    have := (((((hdlog 1 s h1).sub (hdlog (1 + x) s h2)).const_mul (3 / x ^ 4)).add (hdinv 1 (2 / x ^ 3) s h1)).add
      (hdinv2 1 (-1 / (2 * x ^ 2)) s h1)).add (hdinv (1 + x) (1 / x ^ 3) s h2)
    refine this.congr_deriv ?_
    obtain ⟨u, hu⟩ : ∃ u, s + 1 = u := ⟨_, rfl⟩
    have e1 : 1 + s = u := by linarith
    have e2 : s + (1 + x) = u + x := by linarith
    have e3 : 1 + (x + s) = u + x := by linarith
    rw [e2] at h2
    rw [hu] at h1
    rw [e1, e2, e3, hu]
    field_simp
    ring
  · intro s hs
    have hs' : (0 : ℝ) < s := hs
    positivity
  · have := ((((tendsto_log_ratio 1 (1 + x)).const_mul (3 / x ^ 4)).add (tendsto_inv_shift (2 / x ^ 3) 1)).add
      (tinv2 (-1 / (2 * x ^ 2)) 1)).add (tendsto_inv_shift (1 / x ^ 3) (1 + x))
    simpa using this
  -- A piece
  have hpA : ∀ s ∈ uIcc 0 x, 0 < s + 1 ∧ 0 < 1 + x - s := by
    intro s hs
    rw [uIcc_of_le hx.le] at hs
    exact ⟨by linarith [hs.1], by linarith [hs.2]⟩
  have iA : IntervalIntegrable (fun s => 1 / (1 + s) ^ 3 * (1 / (1 + x - s) ^ 2)) volume 0 x := by
    apply ContinuousOn.intervalIntegrable
    refine ContinuousOn.mul (continuousOn_const.div (by fun_prop) ?_) (continuousOn_const.div (by fun_prop) ?_)
    · intro s hs
      have := (hpA s hs).1
      rw [add_comm] at this
      positivity
    · intro s hs
      have := (hpA s hs).2
      positivity
  have hD : (0 : ℝ) < 2 + x := by linarith
  have eA := intervalIntegral.integral_eq_sub_of_hasDerivAt (a := 0) (b := x)
    (f' := fun s => 1 / (1 + s) ^ 3 * (1 / (1 + x - s) ^ 2))
    (f := fun s => 3 / (2 + x) ^ 4 * (Real.log (s + 1) - Real.log (1 + x - s)) + (-2 / (2 + x) ^ 3) / (s + 1)
      + (-1 / (2 * (2 + x) ^ 2)) / (s + 1) ^ 2 + (1 / (2 + x) ^ 3) / (1 + x - s)) ?_ iA
  rotate_left
  · intro s hs
    obtain ⟨h1, h2⟩ := hpA s hs
    have hl2 : HasDerivAt (fun y : ℝ => 1 + x - y) (-1) s := (hasDerivAt_id s).const_sub (1 + x)
    have := (((((hdlog 1 s h1).sub (hl2.log h2.ne')).const_mul (3 / (2 + x) ^ 4)).add
      (hdinv 1 (-2 / (2 + x) ^ 3) s h1)).add (hdinv2 1 (-1 / (2 * (2 + x) ^ 2)) s h1)).add
      ((hasDerivAt_const s (1 / (2 + x) ^ 3)).div hl2 h2.ne')
    refine this.congr_deriv ?_
    obtain ⟨u, hu⟩ : ∃ u, s + 1 = u := ⟨_, rfl⟩
    obtain ⟨v, hv⟩ : ∃ v, 1 + x - s = v := ⟨_, rfl⟩
    obtain ⟨D, hDD⟩ : ∃ D, 2 + x = D := ⟨_, rfl⟩
    have e1 : 1 + s = u := by linarith
    have hsum : v = D - u := by linarith
    rw [hu] at h1
    rw [hv] at h2
    rw [hDD] at hD
    rw [e1, hu, hv, hDD]
    field_simp
    rw [hsum]
    ring
  have h1a : ∀ s ∈ Ioc 0 x, 1 / (1 + s) ^ 3 * (1 / (1 + |x - s|) ^ 2)
      = 1 / (1 + s) ^ 3 * (1 / (1 + x - s) ^ 2) := by
    intro s hs
    rw [abs_of_nonneg (by linarith [hs.2]), add_sub_assoc]
  have h1b : ∀ s ∈ Ioi x, 1 / (1 + s) ^ 3 * (1 / (1 + |x - s|) ^ 2)
      = 1 / (1 + s) ^ 3 * (1 / (1 + s - x) ^ 2) := by
    intro s hs
    have hs' : x < s := hs
    rw [abs_of_nonpos (by linarith), neg_sub, add_sub_assoc]
  have jA := integrable_congr_Ioc hx.le h1a iA
  have jB : IntegrableOn (fun s => 1 / (1 + s) ^ 3 * (1 / (1 + |x - s|) ^ 2)) (Ioi x) :=
    hB.1.congr_fun (fun s hs => (h1b s hs).symm) measurableSet_Ioi
  have jAB : IntegrableOn (fun s => 1 / (1 + s) ^ 3 * (1 / (1 + |x - s|) ^ 2)) (Ioi 0) := by
    rw [← Ioc_union_Ioi_eq_Ioi hx.le]
    exact jA.1.union jB
  have hG : ∀ s ∈ Ioi (0 : ℝ), s * herF s * (∫ t in |x - s|..(x + s), t * herF t)
      = 1 / 2 * (1 / (1 + s) ^ 3 * (1 / (1 + |x - s|) ^ 2) - 1 / (1 + s) ^ 3 * (1 / (1 + (x + s)) ^ 2)) := by
    intro s hs
    have hs' : 0 < s := hs
    rw [her_inner (abs_nonneg _) (by linarith), her_lin hs']
    ring
  unfold selfConvInf
  simp only [hernquist]
  rw [setIntegral_congr_fun measurableSet_Ioi hG, integral_const_mul, integral_sub jAB hC.1,
    split_Ioi hx.le jA jB,
    integral_congr_Ioc hx.le h1a, setIntegral_congr_fun measurableSet_Ioi h1b, eA, hB.2, hC.2]
  unfold herInfL
  have p1 : (0 : ℝ) < 1 + x := by linarith
  have e2 : 1 + x - x = (1 : ℝ) := by ring
  have e3 : x + (1 - x) = (1 : ℝ) := by ring
  simp only [e2, e3, sub_zero, zero_add, Real.log_one, add_comm x 1]
  generalize Real.log (1 + x) = L
  field_simp
  ring

end

end Halomod.Profiles
