import Verif.Props.ScaleDep2
import Verif.Lemmas.Converge2

/-! # C56: on finer and finer mass grids the pair integrals converge to the documented ones -/
namespace Halomod.HaloModel

open Halomod.Exclusion Filter Topology MeasureTheory

/-- the quadrature rule each class uses for the bias-weighted integral without a minimum mass: Simpson, Simpson with a
trapezoid on the last interval of an even grid, or the trapezoid. -/
noncomputable def intRule (cls : ExclCls) (n : ℕ) (dx : ℝ) (f : ℕ → ℝ) : ℝ :=
  match cls with
  | .dblSphere_ => Spec.simpsonTrap n dx f
  | .dblEllipsoid_ => trapzDx n dx f
  | _ => simpsonDx n dx f

/-- C56: the bias-weighted integral of every class but the number-matched ones is the double quadrature, over pairs of
haloes, of the product of their integrands weighted by the documented weight of the pair. -/
theorem C56_integral_rule (ius : Ius) (junk : Mat) (cls : ExclCls) (e : Excl) (ir ik : ℕ) (hn : 3 ≤ e.n)
    (hx : e.xmin = none) (hd : 0 < e.haloDensity) (hr : 0 ≤ e.r ir) (hm : ∀ i < e.n, 0 < e.m i)
    (hcls : cls ≠ .ngMatched ∧ cls ≠ .ngMatched_) :
    exclIntegrate ius junk cls e ir ik = intRule cls e.n e.dlnx fun i => intRule cls e.n e.dlnx fun j =>
      pairWeight cls (e.r ir) (e.rHalo i) (e.rHalo j) * (e.raw ir ik i * e.raw ir ik j) := by
  classical
  have hsi : ∀ f, e.splineIntegrate ius f = simpsonDx e.n e.dlnx f := by
    intro f; unfold Excl.splineIntegrate; rw [hx]
  have hsq : ∀ g : ℕ → ℝ, (simpsonDx e.n e.dlnx fun i => simpsonDx e.n e.dlnx fun j => g i * g j) = simpsonDx e.n e.dlnx g ^ 2 := by
    intro g
    have : (fun i => simpsonDx e.n e.dlnx fun j => g i * g j) = fun i => simpsonDx e.n e.dlnx g * g i := by
      funext i; rw [simpsonDx_mul, mul_comm]
    rw [this, simpsonDx_mul, sq]
  have hmask : ∀ i j : ℕ, (if e.rHalo i + e.rHalo j ≤ e.r ir then (1:ℝ) else 0) * (e.raw ir ik i * e.raw ir ik j) =
      masked (dblSphereMask e ir i j) (e.raw ir ik i * e.raw ir ik j) := by
    intro i j
    unfold masked
    by_cases h : dblSphereMask e ir i j
    · rw [if_pos h, if_neg (fun h' => (C16_dblsphere_mask e ir i j).1.mpr h' h), zero_mul]
    · rw [if_neg h, if_pos ((C16_dblsphere_mask e ir i j).1.mp h), one_mul]
  cases cls with
  | noExclusion =>
    change noExclIntegrate ius e ir ik = _
    simp only [pairWeight, intRule, one_mul]
    rw [hsq]
    unfold noExclIntegrate
    cases hb : e.bias <;> simp only [hsi]
    congr 2
    funext im
    simp only [Excl.raw, hb, one_mul]
  | sphere =>
    change sphereIntegrate ius e ir ik = _
    unfold sphereIntegrate
    rw [hsi, ← hsq]
    simp only [intRule]
    apply simpsonDx_congr (by omega)
    intro i hi
    apply simpsonDx_congr (by omega)
    intro j hj
    have h1 := C16_sphere_mask e ir i hd hr _ (C16_radius e i (hm i hi) hd).1
    have h2 := C16_sphere_mask e ir j hd hr _ (C16_radius e j (hm j hj) hd).1
    simp only [pairWeight, ← h1, ← h2, masked]
    by_cases a : sphereMask e ir i <;> by_cases b : sphereMask e ir j <;> simp [a, b]
  | dblSphere =>
    change dblSphereIntegrate ius e ir ik = _
    unfold dblSphereIntegrate Excl.outerInt
    rw [hsi]
    simp only [intRule, pairWeight, hmask]
  | dblSphere_ =>
    change dblSphereIntegrate_ e ir ik = _
    unfold dblSphereIntegrate_
    rw [(C19_upper_only e.n _ (fun i j => masked (dblSphereMask e ir i j) (e.raw ir ik i * e.raw ir ik j)) _ _ ?_).1]
    · rw [C19_dblsimps _ hn]
      · simp only [intRule, pairWeight, hmask]
      intro i _ j _
      have h := (C16_dblsphere_mask e ir i j).2
      unfold masked
      by_cases h' : dblSphereMask e ir i j
      · rw [if_pos h', if_pos (h.mp h')]
      · rw [if_neg h', if_neg (fun x => h' (h.mpr x)), mul_comm]
    · intro i _ j _ hij
      rw [if_pos hij]
      unfold masked
      rfl
  | dblEllipsoid =>
    change ellIntegrate ius e ir ik = _
    rw [(C20_ellipsoid_rules ius junk e ir ik (by omega) hx).2]
    simp only [intRule, pairWeight, C17_prob_is_documented]
  | dblEllipsoid_ =>
    change ellIntegrate_ junk e ir ik = _
    rw [(C20_ellipsoid_rules ius junk e ir ik (by omega) hx).1]
    simp only [intRule, pairWeight, C17_prob_is_documented]
  | ngMatched => exact absurd rfl hcls.1
  | ngMatched_ => exact absurd rfl hcls.2

theorem simpsonTrap_mul (n : ℕ) (dx c : ℝ) (f : ℕ → ℝ) :
    Spec.simpsonTrap n dx (fun i => c * f i) = c * Spec.simpsonTrap n dx f := by
  unfold Spec.simpsonTrap
  split_ifs
  · exact basicSimpson_mul _ _ _ _
  · rw [basicSimpson_mul]; ring

theorem intRule_ok (cls : ExclCls) : RuleOk (intRule cls) := by
  cases cls
  case dblSphere_ => exact simpsonTrap_rule
  case dblEllipsoid_ => exact trapz_rule
  all_goals exact simpson_rule

theorem densRule_ok (cls : ExclCls) : RuleOk (densRule cls) := by
  cases cls
  case noExclusion | sphere | dblSphere | dblSphere_ => exact simpson_rule
  all_goals exact trapz_rule

/-- radius of a halo of mass `m` at mean density `ρ`, as documented. -/
noncomputable def haloRadius (ρ m : ℝ) : ℝ := (3 * m / (4 * Real.pi * ρ)) ^ ((1:ℝ) / 3)

/-- it is the radius of the sphere of that mass and density. -/
theorem haloRadius_is (ρ m : ℝ) (hρ : 0 < ρ) (hm : 0 < m) : Spec.IsHaloRadius m ρ (haloRadius ρ m) := by
  have hpi := Real.pi_pos
  have hpos : 0 < 3 * m / (4 * Real.pi * ρ) := by positivity
  refine ⟨by unfold haloRadius; positivity, ?_⟩
  have h3 : haloRadius ρ m ^ 3 = 3 * m / (4 * Real.pi * ρ) := by
    unfold haloRadius
    rw [← Real.rpow_natCast, ← Real.rpow_mul hpos.le]
    norm_num
  rw [h3]; field_simp

theorem haloRadius_pos (ρ m : ℝ) (hρ : 0 < ρ) (hm : 0 < m) : 0 < haloRadius ρ m := by
  have hpi := Real.pi_pos
  unfold haloRadius; positivity

theorem haloRadius_exp_mono (ρ : ℝ) (hρ : 0 < ρ) : StrictMono fun t => haloRadius ρ (Real.exp t) := by
  intro s t hst
  have hpi := Real.pi_pos
  have := Real.exp_lt_exp.mpr hst
  unfold haloRadius
  apply Real.rpow_lt_rpow (by positivity) _ (by norm_num)
  gcongr

theorem haloRadius_exp_cont (ρ : ℝ) : Continuous fun t => haloRadius ρ (Real.exp t) := by
  unfold haloRadius
  apply Continuous.rpow_const
  · fun_prop
  · intro t; right; norm_num

/-- the haloes with radius at most `x` are those up to some mass. -/
theorem haloRadius_cut (ρ x : ℝ) (hρ : 0 < ρ) (a : ℝ) : ∃ c, ∀ t, a ≤ t → (haloRadius ρ (Real.exp t) ≤ x ↔ t ≤ c) := by
  have hpi := Real.pi_pos
  by_cases hx : 0 < x
  · refine ⟨Real.log (4 / 3 * Real.pi * ρ * x ^ 3), fun t _ => ?_⟩
    have hr := haloRadius_is ρ (Real.exp t) hρ (Real.exp_pos t)
    have hk : 0 < 4 / 3 * Real.pi * ρ := by positivity
    rw [Real.le_log_iff_exp_le (by positivity)]
    have hr2 := hr.2
    have hr1 := hr.1
    generalize haloRadius ρ (Real.exp t) = R at *
    rw [← hr2]
    constructor
    · intro h
      have := pow_le_pow_left₀ hr1 h 3
      nlinarith
    · intro h
      by_contra h'
      have h2 := pow_lt_pow_left₀ (not_le.mp h') hx.le (by norm_num : (3:ℕ) ≠ 0)
      have := mul_lt_mul_of_pos_left h2 hk
      linarith
  · refine ⟨a - 1, fun t ht => ⟨fun h => ?_, fun h => by linarith⟩⟩
    have := haloRadius_pos ρ _ hρ (Real.exp_pos t)
    linarith

theorem ellipsoidP_cont : Continuous Spec.ellipsoidP := by
  have h : Spec.ellipsoidP = fun x => 3 * (min (max ((x - 0.8) / 0.29) 0) 1) ^ 2 - 2 * (min (max ((x - 0.8) / 0.29) 0) 1) ^ 3 := by
    funext x
    have := C17_prob_is_documented x (1/2) (1/2)
    unfold ellProb at this
    rw [show x / (1 / 2 + 1 / 2) = x by norm_num] at this
    rw [← this]
    norm_num
  rw [h]; fun_prop

/-- points of the refined grid stay in the interval. -/
theorem grid_mem {a b : ℝ} (hab : a < b) (n i : ℕ) (hi : i < n + 2) : a + (i:ℝ) * stp a b n ∈ Set.Icc a b := by
  have hn1 : (0:ℝ) < (n:ℝ) + 1 := by positivity
  have hh : 0 < stp a b n := div_pos (by linarith) hn1
  have hi' : (i:ℝ) ≤ (n:ℝ) + 1 := by exact_mod_cast (by omega : i ≤ n + 1)
  have e : stp a b n * ((n:ℝ) + 1) = b - a := by rw [stp]; field_simp
  constructor
  · nlinarith [Nat.cast_nonneg (α := ℝ) i]
  · nlinarith

theorem stp_pos {a b : ℝ} (hab : a < b) (n : ℕ) : 0 < stp a b n := div_pos (by linarith) (by positivity)

theorem rule_congr {Q : ℕ → ℝ → (ℕ → ℝ) → ℝ} (hQ : RuleOk Q) {h : ℝ} (hh : 0 < h) (n : ℕ) {f g : ℕ → ℝ}
    (hfg : ∀ i < n + 2, f i = g i) : Q (n + 2) h f = Q (n + 2) h g := by
  have := hQ.diff h 0 (n + 2) f g (by omega) hh (fun i hi => by rw [hfg i hi]; simp)
  rw [mul_zero] at this
  exact sub_eq_zero.mp (abs_nonpos_iff.mp this)

open Classical in
/-- a single cut quadrature converges. -/
theorem cut_tendsto {Q : ℕ → ℝ → (ℕ → ℝ) → ℝ} (hQ : RuleOk Q) {a b c : ℝ} (hab : a < b) {u : ℝ → ℝ} (hu : Continuous u) :
    Tendsto (fun n : ℕ => Q (n + 2) (stp a b n) fun i => if a + i * stp a b n ≤ c then u (a + i * stp a b n) else 0) atTop
      (𝓝 (∫ t in a..b, if t ≤ c then u t else 0)) := by
  rw [Metric.tendsto_atTop']
  intro ε hε
  have := inner_uniform hQ hab (g := fun _ t => u t) (p := fun _ t => t ≤ c) ⟨hu.comp continuous_snd, fun s _ => ⟨c, fun t _ => Iff.rfl⟩⟩ (ε / 2) (by linarith)
  obtain ⟨N, hN⟩ := eventually_atTop.mp this
  refine ⟨N, fun n hn => ?_⟩
  have h1 := hN n hn.le a ⟨le_rfl, hab.le⟩
  rw [Real.dist_eq]
  linarith

open Classical in
/-- the double quadrature of a weighted product converges, for every class of weights and every rule. -/
theorem weighted_tendsto_cont {Q : ℕ → ℝ → (ℕ → ℝ) → ℝ} (hQ : RuleOk Q) (hmul : ∀ n dx c f, Q n dx (fun i => c * f i) = c * Q n dx f)
    (cls : ExclCls) (ρ r a b : ℝ) (hρ : 0 < ρ) (hab : a < b) (u : ℝ → ℝ) (hu : Continuous u) :
    Tendsto (fun n : ℕ => Q (n + 2) (stp a b n) fun i => Q (n + 2) (stp a b n) fun j =>
      pairWeight cls r (haloRadius ρ (Real.exp (a + i * stp a b n))) (haloRadius ρ (Real.exp (a + j * stp a b n))) *
        (u (a + i * stp a b n) * u (a + j * stp a b n))) atTop
      (𝓝 (∫ s in a..b, ∫ t in a..b, pairWeight cls r (haloRadius ρ (Real.exp s)) (haloRadius ρ (Real.exp t)) * (u s * u t))) := by
  have hR := haloRadius_exp_cont ρ
  have hu2 : Continuous fun x : ℝ × ℝ => u x.1 * u x.2 := (hu.comp continuous_fst).mul (hu.comp continuous_snd)
  have hdbl : Tendsto (fun n : ℕ => Q (n + 2) (stp a b n) fun i => Q (n + 2) (stp a b n) fun j =>
      (if haloRadius ρ (Real.exp (a + i * stp a b n)) + haloRadius ρ (Real.exp (a + j * stp a b n)) ≤ r then (1:ℝ) else 0) *
        (u (a + i * stp a b n) * u (a + j * stp a b n))) atTop
      (𝓝 (∫ s in a..b, ∫ t in a..b, (if haloRadius ρ (Real.exp s) + haloRadius ρ (Real.exp t) ≤ r then (1:ℝ) else 0) * (u s * u t))) := by
    have := double_tendsto hQ hab (g := fun s t => u s * u t) (p := fun s t => haloRadius ρ (Real.exp s) + haloRadius ρ (Real.exp t) ≤ r)
      ⟨hu2, fun s _ => by
        obtain ⟨c, hc⟩ := haloRadius_cut ρ (r - haloRadius ρ (Real.exp s)) hρ a
        exact ⟨c, fun t ht => by rw [← hc t ht.1]; constructor <;> intro h <;> linarith⟩⟩
      (cut_continuous a b r hab _ hR (haloRadius_exp_mono ρ hρ) _ hu2).continuousOn
    simpa only [ite_mul, one_mul, zero_mul] using this
  have hell : Tendsto (fun n : ℕ => Q (n + 2) (stp a b n) fun i => Q (n + 2) (stp a b n) fun j =>
      Spec.ellipsoidP (r / (haloRadius ρ (Real.exp (a + i * stp a b n)) + haloRadius ρ (Real.exp (a + j * stp a b n)))) *
        (u (a + i * stp a b n) * u (a + j * stp a b n))) atTop
      (𝓝 (∫ s in a..b, ∫ t in a..b, Spec.ellipsoidP (r / (haloRadius ρ (Real.exp s) + haloRadius ρ (Real.exp t))) * (u s * u t))) := by
    have hc : Continuous fun x : ℝ × ℝ => Spec.ellipsoidP (r / (haloRadius ρ (Real.exp x.1) + haloRadius ρ (Real.exp x.2))) * (u x.1 * u x.2) := by
      refine Continuous.mul (ellipsoidP_cont.comp (Continuous.div continuous_const ((hR.comp continuous_fst).add (hR.comp continuous_snd)) fun x => ?_)) hu2
      exact (add_pos (haloRadius_pos ρ _ hρ (Real.exp_pos _)) (haloRadius_pos ρ _ hρ (Real.exp_pos _))).ne'
    have := double_tendsto hQ hab (g := fun s t => Spec.ellipsoidP (r / (haloRadius ρ (Real.exp s) + haloRadius ρ (Real.exp t))) * (u s * u t)) (p := fun _ _ => True)
      ⟨hc, fun s _ => ⟨b, fun t ht => ⟨fun _ => ht.2, fun _ => trivial⟩⟩⟩ (by
        simp only [if_true]
        exact (intervalIntegral.continuous_parametric_intervalIntegral_of_continuous' hc a b).continuousOn)
    simpa only [if_true] using this
  have hprod : ∀ (w : ℝ → ℝ) (v : ℝ), Tendsto (fun n : ℕ => Q (n + 2) (stp a b n) fun i => w (a + i * stp a b n)) atTop (𝓝 (∫ t in a..b, w t)) →
      Tendsto (fun n : ℕ => Q (n + 2) (stp a b n) fun i => Q (n + 2) (stp a b n) fun j => w (a + i * stp a b n) * w (a + j * stp a b n)) atTop
        (𝓝 (∫ s in a..b, ∫ t in a..b, w s * w t)) := by
    intro w _ hw
    have e1 : ∀ n : ℕ, (Q (n + 2) (stp a b n) fun i => Q (n + 2) (stp a b n) fun j => w (a + i * stp a b n) * w (a + j * stp a b n)) =
        (Q (n + 2) (stp a b n) fun i => w (a + i * stp a b n)) * (Q (n + 2) (stp a b n) fun i => w (a + i * stp a b n)) := by
      intro n
      have : (fun i : ℕ => Q (n + 2) (stp a b n) fun j => w (a + i * stp a b n) * w (a + j * stp a b n)) =
          fun i : ℕ => (Q (n + 2) (stp a b n) fun j => w (a + j * stp a b n)) * w (a + i * stp a b n) := by
        funext i; rw [hmul, mul_comm]
      rw [this, hmul]
    simp only [e1, intervalIntegral.integral_const_mul, intervalIntegral.integral_mul_const]
    exact hw.mul hw
  cases cls with
  | noExclusion =>
    simp only [pairWeight, one_mul]
    exact hprod u 0 (rule_tendsto hQ hab hu.continuousOn)
  | sphere =>
    obtain ⟨c, hc⟩ := haloRadius_cut ρ (r / 2) hρ a
    have hw := hprod (fun t => if t ≤ c then u t else 0) 0 (cut_tendsto hQ hab hu)
    have e : ∀ s ∈ Set.Icc a b, ∀ t ∈ Set.Icc a b, pairWeight .sphere r (haloRadius ρ (Real.exp s)) (haloRadius ρ (Real.exp t)) * (u s * u t) =
        (if s ≤ c then u s else 0) * (if t ≤ c then u t else 0) := by
      intro s hs t ht
      simp only [pairWeight, hc s hs.1, hc t ht.1]
      by_cases h1 : s ≤ c <;> by_cases h2 : t ≤ c <;> simp [h1, h2]
    have e2 : ∫ s in a..b, ∫ t in a..b, pairWeight .sphere r (haloRadius ρ (Real.exp s)) (haloRadius ρ (Real.exp t)) * (u s * u t) =
        ∫ s in a..b, ∫ t in a..b, (if s ≤ c then u s else 0) * (if t ≤ c then u t else 0) := by
      apply intervalIntegral.integral_congr
      intro s hs
      apply intervalIntegral.integral_congr
      intro t ht
      rw [Set.uIcc_of_le hab.le] at hs ht
      exact e s hs t ht
    rw [e2]
    refine hw.congr fun n => ?_
    apply rule_congr hQ (stp_pos hab n)
    intro i hi
    apply rule_congr hQ (stp_pos hab n)
    intro j hj
    exact (e _ (grid_mem hab n i hi) _ (grid_mem hab n j hj)).symm
  | dblSphere => exact hdbl
  | dblSphere_ => exact hdbl
  | dblEllipsoid => exact hell
  | dblEllipsoid_ => exact hell
  | ngMatched => exact hell
  | ngMatched_ => exact hell

theorem weighted_tendsto {Q : ℕ → ℝ → (ℕ → ℝ) → ℝ} (hQ : RuleOk Q) (hmul : ∀ n dx c f, Q n dx (fun i => c * f i) = c * Q n dx f)
    (cls : ExclCls) (ρ r a b : ℝ) (hρ : 0 < ρ) (hab : a < b) (u : ℝ → ℝ) (hu : ContinuousOn u (Set.Icc a b)) :
    Tendsto (fun n : ℕ => Q (n + 2) (stp a b n) fun i => Q (n + 2) (stp a b n) fun j =>
      pairWeight cls r (haloRadius ρ (Real.exp (a + i * stp a b n))) (haloRadius ρ (Real.exp (a + j * stp a b n))) *
        (u (a + i * stp a b n) * u (a + j * stp a b n))) atTop
      (𝓝 (∫ s in a..b, ∫ t in a..b, pairWeight cls r (haloRadius ρ (Real.exp s)) (haloRadius ρ (Real.exp t)) * (u s * u t))) := by
  set u' : ℝ → ℝ := Set.IccExtend hab.le (Set.domRestrict (Set.Icc a b) u) with hu'
  have huc : Continuous u' := (continuousOn_iff_continuous_domRestrict.mp hu).Icc_extend'
  have huu : ∀ t ∈ Set.Icc a b, u' t = u t := fun t ht => by rw [hu', Set.IccExtend_of_mem _ _ ht]; rfl
  have h := weighted_tendsto_cont hQ hmul cls ρ r a b hρ hab u' huc
  have e2 : ∫ s in a..b, ∫ t in a..b, pairWeight cls r (haloRadius ρ (Real.exp s)) (haloRadius ρ (Real.exp t)) * (u' s * u' t) =
      ∫ s in a..b, ∫ t in a..b, pairWeight cls r (haloRadius ρ (Real.exp s)) (haloRadius ρ (Real.exp t)) * (u s * u t) := by
    apply intervalIntegral.integral_congr
    intro s hs
    apply intervalIntegral.integral_congr
    intro t ht
    rw [Set.uIcc_of_le hab.le] at hs ht
    simp only [huu s hs, huu t ht]
  rw [e2] at h
  refine h.congr fun n => ?_
  apply rule_congr hQ (stp_pos hab n)
  intro i hi
  apply rule_congr hQ (stp_pos hab n)
  intro j hj
  rw [huu _ (grid_mem hab n i hi), huu _ (grid_mem hab n j hj)]

/-- the exclusion object built on `n + 2` masses spaced evenly in logarithm from `M0` to `M1`, for a density `D`, a
halo profile factor `P` and a bias `B` given as functions of mass, a separation `r` and no minimum mass. -/
noncomputable def refined (M0 M1 ρ r : ℝ) (D P B : ℝ → ℝ) (n : ℕ) : Excl where
  n := n + 2
  m := fun i => Real.exp (Real.log M0 + i * stp (Real.log M0) (Real.log M1) n)
  density := fun i => D (Real.exp (Real.log M0 + i * stp (Real.log M0) (Real.log M1) n))
  pint := fun _ i => P (Real.exp (Real.log M0 + i * stp (Real.log M0) (Real.log M1) n))
  bias := .d1 fun i => B (Real.exp (Real.log M0 + i * stp (Real.log M0) (Real.log M1) n))
  r := fun _ => r
  haloDensity := ρ
  xminArg := none

theorem refined_facts (M0 M1 ρ r : ℝ) (D P B : ℝ → ℝ) (n : ℕ) :
    (refined M0 M1 ρ r D P B n).dlnx = stp (Real.log M0) (Real.log M1) n ∧ (refined M0 M1 ρ r D P B n).xmin = none ∧
    ∀ i, (refined M0 M1 ρ r D P B n).rHalo i = haloRadius ρ (Real.exp (Real.log M0 + i * stp (Real.log M0) (Real.log M1) n)) := by
  refine ⟨?_, rfl, fun i => ?_⟩
  · simp only [refined, Excl.dlnx]
    rw [← Real.exp_sub, Real.log_exp]
    push_cast; ring
  · simp only [refined, Excl.rHalo, haloRadius]
    norm_num

/-- double change of variables to logarithms. -/
theorem double_log (W : ℝ → ℝ → ℝ) (V : ℝ → ℝ) {M0 M1 : ℝ} (h0 : 0 < M0) (h1 : M0 ≤ M1) :
    ∫ s in Real.log M0..Real.log M1, ∫ t in Real.log M0..Real.log M1, W (Real.exp s) (Real.exp t) * (V (Real.exp s) * Real.exp s * (V (Real.exp t) * Real.exp t)) =
      ∫ m1 in M0..M1, ∫ m2 in M0..M1, W m1 m2 * (V m1 * V m2) := by
  rw [← log_subst _ h0 h1]
  congr 1
  funext s
  rw [← log_subst _ h0 h1, ← intervalIntegral.integral_mul_const]
  congr 1
  funext t
  ring

theorem continuousOn_log {M0 M1 : ℝ} (h0 : 0 < M0) (h1 : M0 ≤ M1) {V : ℝ → ℝ} (hV : ContinuousOn V (Set.Icc M0 M1)) :
    ContinuousOn (fun t => V (Real.exp t) * Real.exp t) (Set.Icc (Real.log M0) (Real.log M1)) := by
  refine ContinuousOn.mul (hV.comp Real.continuous_exp.continuousOn fun t ht => ?_) Real.continuous_exp.continuousOn
  exact ⟨(Real.log_le_iff_le_exp h0).mp ht.1, (Real.le_log_iff_exp_le (h0.trans_le h1)).mp ht.2⟩

/-- C56: on finer and finer mass grids the bias-weighted integral of every exclusion class but the number-matched ones
converges to the documented double integral over pairs of halo masses — the same for a class and its compiled variant. -/
theorem C56_integrals (ius : Ius) (junk : Mat) (cls : ExclCls) (hcls : cls ≠ .ngMatched ∧ cls ≠ .ngMatched_)
    (M0 M1 ρ r : ℝ) (h0 : 0 < M0) (h1 : M0 < M1) (hρ : 0 < ρ) (hr : 0 ≤ r) (D P B : ℝ → ℝ)
    (hP : ContinuousOn P (Set.Icc M0 M1)) (hB : ContinuousOn B (Set.Icc M0 M1)) (ir ik : ℕ) :
    Tendsto (fun n => exclIntegrate ius junk cls (refined M0 M1 ρ r D P B n) ir ik) atTop
      (𝓝 (∫ m1 in M0..M1, ∫ m2 in M0..M1, pairWeight cls r (haloRadius ρ m1) (haloRadius ρ m2) * (P m1 * B m1 * (P m2 * B m2)))) := by
  have hl : Real.log M0 < Real.log M1 := Real.log_lt_log h0 h1
  have hmul : ∀ n dx c f, intRule cls n dx (fun i => c * f i) = c * intRule cls n dx f := by
    intro n dx c f
    cases cls <;> first | exact simpsonDx_mul n dx c f | exact trapzDx_mul n dx c f | exact simpsonTrap_mul n dx c f
  have key := weighted_tendsto (intRule_ok cls) hmul cls ρ r _ _ hρ hl _ (continuousOn_log h0 h1.le (hP.mul hB))
  rw [double_log (fun m1 m2 => pairWeight cls r (haloRadius ρ m1) (haloRadius ρ m2)) (fun m => (P * B) m) h0 h1.le] at key
  refine key.congr' ?_
  filter_upwards [eventually_ge_atTop 1] with n hn
  obtain ⟨f1, f2, f3⟩ := refined_facts M0 M1 ρ r D P B n
  rw [C56_integral_rule ius junk cls _ ir ik (by simp [refined]; omega) f2 (by simpa [refined] using hρ) (by simpa [refined] using hr)
    (fun i _ => Real.exp_pos _) hcls, f1]
  simp only [f3]
  simp only [refined, Excl.raw, one_mul, Pi.mul_apply]

/-- C56: likewise the modified density of every exclusion class converges to the square root of the documented double
integral of the densities over pairs of halo masses (for `Sphere` in absolute value). -/
theorem C56_densities (ius : Ius) (hi : IusOk ius) (junk : Mat) (cls : ExclCls) (hcls : cls ≠ .noExclusion)
    (M0 M1 ρ r : ℝ) (h0 : 0 < M0) (h1 : M0 < M1) (hρ : 0 < ρ) (hr : 0 ≤ r) (D P B : ℝ → ℝ)
    (hD : ContinuousOn D (Set.Icc M0 M1)) (ir : ℕ) :
    Tendsto (fun n => |exclDensityMod ius junk cls (refined M0 M1 ρ r D P B n) ir|) atTop
      (𝓝 (Real.sqrt (∫ m1 in M0..M1, ∫ m2 in M0..M1, pairWeight cls r (haloRadius ρ m1) (haloRadius ρ m2) * (D m1 * D m2)))) := by
  have hl : Real.log M0 < Real.log M1 := Real.log_lt_log h0 h1
  have hmul : ∀ n dx c f, densRule cls n dx (fun i => c * f i) = c * densRule cls n dx f := by
    intro n dx c f
    cases cls <;> first | exact simpsonDx_mul n dx c f | exact trapzDx_mul n dx c f
  have key := weighted_tendsto (densRule_ok cls) hmul cls ρ r _ _ hρ hl _ (continuousOn_log h0 h1.le hD)
  rw [double_log (fun m1 m2 => pairWeight cls r (haloRadius ρ m1) (haloRadius ρ m2)) D h0 h1.le] at key
  refine (key.sqrt).congr fun n => ?_
  obtain ⟨f1, f2, f3⟩ := refined_facts M0 M1 ρ r D P B n
  rw [(C54_density ius hi junk cls _ ir (by simp [refined]) f2 (by simpa [refined] using hρ) (by simpa [refined] using hr)
    (fun i _ => Real.exp_pos _)).2 hcls, f1]
  simp only [f3]
  simp only [refined]
  congr 2
  funext i
  congr 1
  funext j
  ring

/-- a case where the limits are known: unit integrands between masses 1 and 3, without exclusion, converge to the
square of the mass range; with any exclusion class the limit exists too -/
example (ius : Ius) (junk : Mat) : Tendsto (fun n => exclIntegrate ius junk .noExclusion (refined 1 3 1 1 (fun m => m) (fun _ => 1) (fun _ => 1) n) 0 0) atTop (𝓝 4) := by
  have := C56_integrals ius junk .noExclusion (by simp) 1 3 1 1 (by norm_num) (by norm_num) (by norm_num) (by norm_num) (fun m => m) (fun _ => 1) (fun _ => 1)
    continuousOn_const continuousOn_const 0 0
  simp only [pairWeight, mul_one] at this
  simp only [intervalIntegral.integral_const, smul_eq_mul, mul_one] at this
  norm_num at this
  exact this

end Halomod.HaloModel
