import Verif.Props.Bound2
import Verif.Props.HodSign

/-! # C74: how the tracer averages respond to the occupation parameters; C36: averages are averages

All on the mass grid the package makes, with the occupation's step inside it, for mass tables that are fine enough. -/
namespace Halomod.HaloModel

open Filter Topology MeasureTheory Halomod.Tools Halomod.HOD

/-! ## Weighted averages -/

/-- the average of an increasing function over the upper part of an interval exceeds the one over the whole. -/
theorem avg_upper {w g : ℝ → ℝ} {a b c : ℝ} (hab : a < b) (hbc : b < c) (hw : Tame w a c) (hg : Tame g a c) (pw : ∀ t, a < t → t < c → 0 < w t)
    (mg : StrictMonoOn g (Set.Icc a c)) :
    (∫ t in a..c, w t * g t) / (∫ t in a..c, w t) < (∫ t in b..c, w t * g t) / ∫ t in b..c, w t := by
  have ha : a ∈ Set.Icc a c := ⟨le_rfl, (hab.trans hbc).le⟩
  have hb : b ∈ Set.Icc a c := ⟨hab.le, hbc.le⟩
  have hc : c ∈ Set.Icc a c := ⟨(hab.trans hbc).le, le_rfl⟩
  have hwg := hw.mul hg
  have W1 : 0 < ∫ t in a..b, w t := intervalIntegral.intervalIntegral_pos_of_pos_on (hw.intervalIntegrable ha hb) (fun t ht => pw t ht.1 (ht.2.trans hbc)) hab
  have W2 : 0 < ∫ t in b..c, w t := intervalIntegral.intervalIntegral_pos_of_pos_on (hw.intervalIntegrable hb hc) (fun t ht => pw t (hab.trans ht.1) ht.2) hbc
  have X : (∫ t in a..b, w t * g t) < (∫ t in a..b, w t) * g b := by
    rw [← intervalIntegral.integral_mul_const, ← sub_pos, ← intervalIntegral.integral_sub ((hw.intervalIntegrable ha hb).mul_const _) (hwg.intervalIntegrable ha hb)]
    refine intervalIntegral.intervalIntegral_pos_of_pos_on (((hw.intervalIntegrable ha hb).mul_const _).sub (hwg.intervalIntegrable ha hb)) (fun t ht => ?_) hab
    have := mg ⟨ht.1.le, (ht.2.trans hbc).le⟩ hb ht.2
    have := mul_pos (pw t ht.1 (ht.2.trans hbc)) (sub_pos.2 this)
    linarith
  have Y : (∫ t in b..c, w t) * g b < ∫ t in b..c, w t * g t := by
    rw [← intervalIntegral.integral_mul_const, ← sub_pos, ← intervalIntegral.integral_sub (hwg.intervalIntegrable hb hc) ((hw.intervalIntegrable hb hc).mul_const _)]
    refine intervalIntegral.intervalIntegral_pos_of_pos_on ((hwg.intervalIntegrable hb hc).sub ((hw.intervalIntegrable hb hc).mul_const _)) (fun t ht => ?_) hbc
    have := mg hb ⟨(hab.trans ht.1).le, ht.2.le⟩ ht.1
    have := mul_pos (pw t (hab.trans ht.1) ht.2) (sub_pos.2 this)
    linarith
  rw [← intervalIntegral.integral_add_adjacent_intervals (hwg.intervalIntegrable ha hb) (hwg.intervalIntegrable hb hc),
    ← intervalIntegral.integral_add_adjacent_intervals (hw.intervalIntegrable ha hb) (hw.intervalIntegrable hb hc)]
  generalize (∫ t in a..b, w t * g t) = x at X ⊢
  generalize (∫ t in b..c, w t * g t) = y at Y ⊢
  generalize (∫ t in a..b, w t) = u at W1 X ⊢
  generalize (∫ t in b..c, w t) = v at W2 Y ⊢
  rw [div_lt_div_iff₀ (by linarith) W2]
  nlinarith [mul_lt_mul_of_pos_right X W2, mul_lt_mul_of_pos_right Y W1]

/-- giving more weight where the function is larger raises the average (Chebyshev). -/
theorem avg_tilt {w s g : ℝ → ℝ} {a c : ℝ} (hac : a < c) (hw : Tame w a c) (hs : ContinuousOn s (Set.Icc a c)) (hg : Tame g a c) (pw : ∀ t, a < t → t < c → 0 < w t)
    (ps : ∀ t ∈ Set.Icc a c, 0 < s t) (ms : StrictMonoOn s (Set.Icc a c)) (mg : StrictMonoOn g (Set.Icc a c)) :
    (∫ t in a..c, w t * g t) / (∫ t in a..c, w t) < (∫ t in a..c, w t * s t * g t) / ∫ t in a..c, w t * s t := by
  have ha : a ∈ Set.Icc a c := ⟨le_rfl, hac.le⟩
  have hc : c ∈ Set.Icc a c := ⟨hac.le, le_rfl⟩
  have ii : ∀ {f : ℝ → ℝ}, Tame f a c → IntervalIntegrable f volume a c := fun h => h.intervalIntegrable ha hc
  have ts : Tame s a c := ContinuousOn.tame hs
  have W : 0 < ∫ t in a..c, w t := intervalIntegral.intervalIntegral_pos_of_pos_on (ii hw) (fun t ht => pw t ht.1 ht.2) hac
  have S : 0 < ∫ t in a..c, w t * s t :=
    intervalIntegral.intervalIntegral_pos_of_pos_on (ii (hw.mul ts)) (fun t ht => mul_pos (pw t ht.1 ht.2) (ps t ⟨ht.1.le, ht.2.le⟩)) hac
  set q := (∫ t in a..c, w t * s t) / ∫ t in a..c, w t with hq
  have hqW : q * (∫ t in a..c, w t) = ∫ t in a..c, w t * s t := by rw [hq]; field_simp
  -- the mean of s is taken inside
  have q1 : s a ≤ q := by
    rw [hq, le_div_iff₀ W, mul_comm, ← intervalIntegral.integral_mul_const]
    refine intervalIntegral.integral_mono_on_of_le_Ioo hac.le ((ii hw).mul_const _) (ii (hw.mul ts)) fun t ht => ?_
    exact mul_le_mul_of_nonneg_left (ms.monotoneOn ha ⟨ht.1.le, ht.2.le⟩ ht.1.le) (pw t ht.1 ht.2).le
  have q2 : q ≤ s c := by
    rw [hq, div_le_iff₀ W, mul_comm, ← intervalIntegral.integral_mul_const]
    refine intervalIntegral.integral_mono_on_of_le_Ioo hac.le (ii (hw.mul ts)) ((ii hw).mul_const _) fun t ht => ?_
    exact mul_le_mul_of_nonneg_left (ms.monotoneOn ⟨ht.1.le, ht.2.le⟩ hc ht.2.le) (pw t ht.1 ht.2).le
  obtain ⟨x, hx, hxq⟩ := intermediate_value_Icc hac.le hs ⟨q1, q2⟩
  have key : 0 < ∫ t in a..c, w t * ((s t - q) * (g t - g x)) := by
    have tt : Tame (fun t => w t * ((s t - q) * (g t - g x))) a c :=
      hw.mul ((ts.add (tame_const (-q) a c)).mul (hg.add (tame_const (-g x) a c)))
    have nn : ∀ t ∈ Set.Ioo a c, t ≠ x → 0 < w t * ((s t - q) * (g t - g x)) := by
      intro t ht hne
      have htc : t ∈ Set.Icc a c := ⟨ht.1.le, ht.2.le⟩
      refine mul_pos (pw t ht.1 ht.2) ?_
      rw [← hxq]
      rcases lt_or_gt_of_ne hne with h | h
      · exact mul_pos_of_neg_of_neg (sub_neg.2 (ms htc hx h)) (sub_neg.2 (mg htc hx h))
      · exact mul_pos (sub_pos.2 (ms hx htc h)) (sub_pos.2 (mg hx htc h))
    -- split at a point different from x
    rw [← intervalIntegral.integral_add_adjacent_intervals (tt.intervalIntegrable ha hx) (tt.intervalIntegrable hx hc)]
    have n1 : 0 ≤ ∫ t in a..x, w t * ((s t - q) * (g t - g x)) :=
      intervalIntegral.integral_nonneg_of_ae_restrict hx.1 (by
        rw [Filter.EventuallyLE, ae_restrict_iff' measurableSet_Icc]
        have n0 := not_mem_ae (s := {a, x, c}) (Set.toFinite _).countable
        filter_upwards [n0] with t ht hm
        simp only [Set.mem_insert_iff, Set.mem_singleton_iff, not_or] at ht
        exact (nn t ⟨lt_of_le_of_ne hm.1 (Ne.symm ht.1), lt_of_le_of_ne (hm.2.trans hx.2) ht.2.2⟩ ht.2.1).le)
    have n2 : 0 ≤ ∫ t in x..c, w t * ((s t - q) * (g t - g x)) :=
      intervalIntegral.integral_nonneg_of_ae_restrict hx.2 (by
        rw [Filter.EventuallyLE, ae_restrict_iff' measurableSet_Icc]
        have n0 := not_mem_ae (s := {a, x, c}) (Set.toFinite _).countable
        filter_upwards [n0] with t ht hm
        simp only [Set.mem_insert_iff, Set.mem_singleton_iff, not_or] at ht
        exact (nn t ⟨lt_of_le_of_ne (hx.1.trans hm.1) (Ne.symm ht.1), lt_of_le_of_ne hm.2 ht.2.2⟩ ht.2.1).le)
    rcases lt_or_ge a x with h | h
    · have : 0 < ∫ t in a..x, w t * ((s t - q) * (g t - g x)) :=
        intervalIntegral.intervalIntegral_pos_of_pos_on (tt.intervalIntegrable ha hx) (fun t ht => nn t ⟨ht.1, ht.2.trans_le hx.2⟩ ht.2.ne) h
      linarith
    · have hxc : x < c := lt_of_le_of_lt h hac
      have : 0 < ∫ t in x..c, w t * ((s t - q) * (g t - g x)) :=
        intervalIntegral.intervalIntegral_pos_of_pos_on (tt.intervalIntegrable hx hc) (fun t ht => nn t ⟨hx.1.trans_lt ht.1, ht.2⟩ ht.1.ne') hxc
      linarith
  have e : (∫ t in a..c, w t * ((s t - q) * (g t - g x))) =
      (∫ t in a..c, w t * s t * g t) - q * (∫ t in a..c, w t * g t) - g x * ((∫ t in a..c, w t * s t) - q * ∫ t in a..c, w t) := by
    rw [show (fun t => w t * ((s t - q) * (g t - g x))) = fun t => ((w t * s t * g t) - q * (w t * g t)) - ((g x) * (w t * s t) - (g x * q) * w t) from
      funext fun t => by ring]
    rw [intervalIntegral.integral_sub, intervalIntegral.integral_sub, intervalIntegral.integral_sub, intervalIntegral.integral_const_mul,
      intervalIntegral.integral_const_mul, intervalIntegral.integral_const_mul]
    · ring
    · exact (ii (hw.mul ts)).const_mul _
    · exact (ii hw).const_mul _
    · exact ii ((hw.mul ts).mul hg)
    · exact (ii (hw.mul hg)).const_mul _
    · exact (ii ((hw.mul ts).mul hg)).sub ((ii (hw.mul hg)).const_mul _)
    · exact ((ii (hw.mul ts)).const_mul _).sub ((ii hw).const_mul _)
  rw [e, hqW] at key
  rw [div_lt_div_iff₀ W S, ← hqW]
  have h2 : q * (∫ t in a..c, w t * g t) < ∫ t in a..c, w t * s t * g t := by linarith
  have := mul_lt_mul_of_pos_right h2 W
  linarith [this]

/-- mixing in more of the component with the larger average raises the average. -/
theorem avg_mix {P W Q S k k' : ℝ} (hW : 0 < W) (hS : 0 < S) (h : P / W < Q / S) (hk : 0 ≤ k) (hkk : k < k') : (P + k * Q) / (W + k * S) < (P + k' * Q) / (W + k' * S) := by
  rw [div_lt_div_iff₀ hW hS] at h
  have hk' : 0 < k' := lt_of_le_of_lt hk hkk
  rw [div_lt_div_iff₀ (by positivity) (by positivity)]
  nlinarith [mul_lt_mul_of_pos_left h (sub_pos.2 hkk)]

theorem Tame.mono {f : ℝ → ℝ} {a b c d : ℝ} (hf : Tame f a b) (hc : a ≤ c) (hd : d ≤ b) : Tame f c d := by
  obtain ⟨⟨M, hM⟩, s, hs, hs'⟩ := hf
  have sub : Set.Icc c d ⊆ Set.Icc a b := Set.Icc_subset_Icc hc hd
  exact ⟨⟨M, fun m hm => hM m (sub hm)⟩, s, hs, fun m hm hn => (hs' m (sub hm) hn).mono sub⟩

/-! ## The limits of the tracer averages, for the default occupation with satellites only beside a central -/

/-- expected number of tracers of a halo that has its central. -/
noncomputable def full (M1 al m : ℝ) : ℝ := 1 + (m / 10 ^ M1) ^ al

theorem full_pos {M1 al m : ℝ} (hm : 0 < m) : 0 < full M1 al m := by
  unfold full
  have : 0 < (m / (10:ℝ) ^ M1) ^ al := Real.rpow_pos_of_pos (by positivity) _
  linarith

theorem full_tame (M1 al : ℝ) {a b : ℝ} (ha : 0 < a) : Tame (full M1 al) a b := (tame_const 1 a b).add (power_tame ha al)

theorem zehavi_limits (E : Env) (hs : SplLin E.isp) (hc : SplQuad E.isp) (h : HM) (p : ZehaviP) (hh : h.hod = zehavi05 p true) {lo hi : ℝ}
    (hlo : lo ≤ p.M_min) (hcut : p.M_min < hi) (D B : ℝ → ℝ) (U T Λ : ℕ → ℝ → ℝ)
    (hD : Tame D ((10:ℝ) ^ lo) ((10:ℝ) ^ hi)) (hB : Tame B ((10:ℝ) ^ lo) ((10:ℝ) ^ hi)) (hpos : ∀ m, (10:ℝ) ^ lo < m → m < (10:ℝ) ^ hi → 0 < D m) :
    0 < (∫ m in (10:ℝ) ^ p.M_min..(10:ℝ) ^ hi, D m * full p.M_1 p.alpha m) ∧
    Tendsto (fun d => (mesh h lo hi D B U T Λ d).meanTracerDen E) (𝓝[>] 0) (𝓝 (∫ m in (10:ℝ) ^ p.M_min..(10:ℝ) ^ hi, D m * full p.M_1 p.alpha m)) ∧
    Tendsto (fun d => (mesh h lo hi D B U T Λ d).biasEffTracer E) (𝓝[>] 0)
      (𝓝 ((∫ m in (10:ℝ) ^ p.M_min..(10:ℝ) ^ hi, D m * full p.M_1 p.alpha m * B m) / ∫ m in (10:ℝ) ^ p.M_min..(10:ℝ) ^ hi, D m * full p.M_1 p.alpha m)) ∧
    Tendsto (fun d => (mesh h lo hi D B U T Λ d).satFrac E) (𝓝[>] 0)
      (𝓝 ((∫ m in (10:ℝ) ^ p.M_min..(10:ℝ) ^ hi, D m * (m / 10 ^ p.M_1) ^ p.alpha) / ∫ m in (10:ℝ) ^ p.M_min..(10:ℝ) ^ hi, D m * full p.M_1 p.alpha m)) ∧
    Tendsto (fun d => (10:ℝ) ^ (mesh h lo hi D B U T Λ d).massEff E) (𝓝[>] 0)
      (𝓝 ((∫ m in (10:ℝ) ^ p.M_min..(10:ℝ) ^ hi, D m * full p.M_1 p.alpha m * m) / ∫ m in (10:ℝ) ^ p.M_min..(10:ℝ) ^ hi, D m * full p.M_1 p.alpha m)) := by
  have hlh : lo < hi := hlo.trans_lt hcut
  have hmax : max ((10:ℝ) ^ lo) (10 ^ p.M_min) = 10 ^ p.M_min := max_eq_right (Real.rpow_le_rpow_of_exponent_le (by norm_num) hlo)
  obtain ⟨h1, h2, h3, h4⟩ := C56_mesh_default E hs hc h p true hh hlh hcut D B U T Λ hD hB hpos (10 ^ p.M_min) (by rw [if_pos rfl, hmax]) (full p.M_1 p.alpha)
    (fun m => by simp [full])
  refine ⟨h1, h2, h3, h4, ?_⟩
  have hcut' : h.hod.sharpCut = true → h.hod.mmin < hi := fun _ => by rw [hh]; exact hcut
  have hlow : tracerLow h.hod ((10:ℝ) ^ lo) = 10 ^ p.M_min := by
    rw [hh]; unfold tracerLow
    simp only [zehavi05, poisson]
    simp [hmax]
  have ht : HodTame h.hod ((10:ℝ) ^ lo) ((10:ℝ) ^ hi) := by rw [hh]; exact hod_tame (.zehavi05 p) true trivial (by positivity) (pow_lt hlh).le
  have hac : (10:ℝ) ^ p.M_min < 10 ^ hi := pow_lt hcut
  have hnum : ∀ m ∈ Set.uIcc ((10:ℝ) ^ p.M_min) ((10:ℝ) ^ hi), tracerNumber h.hod m = full p.M_1 p.alpha m := by
    intro m hm
    rw [Set.uIcc_of_le hac.le] at hm
    rw [hh]
    unfold tracerNumber full
    simp [zehavi05, poisson, satelliteOccupation, zehaviSat, zehaviCen, not_lt.2 hm.1]
  have e1 : (∫ m in (10:ℝ) ^ p.M_min..(10:ℝ) ^ hi, D m * tracerNumber h.hod m) = ∫ m in (10:ℝ) ^ p.M_min..(10:ℝ) ^ hi, D m * full p.M_1 p.alpha m :=
    intervalIntegral.integral_congr fun m hm => by simp only [hnum m hm]
  have e2 : (∫ m in (10:ℝ) ^ p.M_min..(10:ℝ) ^ hi, m * D m * tracerNumber h.hod m) = ∫ m in (10:ℝ) ^ p.M_min..(10:ℝ) ^ hi, D m * full p.M_1 p.alpha m * m :=
    intervalIntegral.integral_congr fun m hm => by simp only [hnum m hm]; ring
  have hlo' : (10:ℝ) ^ lo ≤ 10 ^ p.M_min := Real.rpow_le_rpow_of_exponent_le (by norm_num) hlo
  have tD := Tame.mono hD hlo' le_rfl
  have p2 : 0 < ∫ m in (10:ℝ) ^ p.M_min..(10:ℝ) ^ hi, D m * full p.M_1 p.alpha m * m := by
    refine intervalIntegral.intervalIntegral_pos_of_pos_on
      (((tD.mul (full_tame _ _ (by positivity))).mul (tame_id _ _)).intervalIntegrable ⟨le_rfl, hac.le⟩ ⟨hac.le, le_rfl⟩) (fun m hm => ?_) hac
    have m0 : 0 < m := lt_trans (by positivity) hm.1
    exact mul_pos (mul_pos (hpos m (hlo'.trans_lt hm.1) hm.2) (full_pos m0)) m0
  have key := ((C56_mesh_tracer E hs hc h hlh hcut' D B U T Λ hD hB ht.1 ht.2.1).2 (by rw [hlow, e1]; exact h1.ne')).2.2 (by rw [hlow, e2]; exact p2.ne')
  rw [hlow, e1, e2, abs_of_pos (div_pos p2 h1)] at key
  exact key

theorem sat_mono {M1 al a b : ℝ} (ha : 0 < a) (hal : 0 < al) : StrictMonoOn (fun m : ℝ => (m / (10:ℝ) ^ M1) ^ al) (Set.Icc a b) := by
  intro x hx y hy hxy
  have hx0 : 0 < x := ha.trans_le hx.1
  exact Real.rpow_lt_rpow (by positivity) (div_lt_div_of_pos_right hxy (by positivity)) hal

/-- C74: take the default occupation with satellites only beside a central, two values `M_min < M_min'` of its mass threshold, and a model whose
halo bias increases with mass. With mass tables that are fine enough, the higher threshold has the lower mean tracer density, the higher effective
bias, the higher effective mass and (if satellites become more numerous with mass) the higher satellite fraction. -/
theorem C74_threshold (E : Env) (hs : SplLin E.isp) (hc : SplQuad E.isp) (h h' : HM) (p p' : ZehaviP) (hh : h.hod = zehavi05 p true)
    (hh' : h'.hod = zehavi05 p' true) {lo hi : ℝ} (hlo : lo ≤ p.M_min) (hlt : p.M_min < p'.M_min) (hcut : p'.M_min < hi)
    (hM1 : p'.M_1 = p.M_1) (hal : p'.alpha = p.alpha) (D B : ℝ → ℝ) (U T Λ : ℕ → ℝ → ℝ)
    (hD : Tame D ((10:ℝ) ^ lo) ((10:ℝ) ^ hi)) (hB : Tame B ((10:ℝ) ^ lo) ((10:ℝ) ^ hi)) (hpos : ∀ m, (10:ℝ) ^ lo < m → m < (10:ℝ) ^ hi → 0 < D m)
    (hmono : StrictMonoOn B (Set.Icc ((10:ℝ) ^ lo) ((10:ℝ) ^ hi))) :
    ∀ᶠ d in 𝓝[>] (0:ℝ), (mesh h' lo hi D B U T Λ d).meanTracerDen E < (mesh h lo hi D B U T Λ d).meanTracerDen E ∧
      (mesh h lo hi D B U T Λ d).biasEffTracer E < (mesh h' lo hi D B U T Λ d).biasEffTracer E ∧
      (mesh h lo hi D B U T Λ d).massEff E < (mesh h' lo hi D B U T Λ d).massEff E ∧
      (0 < p.alpha → (mesh h lo hi D B U T Λ d).satFrac E < (mesh h' lo hi D B U T Λ d).satFrac E) := by
  obtain ⟨p1, t1, b1, s1, m1⟩ := zehavi_limits E hs hc h p hh hlo (hlt.trans hcut) D B U T Λ hD hB hpos
  obtain ⟨p2, t2, b2, s2, m2⟩ := zehavi_limits E hs hc h' p' hh' (hlo.trans hlt.le) hcut D B U T Λ hD hB hpos
  rw [hM1, hal] at p2 t2 b2 s2 m2
  have hlo' : (10:ℝ) ^ lo ≤ 10 ^ p.M_min := Real.rpow_le_rpow_of_exponent_le (by norm_num) hlo
  have hab : (10:ℝ) ^ p.M_min < 10 ^ p'.M_min := pow_lt hlt
  have hbc : (10:ℝ) ^ p'.M_min < 10 ^ hi := pow_lt hcut
  have a0 : 0 < (10:ℝ) ^ p.M_min := by positivity
  have tD := Tame.mono hD hlo' le_rfl
  have tB := Tame.mono hB hlo' le_rfl
  have tN := full_tame p.M_1 p.alpha (b := (10:ℝ) ^ hi) a0
  have tS : Tame (fun m : ℝ => (m / (10:ℝ) ^ p.M_1) ^ p.alpha) ((10:ℝ) ^ p.M_min) ((10:ℝ) ^ hi) := power_tame a0 _
  have pw : ∀ t, (10:ℝ) ^ p.M_min < t → t < 10 ^ hi → 0 < D t * full p.M_1 p.alpha t := fun t ht ht' =>
    mul_pos (hpos t (hlo'.trans_lt ht) ht') (full_pos (a0.trans ht))
  generalize (10:ℝ) ^ p.M_min = a at *
  generalize (10:ℝ) ^ p'.M_min = b at *
  have ac : a ∈ Set.Icc a ((10:ℝ) ^ hi) := ⟨le_rfl, (hab.trans hbc).le⟩
  have bm : b ∈ Set.Icc a ((10:ℝ) ^ hi) := ⟨hab.le, hbc.le⟩
  have cc : (10:ℝ) ^ hi ∈ Set.Icc a ((10:ℝ) ^ hi) := ⟨(hab.trans hbc).le, le_rfl⟩
  have den : (∫ m in b..(10:ℝ) ^ hi, D m * full p.M_1 p.alpha m) < ∫ m in a..(10:ℝ) ^ hi, D m * full p.M_1 p.alpha m := by
    rw [← intervalIntegral.integral_add_adjacent_intervals ((tD.mul tN).intervalIntegrable ac bm) ((tD.mul tN).intervalIntegrable bm cc)]
    have := intervalIntegral.intervalIntegral_pos_of_pos_on ((tD.mul tN).intervalIntegrable ac bm) (fun t ht => pw t ht.1 (ht.2.trans hbc)) hab
    linarith
  have bias := avg_upper hab hbc (tD.mul tN) tB pw (hmono.mono (Set.Icc_subset_Icc hlo' le_rfl))
  have mass := avg_upper hab hbc (tD.mul tN) (tame_id _ _) pw (fun x _ y _ hxy => hxy)
  have sat : 0 < p.alpha → (∫ m in a..(10:ℝ) ^ hi, D m * (m / 10 ^ p.M_1) ^ p.alpha) / (∫ m in a..(10:ℝ) ^ hi, D m * full p.M_1 p.alpha m) <
      (∫ m in b..(10:ℝ) ^ hi, D m * (m / 10 ^ p.M_1) ^ p.alpha) / ∫ m in b..(10:ℝ) ^ hi, D m * full p.M_1 p.alpha m := by
    intro ha
    have cont : ContinuousOn (fun m : ℝ => (m / (10:ℝ) ^ p.M_1) ^ p.alpha / full p.M_1 p.alpha m) (Set.Icc a ((10:ℝ) ^ hi)) := by
      unfold full
      have c1 : ContinuousOn (fun m : ℝ => (m / (10:ℝ) ^ p.M_1) ^ p.alpha) (Set.Icc a ((10:ℝ) ^ hi)) :=
        ContinuousOn.rpow_const (continuousOn_id.div_const _) fun m hm => Or.inl (by have := a0.trans_le hm.1; positivity)
      exact c1.div (continuousOn_const.add c1) fun m hm => (full_pos (a0.trans_le hm.1)).ne'
    have key := avg_upper hab hbc (tD.mul tN) (ContinuousOn.tame cont) pw (by
      intro x hx y hy hxy
      have l := sat_mono (M1 := p.M_1) a0 ha hx hy hxy
      have hx0 : 0 < x := a0.trans_le hx.1
      have hy0 : 0 < y := a0.trans_le hy.1
      change _ / _ < _ / _
      rw [div_lt_div_iff₀ (full_pos hx0) (full_pos hy0)]
      unfold full
      simp only at l
      nlinarith)
    have e : ∀ u, u ∈ Set.Icc a ((10:ℝ) ^ hi) → (∫ m in u..(10:ℝ) ^ hi, D m * full p.M_1 p.alpha m * ((m / (10:ℝ) ^ p.M_1) ^ p.alpha / full p.M_1 p.alpha m)) =
        ∫ m in u..(10:ℝ) ^ hi, D m * (m / 10 ^ p.M_1) ^ p.alpha := fun u hu =>
      intervalIntegral.integral_congr fun m hm => by
        rw [Set.uIcc_of_le hu.2] at hm
        have := full_pos (M1 := p.M_1) (al := p.alpha) (a0.trans_le (hu.1.trans hm.1))
        field_simp
    rw [e a ac, e b bm] at key
    exact key
  have f1 := t2.eventually_lt t1 den
  have f2 := b1.eventually_lt b2 bias
  have f3 := m1.eventually_lt m2 mass
  by_cases ha : 0 < p.alpha
  · filter_upwards [f1, f2, f3, s1.eventually_lt s2 (sat ha)] with d g1 g2 g3 g4
    exact ⟨g1, g2, (Real.rpow_lt_rpow_left_iff (by norm_num)).1 g3, fun _ => g4⟩
  · filter_upwards [f1, f2, f3] with d g1 g2 g3
    exact ⟨g1, g2, (Real.rpow_lt_rpow_left_iff (by norm_num)).1 g3, fun h => absurd h ha⟩

/-- C74: under the same conditions, making satellites more numerous (a smaller `M_1`, with `alpha > 0`) raises the mean tracer density, the effective
bias, the effective mass and the satellite fraction. -/
theorem C74_satellites (E : Env) (hs : SplLin E.isp) (hc : SplQuad E.isp) (h h' : HM) (p p' : ZehaviP) (hh : h.hod = zehavi05 p true)
    (hh' : h'.hod = zehavi05 p' true) {lo hi : ℝ} (hlo : lo ≤ p.M_min) (hcut : p.M_min < hi) (hM : p'.M_min = p.M_min)
    (hM1 : p'.M_1 < p.M_1) (hal : p'.alpha = p.alpha) (ha : 0 < p.alpha) (D B : ℝ → ℝ) (U T Λ : ℕ → ℝ → ℝ)
    (hD : Tame D ((10:ℝ) ^ lo) ((10:ℝ) ^ hi)) (hB : Tame B ((10:ℝ) ^ lo) ((10:ℝ) ^ hi)) (hpos : ∀ m, (10:ℝ) ^ lo < m → m < (10:ℝ) ^ hi → 0 < D m)
    (hmono : StrictMonoOn B (Set.Icc ((10:ℝ) ^ lo) ((10:ℝ) ^ hi))) :
    ∀ᶠ d in 𝓝[>] (0:ℝ), (mesh h lo hi D B U T Λ d).meanTracerDen E < (mesh h' lo hi D B U T Λ d).meanTracerDen E ∧
      (mesh h lo hi D B U T Λ d).biasEffTracer E < (mesh h' lo hi D B U T Λ d).biasEffTracer E ∧
      (mesh h lo hi D B U T Λ d).massEff E < (mesh h' lo hi D B U T Λ d).massEff E ∧
      (mesh h lo hi D B U T Λ d).satFrac E < (mesh h' lo hi D B U T Λ d).satFrac E := by
  obtain ⟨p1, t1, b1, s1, m1⟩ := zehavi_limits E hs hc h p hh hlo hcut D B U T Λ hD hB hpos
  obtain ⟨p2, t2, b2, s2, m2⟩ := zehavi_limits E hs hc h' p' hh' (by rw [hM]; exact hlo) (by rw [hM]; exact hcut) D B U T Λ hD hB hpos
  rw [hM, hal] at p2 t2 b2 s2 m2
  have hlo' : (10:ℝ) ^ lo ≤ 10 ^ p.M_min := Real.rpow_le_rpow_of_exponent_le (by norm_num) hlo
  have hac : (10:ℝ) ^ p.M_min < 10 ^ hi := pow_lt hcut
  have a0 : 0 < (10:ℝ) ^ p.M_min := by positivity
  have tD := Tame.mono hD hlo' le_rfl
  have tB := Tame.mono hB hlo' le_rfl
  have pw : ∀ t, (10:ℝ) ^ p.M_min < t → t < 10 ^ hi → 0 < D t := fun t ht ht' => hpos t (hlo'.trans_lt ht) ht'
  generalize (10:ℝ) ^ p.M_min = a at *
  have ac : a ∈ Set.Icc a ((10:ℝ) ^ hi) := ⟨le_rfl, hac.le⟩
  have cc : (10:ℝ) ^ hi ∈ Set.Icc a ((10:ℝ) ^ hi) := ⟨hac.le, le_rfl⟩
  have cs : ContinuousOn (fun m : ℝ => m ^ p.alpha) (Set.Icc a ((10:ℝ) ^ hi)) :=
    ContinuousOn.rpow_const continuousOn_id fun m hm => Or.inl (a0.trans_le hm.1).ne'
  have ts : Tame (fun m : ℝ => m ^ p.alpha) a ((10:ℝ) ^ hi) := ContinuousOn.tame cs
  have ms : StrictMonoOn (fun m : ℝ => m ^ p.alpha) (Set.Icc a ((10:ℝ) ^ hi)) := fun x hx y _ hxy =>
    Real.rpow_lt_rpow (a0.trans_le hx.1).le hxy ha
  have ps : ∀ t ∈ Set.Icc a ((10:ℝ) ^ hi), 0 < t ^ p.alpha := fun t ht => Real.rpow_pos_of_pos (a0.trans_le ht.1) _
  have ii : ∀ {f : ℝ → ℝ}, Tame f a ((10:ℝ) ^ hi) → IntervalIntegrable f volume a ((10:ℝ) ^ hi) := fun hf => hf.intervalIntegrable ac cc
  have W : 0 < ∫ t in a..(10:ℝ) ^ hi, D t := intervalIntegral.intervalIntegral_pos_of_pos_on (ii tD) (fun t ht => pw t ht.1 ht.2) hac
  have S : 0 < ∫ t in a..(10:ℝ) ^ hi, D t * t ^ p.alpha :=
    intervalIntegral.intervalIntegral_pos_of_pos_on (ii (tD.mul ts)) (fun t ht => mul_pos (pw t ht.1 ht.2) (ps t ⟨ht.1.le, ht.2.le⟩)) hac
  -- satellite occupations as multiples of one power law
  have law : ∀ M1 m : ℝ, m ∈ Set.Icc a ((10:ℝ) ^ hi) → (m / (10:ℝ) ^ M1) ^ p.alpha = ((10:ℝ) ^ M1)⁻¹ ^ p.alpha * m ^ p.alpha := fun M1 m hm => by
    rw [← Real.mul_rpow (by positivity) (a0.trans_le hm.1).le]; congr 1; ring
  have split : ∀ (M1 : ℝ) (g : ℝ → ℝ), Tame g a ((10:ℝ) ^ hi) → (∫ m in a..(10:ℝ) ^ hi, D m * full M1 p.alpha m * g m) =
      (∫ m in a..(10:ℝ) ^ hi, D m * g m) + ((10:ℝ) ^ M1)⁻¹ ^ p.alpha * ∫ m in a..(10:ℝ) ^ hi, D m * m ^ p.alpha * g m := by
    intro M1 g hg
    rw [← intervalIntegral.integral_const_mul, ← intervalIntegral.integral_add (ii (tD.mul hg)) ((ii ((tD.mul ts).mul hg)).const_mul _)]
    refine intervalIntegral.integral_congr fun m hm => ?_
    rw [Set.uIcc_of_le hac.le] at hm
    simp only [full, law M1 m hm]
    ring
  have den1 : ∀ M1 : ℝ, (∫ m in a..(10:ℝ) ^ hi, D m * full M1 p.alpha m) =
      (∫ m in a..(10:ℝ) ^ hi, D m) + ((10:ℝ) ^ M1)⁻¹ ^ p.alpha * ∫ m in a..(10:ℝ) ^ hi, D m * m ^ p.alpha := fun M1 => by
    have := split M1 (fun _ => 1) (tame_const _ _ _)
    simpa only [mul_one] using this
  have satN : ∀ M1 : ℝ, (∫ m in a..(10:ℝ) ^ hi, D m * (m / 10 ^ M1) ^ p.alpha) = ((10:ℝ) ^ M1)⁻¹ ^ p.alpha * ∫ m in a..(10:ℝ) ^ hi, D m * m ^ p.alpha := fun M1 => by
    rw [← intervalIntegral.integral_const_mul]
    refine intervalIntegral.integral_congr fun m hm => ?_
    rw [Set.uIcc_of_le hac.le] at hm
    simp only [law M1 m hm]
    ring
  have kk : ((10:ℝ) ^ p.M_1)⁻¹ ^ p.alpha < ((10:ℝ) ^ p'.M_1)⁻¹ ^ p.alpha :=
    Real.rpow_lt_rpow (by positivity) ((inv_lt_inv₀ (by positivity) (by positivity)).2 (pow_lt hM1)) ha
  have k0 : 0 < ((10:ℝ) ^ p.M_1)⁻¹ ^ p.alpha := by positivity
  have bias := avg_mix W S (avg_tilt hac tD cs tB pw ps ms (hmono.mono (Set.Icc_subset_Icc hlo' le_rfl))) k0.le kk
  have mass := avg_mix W S (avg_tilt hac tD cs (tame_id _ _) pw ps ms (fun x _ y _ hxy => hxy)) k0.le kk
  rw [split p.M_1 B tB, den1] at b1
  rw [split p'.M_1 B tB, den1] at b2
  rw [split p.M_1 _ (tame_id _ _), den1] at m1
  rw [split p'.M_1 _ (tame_id _ _), den1] at m2
  rw [satN, den1] at s1 s2
  rw [den1] at t1 t2
  filter_upwards [t1.eventually_lt t2 (by linarith [mul_lt_mul_of_pos_right kk S]), b1.eventually_lt b2 bias, m1.eventually_lt m2 mass,
    s1.eventually_lt s2 (by
      have k1 := k0.trans kk
      rw [div_lt_div_iff₀ (by positivity) (by positivity)]
      nlinarith [mul_lt_mul_of_pos_right kk (mul_pos S W)])] with d g1 g2 g3 g4
  exact ⟨g1, g2, (Real.rpow_lt_rpow_left_iff (by norm_num)).1 g3, g4⟩

/-! ## Without that condition -/

/-- the integral of a function that vanishes below a step. -/
theorem step_integral {f : ℝ → ℝ} {a b c : ℝ} (hab : a ≤ b) (hbc : b ≤ c) (hf : Tame f a c) :
    (∫ m in a..c, if m < b then 0 else f m) = ∫ m in b..c, f m := by
  have ha : a ∈ Set.Icc a c := ⟨le_rfl, hab.trans hbc⟩
  have hb : b ∈ Set.Icc a c := ⟨hab, hbc⟩
  have hc : c ∈ Set.Icc a c := ⟨hab.trans hbc, le_rfl⟩
  have t : Tame (fun m => if m < b then 0 else f m) a c := tame_step (tame_const 0 a c) hf
  rw [← intervalIntegral.integral_add_adjacent_intervals (t.intervalIntegrable ha hb) (t.intervalIntegrable hb hc)]
  rw [intervalIntegral.integral_congr_Ioo_of_le (g := fun _ => (0:ℝ)) hab (fun m hm => if_pos hm.2),
    intervalIntegral.integral_congr_Ioo_of_le (g := f) hbc (fun m hm => if_neg (not_lt.2 hm.1.le))]
  simp

theorem log_tenth (x : ℝ) (hx : 0 < x) : (10:ℝ) ^ (Real.logb 10 x) = x := Real.rpow_logb (by norm_num) (by norm_num) hx

/-- the limits in the example below, for a threshold at mass `x`. -/
theorem fails_limits (E : Env) (hs : SplLin E.isp) (hc : SplQuad E.isp) (h : HM) (x : ℝ) (h1 : 1 < x) (h10 : x < 10)
    (hh : h.hod = zehavi05 { M_min := Real.logb 10 x, M_1 := 0, alpha := 1 } false) (U T Λ : ℕ → ℝ → ℝ) :
    Tendsto (fun d => (mesh h 0 1 (fun m => m⁻¹) (fun m => m) U T Λ d).biasEffTracer E) (𝓝[>] 0) (𝓝 ((10 - x + 99 / 2) / (Real.log (10 / x) + 9))) := by
  have hl : Real.logb 10 x < 1 := by rw [Real.logb_lt_iff_lt_rpow (by norm_num) (by linarith)]; simpa using h10
  have e0 : (10:ℝ) ^ (0:ℝ) = 1 := Real.rpow_zero _
  have e1 : (10:ℝ) ^ (1:ℝ) = 10 := Real.rpow_one _
  have key := (C56_mesh_default E hs hc h { M_min := Real.logb 10 x, M_1 := 0, alpha := 1 } false hh (lo := 0) (hi := 1) (by norm_num) hl (fun m => m⁻¹) (fun m => m) U T Λ
    inv_tame (tame_id _ _) (fun m hm _ => inv_pos.2 (by rw [e0] at hm; linarith)) _ rfl (fun m => (if m < x then 0 else 1) + m)
    (fun m => by simp [log_tenth x (by linarith)])).2.2.1
  simp only [Bool.false_eq_true, if_false, e0, e1] at key
  have ti : Tame (fun m : ℝ => m⁻¹) 1 10 := by have := inv_tame (lo := 0) (hi := 1); rwa [e0, e1] at this
  have i1 : (∫ m in (1:ℝ)..10, m⁻¹ * ((if m < x then 0 else 1) + m) * m) = 10 - x + 99 / 2 := by
    rw [show (10 - x + 99 / 2 : ℝ) = (∫ m in (1:ℝ)..10, if m < x then 0 else (1:ℝ)) + ∫ m in (1:ℝ)..10, m by
      rw [step_integral h1.le h10.le (tame_const 1 _ _)]; simp; norm_num]
    rw [← intervalIntegral.integral_add ((tame_step (tame_const 0 _ _) (tame_const 1 _ _)).intervalIntegrable ⟨le_rfl, by norm_num⟩ ⟨by norm_num, le_rfl⟩)
      ((tame_id 1 10).intervalIntegrable ⟨le_rfl, by norm_num⟩ ⟨by norm_num, le_rfl⟩)]
    refine intervalIntegral.integral_congr fun m hm => ?_
    rw [Set.uIcc_of_le (by norm_num)] at hm
    have : m ≠ 0 := by have := hm.1; linarith
    field_simp
  have i2 : (∫ m in (1:ℝ)..10, m⁻¹ * ((if m < x then 0 else 1) + m)) = Real.log (10 / x) + 9 := by
    rw [show Real.log (10 / x) + 9 = (∫ m in (1:ℝ)..10, if m < x then 0 else m⁻¹) + ∫ m in (1:ℝ)..10, (1:ℝ) by
      rw [step_integral h1.le h10.le ti, integral_inv_of_pos (by linarith) (by norm_num)]; simp; norm_num]
    rw [← intervalIntegral.integral_add ((tame_step (tame_const 0 _ _) ti).intervalIntegrable ⟨le_rfl, by norm_num⟩ ⟨by norm_num, le_rfl⟩)
      ((tame_const 1 1 10).intervalIntegrable ⟨le_rfl, by norm_num⟩ ⟨by norm_num, le_rfl⟩)]
    refine intervalIntegral.integral_congr fun m hm => ?_
    rw [Set.uIcc_of_le (by norm_num)] at hm
    have : m ≠ 0 := by have := hm.1; linarith
    split_ifs <;> (field_simp; try ring)
  rw [i1, i2] at key
  exact key

/-- C74 (finding): with the default `central = False` satellites live in haloes below the threshold too, and raising the threshold only removes
centrals. Then it can lower the effective bias, although the halo bias increases with mass: with `dndm = 1 / m`, bias `m` and one satellite per unit
mass on masses 1 to 10, moving the threshold from 5 to 9 does so on every mass table that is fine enough. -/
theorem C74_without_condition_fails (E : Env) (hs : SplLin E.isp) (hc : SplQuad E.isp) (h h' : HM)
    (hh : h.hod = zehavi05 { M_min := Real.logb 10 5, M_1 := 0, alpha := 1 } false)
    (hh' : h'.hod = zehavi05 { M_min := Real.logb 10 9, M_1 := 0, alpha := 1 } false) (U T Λ : ℕ → ℝ → ℝ) :
    ∀ᶠ d in 𝓝[>] (0:ℝ), (mesh h' 0 1 (fun m => m⁻¹) (fun m => m) U T Λ d).biasEffTracer E <
      (mesh h 0 1 (fun m => m⁻¹) (fun m => m) U T Λ d).biasEffTracer E := by
  refine (fails_limits E hs hc h' 9 (by norm_num) (by norm_num) hh' U T Λ).eventually_lt
    (fails_limits E hs hc h 5 (by norm_num) (by norm_num) hh U T Λ) ?_
  have l2 : Real.log (10 / 5) < 0.6931471808 := by
    rw [show (10 / 5 : ℝ) = 2 by norm_num]; exact Real.log_two_lt_d9
  have l2' : 0 < Real.log (10 / 5) := Real.log_pos (by norm_num)
  have l9 : (1:ℝ) / 10 ≤ Real.log (10 / 9) := by
    have := Real.one_sub_inv_le_log_of_pos (show (0:ℝ) < 10 / 9 by norm_num)
    norm_num at this ⊢
    linarith
  rw [div_lt_div_iff₀ (by linarith) (by linarith)]
  nlinarith

/-! ## Averages are averages -/

/-- C36: for every HOD class, with mass tables ever finer, the effective bias of the tracers tends to a value between the least and the greatest
halo bias, their satellite fraction to one between 0 and 1, and `10 ** mass_effective` to a mass between the smallest that can host a tracer and the
largest tabulated - with no assumption on quadrature weights. -/
theorem C36_mesh_averages (E : Env) (hs : SplLin E.isp) (hc : SplQuad E.isp) (h : HM) (i : HodInst) (central : Bool) (hh : h.hod = i.mk central) (hl : i.Legal)
    (hr : i.Regular central) {lo hi : ℝ} (hlh : lo < hi) (hcut : h.hod.sharpCut = true → h.hod.mmin < hi) (D B : ℝ → ℝ) (U T Λ : ℕ → ℝ → ℝ)
    (hD : Tame D ((10:ℝ) ^ lo) ((10:ℝ) ^ hi)) (hB : Tame B ((10:ℝ) ^ lo) ((10:ℝ) ^ hi)) (pD : ∀ m ∈ Set.Icc ((10:ℝ) ^ lo) ((10:ℝ) ^ hi), 0 ≤ D m)
    (hden : 0 < ∫ m in tracerLow h.hod ((10:ℝ) ^ lo)..(10:ℝ) ^ hi, D m * tracerNumber h.hod m)
    (bl bu : ℝ) (hb : ∀ m ∈ Set.Icc ((10:ℝ) ^ lo) ((10:ℝ) ^ hi), bl ≤ B m ∧ B m ≤ bu) :
    ∃ n b f M : ℝ, Tendsto (fun d => (mesh h lo hi D B U T Λ d).meanTracerDen E) (𝓝[>] 0) (𝓝 n) ∧ 0 < n ∧
      Tendsto (fun d => (mesh h lo hi D B U T Λ d).biasEffTracer E) (𝓝[>] 0) (𝓝 b) ∧ bl ≤ b ∧ b ≤ bu ∧
      Tendsto (fun d => (mesh h lo hi D B U T Λ d).satFrac E) (𝓝[>] 0) (𝓝 f) ∧ 0 ≤ f ∧ f ≤ 1 ∧
      Tendsto (fun d => (mesh h lo hi D B U T Λ d).massEff E) (𝓝[>] 0) (𝓝 M) ∧ tracerLow h.hod ((10:ℝ) ^ lo) ≤ (10:ℝ) ^ M ∧ M ≤ hi := by
  have ht : HodTame h.hod ((10:ℝ) ^ lo) ((10:ℝ) ^ hi) := by rw [hh]; exact hod_tame i central hr (by positivity) (pow_lt hlh).le
  obtain ⟨a1, a2⟩ := tracerLow_between hlh hcut
  obtain ⟨t1, rest⟩ := C56_mesh_tracer E hs hc h hlh hcut D B U T Λ hD hB ht.1 ht.2.1
  obtain ⟨t2, t3, t4⟩ := rest hden.ne'
  have l0 : 0 < (10:ℝ) ^ lo := by positivity
  have nn : ∀ m ∈ Set.Icc ((10:ℝ) ^ lo) ((10:ℝ) ^ hi), 0 ≤ h.hod.satOcc m ∧ h.hod.satOcc m ≤ tracerNumber h.hod m := by
    intro m hm
    have k := C05_nonneg i hl central m (l0.trans_le hm.1)
    rw [← hh] at k
    refine ⟨k.satOcc, ?_⟩
    unfold tracerNumber
    have := k.cenOcc
    split_ifs <;> linarith
  generalize tracerLow h.hod ((10:ℝ) ^ lo) = a at *
  have am : a ∈ Set.Icc ((10:ℝ) ^ lo) ((10:ℝ) ^ hi) := ⟨a1, a2.le⟩
  have cm : (10:ℝ) ^ hi ∈ Set.Icc ((10:ℝ) ^ lo) ((10:ℝ) ^ hi) := ⟨a1.trans a2.le, le_rfl⟩
  have ii : ∀ {f : ℝ → ℝ}, Tame f ((10:ℝ) ^ lo) ((10:ℝ) ^ hi) → IntervalIntegrable f volume a ((10:ℝ) ^ hi) := fun hf => hf.intervalIntegrable am cm
  have sub : ∀ m ∈ Set.Icc a ((10:ℝ) ^ hi), m ∈ Set.Icc ((10:ℝ) ^ lo) ((10:ℝ) ^ hi) := fun m hm => ⟨a1.trans hm.1, hm.2⟩
  have w : ∀ m ∈ Set.Icc a ((10:ℝ) ^ hi), 0 ≤ D m * tracerNumber h.hod m := fun m hm =>
    mul_nonneg (pD m (sub m hm)) ((nn m (sub m hm)).1.trans (nn m (sub m hm)).2)
  have wN := hD.mul ht.1
  have mlow : a * (∫ m in a..(10:ℝ) ^ hi, D m * tracerNumber h.hod m) ≤ ∫ m in a..(10:ℝ) ^ hi, m * D m * tracerNumber h.hod m := by
    rw [← intervalIntegral.integral_const_mul]
    refine intervalIntegral.integral_mono_on a2.le ((ii wN).const_mul _) (ii (((tame_id _ _).mul hD).mul ht.1)) fun m hm => ?_
    rw [mul_assoc m]
    exact mul_le_mul_of_nonneg_right hm.1 (w m hm)
  have mhigh : (∫ m in a..(10:ℝ) ^ hi, m * D m * tracerNumber h.hod m) ≤ (10:ℝ) ^ hi * (∫ m in a..(10:ℝ) ^ hi, D m * tracerNumber h.hod m) := by
    rw [← intervalIntegral.integral_const_mul]
    refine intervalIntegral.integral_mono_on a2.le (ii (((tame_id _ _).mul hD).mul ht.1)) ((ii wN).const_mul _) fun m hm => ?_
    rw [mul_assoc m]
    exact mul_le_mul_of_nonneg_right hm.2 (w m hm)
  have a0 : 0 < a := l0.trans_le a1
  have num0 := (mul_pos a0 hden).trans_le mlow
  have q0 := div_pos num0 hden
  have t4' := t4 num0.ne'
  rw [abs_of_pos q0] at t4'
  refine ⟨_, _, _, Real.logb 10 ((∫ m in a..(10:ℝ) ^ hi, m * D m * tracerNumber h.hod m) / ∫ m in a..(10:ℝ) ^ hi, D m * tracerNumber h.hod m),
    t1, hden, t2, ?_, ?_, t3, ?_, ?_, ?_, ?_, ?_⟩
  · rw [le_div_iff₀ hden, ← intervalIntegral.integral_const_mul]
    refine intervalIntegral.integral_mono_on a2.le ((ii wN).const_mul _) (ii (wN.mul hB)) fun m hm => ?_
    rw [mul_comm bl]
    exact mul_le_mul_of_nonneg_left (hb m (sub m hm)).1 (w m hm)
  · rw [div_le_iff₀ hden, ← intervalIntegral.integral_const_mul]
    refine intervalIntegral.integral_mono_on a2.le (ii (wN.mul hB)) ((ii wN).const_mul _) fun m hm => ?_
    rw [mul_comm bu]
    exact mul_le_mul_of_nonneg_left (hb m (sub m hm)).2 (w m hm)
  · exact div_nonneg (intervalIntegral.integral_nonneg a2.le fun m hm => mul_nonneg (pD m (sub m hm)) (nn m (sub m hm)).1) hden.le
  · rw [div_le_one hden]
    exact intervalIntegral.integral_mono_on a2.le (ii (hD.mul ht.2.1)) (ii wN) fun m hm => mul_le_mul_of_nonneg_left (nn m (sub m hm)).2 (pD m (sub m hm))
  · have := (Real.continuousAt_log q0.ne').tendsto.comp t4'
    refine (this.div_const (Real.log 10)).congr fun d => ?_
    simp only [Function.comp_apply]
    rw [Real.log_rpow (by norm_num), mul_div_assoc, div_self L10.ne', mul_one]
  · rw [log_tenth _ q0, le_div_iff₀ hden]; exact mlow
  · rw [Real.logb_le_iff_le_rpow (by norm_num) q0, div_le_iff₀ hden]; exact mhigh

/-! ## The hypotheses can be met -/

/-- the package's own spline and default parameters, against a threshold ten times higher. -/
example : ∀ᶠ d in 𝓝[>] (0:ℝ),
    (mesh (stepHM false) 11 15 (fun m => m⁻¹) (fun m => m) (fun _ _ => 1) (fun _ _ => 1) (fun _ _ => 1) d).biasEffTracer stepE <
    (mesh { stepHM false with hod := zehavi05 { M_min := 12.6222 } true } 11 15 (fun m => m⁻¹) (fun m => m) (fun _ _ => 1) (fun _ _ => 1) (fun _ _ => 1) d).biasEffTracer stepE := by
  refine (C74_threshold stepE cubicSpl_lin cubicSpl_quad (stepHM false) { stepHM false with hod := zehavi05 { M_min := 12.6222 } true } {} { M_min := 12.6222 } rfl rfl
    (lo := 11) (hi := 15) ?_ ?_ ?_ rfl rfl (fun m => m⁻¹) (fun m => m) _ _ _ inv_tame (tame_id _ _) (fun m h1 h2 => inv_pos10 ⟨h1.le, h2.le⟩)
    (fun _ _ _ _ h => h)).mono fun d h => h.2.1
  · change (11:ℝ) ≤ 11.6222; norm_num
  · change (11.6222:ℝ) < 12.6222; norm_num
  · change (12.6222:ℝ) < 15; norm_num

/-- and against satellites ten times as numerous. -/
example : ∀ᶠ d in 𝓝[>] (0:ℝ),
    (mesh (stepHM false) 11 15 (fun m => m⁻¹) (fun m => m) (fun _ _ => 1) (fun _ _ => 1) (fun _ _ => 1) d).satFrac stepE <
    (mesh { stepHM false with hod := zehavi05 { M_1 := 11.851 } true } 11 15 (fun m => m⁻¹) (fun m => m) (fun _ _ => 1) (fun _ _ => 1) (fun _ _ => 1) d).satFrac stepE := by
  refine (C74_satellites stepE cubicSpl_lin cubicSpl_quad (stepHM false) { stepHM false with hod := zehavi05 { M_1 := 11.851 } true } {} { M_1 := 11.851 } rfl rfl
    (lo := 11) (hi := 15) ?_ ?_ rfl ?_ rfl ?_ (fun m => m⁻¹) (fun m => m) _ _ _ inv_tame (tame_id _ _) (fun m h1 h2 => inv_pos10 ⟨h1.le, h2.le⟩)
    (fun _ _ _ _ h => h)).mono fun d h => h.2.2.2
  · change (11:ℝ) ≤ 11.6222; norm_num
  · change (11.6222:ℝ) < 15; norm_num
  · change (11.851:ℝ) < 12.851; norm_num
  · change (0:ℝ) < 1.049; norm_num

/-- the finding, with the package's spline. -/
example := C74_without_condition_fails stepE cubicSpl_lin cubicSpl_quad { stepHM false with hod := zehavi05 { M_min := Real.logb 10 5, M_1 := 0, alpha := 1 } false }
  { stepHM false with hod := zehavi05 { M_min := Real.logb 10 9, M_1 := 0, alpha := 1 } false } rfl rfl (fun _ _ => 1) (fun _ _ => 1) (fun _ _ => 1)

/-- bias between 1e11 and 1e15, for the default HOD. -/
example : ∃ b M : ℝ, Tendsto (fun d => (mesh (stepHM false) 11 15 (fun m => m⁻¹) (fun m => m) (fun _ _ => 1) (fun _ _ => 1) (fun _ _ => 1) d).biasEffTracer stepE) (𝓝[>] 0) (𝓝 b) ∧
    (10:ℝ) ^ (11:ℝ) ≤ b ∧ b ≤ (10:ℝ) ^ (15:ℝ) ∧
    Tendsto (fun d => (mesh (stepHM false) 11 15 (fun m => m⁻¹) (fun m => m) (fun _ _ => 1) (fun _ _ => 1) (fun _ _ => 1) d).massEff stepE) (𝓝[>] 0) (𝓝 M) ∧ M ≤ 15 := by
  obtain ⟨_, b, _, M, -, -, t, h1, h2, -, -, -, t', -, h3⟩ := C36_mesh_averages stepE cubicSpl_lin cubicSpl_quad (stepHM false) (.zehavi05 {}) true rfl trivial trivial
    (lo := 11) (hi := 15) (by norm_num) (fun _ => by change (11.6222:ℝ) < 15; norm_num) (fun m => m⁻¹) (fun m => m) (fun _ _ => 1) (fun _ _ => 1) (fun _ _ => 1)
    inv_tame (tame_id _ _) (fun m hm => (inv_pos10 hm).le)
    (mesh_positive (hod := (stepHM false).hod) (lo := 11) (hi := 15) (by norm_num) (fun _ => by change (11.6222:ℝ) < 15; norm_num) inv_tame
      (hod_tame (.zehavi05 {}) true trivial (by positivity) (pow_lt (by norm_num)).le).1 (fun m h1 h2 => by
        have k := (C05_nonneg (.zehavi05 {}) trivial true m (lt_trans (by positivity) h1)).satOcc
        refine mul_pos (inv_pos10 ⟨h1.le, h2.le⟩) ?_
        change 0 < (1:ℝ) + ((HodInst.zehavi05 {}).mk true).satOcc m
        linarith))
    _ _ (fun m hm => hm)
  exact ⟨b, M, t, h1, h2, t', h3⟩

end Halomod.HaloModel
