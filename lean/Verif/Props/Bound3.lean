import Verif.Props.Bound2

/-! # C64: two-halo terms, and the turnover, for occupations with steps (the default HOD) on the package's mass grid -/
namespace Halomod.HaloModel

open Filter Topology MeasureTheory Halomod.Tools Halomod.HOD

theorem tame_pos {f : ℝ → ℝ} {a b l c : ℝ} (hf : Tame f a b) (hl : a ≤ l) (hlc : l ≤ c) (hcb : c < b) (h0 : ∀ m ∈ Set.Icc l b, 0 ≤ f m)
    (hp : ∀ m ∈ Set.Ioo c b, 0 < f m) : 0 < ∫ m in l..b, f m := by
  have i1 := hf.intervalIntegrable ⟨hl, hlc.trans hcb.le⟩ ⟨hl.trans hlc, hcb.le⟩
  have i2 := hf.intervalIntegrable ⟨hl.trans hlc, hcb.le⟩ ⟨hl.trans (hlc.trans hcb.le), le_rfl⟩
  rw [← intervalIntegral.integral_add_adjacent_intervals i1 i2]
  exact add_pos_of_nonneg_of_pos (intervalIntegral.integral_nonneg hlc fun m hm => h0 m ⟨hm.1, hm.2.trans hcb.le⟩)
    (intervalIntegral.intervalIntegral_pos_of_pos_on i2 hp hcb)

/-- the occupations of the tracers: not negative over the integration range, and some haloes up to the largest mass host a central. -/
structure Occupied (hod : Hod) (lo hi : ℝ) : Prop where
  cut : hod.sharpCut = true → hod.mmin < hi
  cenT : Tame (centralNumber hod) ((10:ℝ) ^ lo) ((10:ℝ) ^ hi)
  satT : Tame hod.satOcc ((10:ℝ) ^ lo) ((10:ℝ) ^ hi)
  cen : ∀ m ∈ Set.Icc ((10:ℝ) ^ lo) ((10:ℝ) ^ hi), 0 ≤ centralNumber hod m
  sat : ∀ m ∈ Set.Icc ((10:ℝ) ^ lo) ((10:ℝ) ^ hi), 0 ≤ hod.satOcc m
  some' : ∃ c, tracerLow hod ((10:ℝ) ^ lo) ≤ c ∧ c < (10:ℝ) ^ hi ∧ ∀ m ∈ Set.Ioo c ((10:ℝ) ^ hi), 0 < centralNumber hod m

theorem Occupied.pos {hod : Hod} {lo hi : ℝ} (hlh : lo < hi) (o : Occupied hod lo hi) (w v : ℝ → ℝ) (hw : Tame w ((10:ℝ) ^ lo) ((10:ℝ) ^ hi))
    (hv : Tame v ((10:ℝ) ^ lo) ((10:ℝ) ^ hi)) (pw : ∀ m ∈ Set.Icc ((10:ℝ) ^ lo) ((10:ℝ) ^ hi), 0 < w m) (pv : ∀ m ∈ Set.Icc ((10:ℝ) ^ lo) ((10:ℝ) ^ hi), 0 ≤ v m) :
    0 < ∫ m in tracerLow hod ((10:ℝ) ^ lo)..(10:ℝ) ^ hi, w m * (centralNumber hod m + hod.satOcc m * v m) := by
  obtain ⟨l1, l2⟩ := tracerLow_between hlh o.cut
  obtain ⟨c, h1, h2, h3⟩ := o.some'
  refine tame_pos (hw.mul (o.cenT.add (o.satT.mul hv))) l1 h1 h2 (fun m hm => ?_) fun m hm => ?_
  · have hm' : m ∈ Set.Icc ((10:ℝ) ^ lo) ((10:ℝ) ^ hi) := ⟨l1.trans hm.1, hm.2⟩
    exact mul_nonneg (pw m hm').le (add_nonneg (o.cen m hm') (mul_nonneg (o.sat m hm') (pv m hm')))
  · have hm' : m ∈ Set.Icc ((10:ℝ) ^ lo) ((10:ℝ) ^ hi) := ⟨l1.trans (h1.trans hm.1.le), hm.2.le⟩
    exact mul_pos (pw m hm') (add_pos_of_pos_of_nonneg (h3 m hm) (mul_nonneg (o.sat m hm') (pv m hm')))

/-- C64: as `C64_two_halo`, for occupations that jump inside the mass range and the mass grid the package makes: where no profile is resolved the two-halo
terms of tracer, matter and cross power are perfectly correlated in the limit of small `dlog10m` (all matter in haloes, matter bias not forced); C64
finding: at every other wavenumber, where the tracer profile is below one, the two-halo cross power exceeds the geometric mean of the auto terms on every fine
enough grid, because only the auto term smears centrals with the profile. -/
theorem C64_mesh_two_halo (E : Env) (hs : SplLin E.isp) (hc : SplQuad E.isp) (h : HM) (ho : h.Ok) {lo hi : ℝ} (hlh : lo < hi) (oc : Occupied h.hod lo hi)
    (hf : h.forceUnity = false) (hr : h.rhoGtm = h.meanDensity0) (hρ : 0 < h.meanDensity0)
    (D B : ℝ → ℝ) (U T Λ : ℕ → ℝ → ℝ) (hD : Tame D ((10:ℝ) ^ lo) ((10:ℝ) ^ hi)) (hB : Tame B ((10:ℝ) ^ lo) ((10:ℝ) ^ hi))
    (hU : ∀ j, Tame (U j) ((10:ℝ) ^ lo) ((10:ℝ) ^ hi)) (hT : ∀ j, Tame (T j) ((10:ℝ) ^ lo) ((10:ℝ) ^ hi))
    (pD : ∀ m ∈ Set.Icc ((10:ℝ) ^ lo) ((10:ℝ) ^ hi), 0 < D m) (pB : ∀ m ∈ Set.Icc ((10:ℝ) ^ lo) ((10:ℝ) ^ hi), 0 < B m) :
    ∃ tm mm tt : ℝ → ℝ → ℝ, (∀ d > 0, (mesh h lo hi D B U T Λ d).power2hCross E = some (tm d)) ∧
      (∀ d > 0, (mesh h lo hi D B U T Λ d).power2hMatter E = some (mm d)) ∧ (∀ d > 0, (mesh h lo hi D B U T Λ d).power2hTracer E = some (tt d)) ∧
      ∀ j < h.nk,
        ((∀ m ∈ Set.Icc ((10:ℝ) ^ lo) ((10:ℝ) ^ hi), T j m = 1) →
          Tendsto (fun d => tm d (h.k j) ^ 2 - mm d (h.k j) * tt d (h.k j)) (𝓝[>] 0) (𝓝 0)) ∧
        ((∀ m ∈ Set.Icc ((10:ℝ) ^ lo) ((10:ℝ) ^ hi), 0 < U j m) → (∀ m ∈ Set.Icc ((10:ℝ) ^ lo) ((10:ℝ) ^ hi), 0 ≤ T j m ∧ T j m < 1) → h.phc (h.k j) ≠ 0 →
          ∀ᶠ d in 𝓝[>] (0:ℝ), mm d (h.k j) * tt d (h.k j) < tm d (h.k j) ^ 2) := by
  obtain ⟨l1, l2⟩ := tracerLow_between hlh oc.cut
  have h0 : (0:ℝ) < (10:ℝ) ^ lo := by positivity
  have sub : Set.Icc (tracerLow h.hod ((10:ℝ) ^ lo)) ((10:ℝ) ^ hi) ⊆ Set.Icc ((10:ℝ) ^ lo) ((10:ℝ) ^ hi) := Set.Icc_subset_Icc_left l1
  have hC := oc.cenT
  have hS := oc.satT
  have hnb : 0 < ∫ m in tracerLow h.hod ((10:ℝ) ^ lo)..(10:ℝ) ^ hi, D m * (centralNumber h.hod m + h.hod.satOcc m) := by
    have := oc.pos hlh D (fun _ => 1) hD (tame_const _ _ _) pD fun _ _ => zero_le_one
    simpa only [mul_one] using this
  have hmb : 0 < ∫ m in (10:ℝ) ^ lo..(10:ℝ) ^ hi, m * D m * B m :=
    tame_pos (((tame_id _ _).mul hD).mul hB) le_rfl le_rfl (pow_lt hlh) (fun m hm => (mul_pos (mul_pos (h0.trans_le hm.1) (pD m hm)) (pB m hm)).le)
      fun m hm => mul_pos (mul_pos (h0.trans hm.1) (pD m ⟨hm.1.le, hm.2.le⟩)) (pB m ⟨hm.1.le, hm.2.le⟩)
  obtain ⟨_, tm, _, htm, ltm⟩ := C56_mesh_tracer_matter_power E hs hc h ho hlh oc.cut D B U T Λ hD hB hU hT hC hS _ rfl hnb.ne' hρ.ne'
  obtain ⟨tt, mm, htt, hmm, l2h⟩ := C56_mesh_two_halo_power E hs hc h ho hlh oc.cut D B U T Λ hD hB hU hT (hC.add hS)
    (by rw [hr]; exact hρ.ne') hnb.ne' hmb.ne'
  refine ⟨tm, mm, tt, htm, hmm, htt, fun j hj => ?_⟩
  have lt := (ltm j hj).2
  have l1' := (l2h j hj).1
  have l3 := (l2h j hj).2
  simp only [hf, Bool.false_eq_true, if_false, hr] at l3
  have emm : (∫ m in (10:ℝ) ^ lo..(10:ℝ) ^ hi, m * D m * B m * U j m) = ∫ m in (10:ℝ) ^ lo..(10:ℝ) ^ hi, D m * B m * m * U j m :=
    intervalIntegral.integral_congr fun m _ => by ring
  rw [emm] at l3
  have en : (∫ m in tracerLow h.hod ((10:ℝ) ^ lo)..(10:ℝ) ^ hi, D m * tracerNumber h.hod m) =
      ∫ m in tracerLow h.hod ((10:ℝ) ^ lo)..(10:ℝ) ^ hi, D m * (centralNumber h.hod m + h.hod.satOcc m) := rfl
  have ea : (∫ m in tracerLow h.hod ((10:ℝ) ^ lo)..(10:ℝ) ^ hi, D m * tracerNumber h.hod m * B m * T j m)
      = ∫ m in tracerLow h.hod ((10:ℝ) ^ lo)..(10:ℝ) ^ hi, D m * B m * ((centralNumber h.hod m + h.hod.satOcc m) * T j m) :=
    intervalIntegral.integral_congr fun m _ => by
      change D m * (centralNumber h.hod m + h.hod.satOcc m) * B m * T j m = _
      ring
  rw [ea, en] at l1'
  constructor
  · intro hT1
    have e : (∫ m in tracerLow h.hod ((10:ℝ) ^ lo)..(10:ℝ) ^ hi, D m * B m * (centralNumber h.hod m + h.hod.satOcc m * T j m))
        = ∫ m in tracerLow h.hod ((10:ℝ) ^ lo)..(10:ℝ) ^ hi, D m * B m * ((centralNumber h.hod m + h.hod.satOcc m) * T j m) := by
      refine intervalIntegral.integral_congr fun m hm => ?_
      rw [Set.uIcc_of_le l2.le] at hm
      simp only [hT1 m (sub hm), mul_one]
    rw [e] at lt
    have key := (lt.pow 2).sub (l3.mul l1')
    refine (key.congr fun n => rfl).trans (le_of_eq ?_)
    congr 1
    ring
  · intro pU pT hp
    have tA : Tame (fun m => D m * B m * (centralNumber h.hod m + h.hod.satOcc m * T j m)) ((10:ℝ) ^ lo) ((10:ℝ) ^ hi) := (hD.mul hB).mul (hC.add (hS.mul (hT j)))
    have tB : Tame (fun m => D m * B m * ((centralNumber h.hod m + h.hod.satOcc m) * T j m)) ((10:ℝ) ^ lo) ((10:ℝ) ^ hi) := (hD.mul hB).mul ((hC.add hS).mul (hT j))
    have tX : Tame (fun m => D m * B m * (centralNumber h.hod m * (1 + -1 * T j m))) ((10:ℝ) ^ lo) ((10:ℝ) ^ hi) :=
      (hD.mul hB).mul (hC.mul ((tame_const 1 _ _).add ((tame_const (-1) _ _).mul (hT j))))
    have hA : (∫ m in tracerLow h.hod ((10:ℝ) ^ lo)..(10:ℝ) ^ hi, D m * B m * ((centralNumber h.hod m + h.hod.satOcc m) * T j m))
        < ∫ m in tracerLow h.hod ((10:ℝ) ^ lo)..(10:ℝ) ^ hi, D m * B m * (centralNumber h.hod m + h.hod.satOcc m * T j m) := by
      rw [← sub_pos, ← intervalIntegral.integral_sub (tA.intervalIntegrable ⟨l1, l2.le⟩ ⟨(pow_lt hlh).le, le_rfl⟩) (tB.intervalIntegrable ⟨l1, l2.le⟩ ⟨(pow_lt hlh).le, le_rfl⟩)]
      have e : (∫ m in tracerLow h.hod ((10:ℝ) ^ lo)..(10:ℝ) ^ hi, (D m * B m * (centralNumber h.hod m + h.hod.satOcc m * T j m) -
          D m * B m * ((centralNumber h.hod m + h.hod.satOcc m) * T j m))) =
          ∫ m in tracerLow h.hod ((10:ℝ) ^ lo)..(10:ℝ) ^ hi, D m * B m * (centralNumber h.hod m * (1 + -1 * T j m)) :=
        intervalIntegral.integral_congr fun m _ => by ring
      rw [e]
      obtain ⟨c, h1, h2, h3⟩ := oc.some'
      refine tame_pos tX l1 h1 h2 (fun m hm => ?_) fun m hm => ?_
      · have a1 := pT m (sub hm)
        exact mul_nonneg (mul_pos (pD m (sub hm)) (pB m (sub hm))).le (mul_nonneg (oc.cen m (sub hm)) (by linarith))
      · have hm' : m ∈ Set.Icc ((10:ℝ) ^ lo) ((10:ℝ) ^ hi) := ⟨l1.trans (h1.trans hm.1.le), hm.2.le⟩
        have a1 := pT m hm'
        exact mul_pos (mul_pos (pD m hm') (pB m hm')) (mul_pos (h3 m hm) (by linarith))
    have hA0 : 0 ≤ ∫ m in tracerLow h.hod ((10:ℝ) ^ lo)..(10:ℝ) ^ hi, D m * B m * ((centralNumber h.hod m + h.hod.satOcc m) * T j m) :=
      intervalIntegral.integral_nonneg l2.le fun m hm => mul_nonneg (mul_pos (pD m (sub hm)) (pB m (sub hm))).le
        (mul_nonneg (add_nonneg (oc.cen m (sub hm)) (oc.sat m (sub hm))) (pT m (sub hm)).1)
    have hM : 0 < ∫ m in (10:ℝ) ^ lo..(10:ℝ) ^ hi, D m * B m * m * U j m :=
      tame_pos (((hD.mul hB).mul (tame_id _ _)).mul (hU j)) le_rfl le_rfl (pow_lt hlh)
        (fun m hm => (mul_pos (mul_pos (mul_pos (pD m hm) (pB m hm)) (h0.trans_le hm.1)) (pU m hm)).le) fun m hm => by
          have hm' : m ∈ Set.Icc ((10:ℝ) ^ lo) ((10:ℝ) ^ hi) := ⟨hm.1.le, hm.2.le⟩
          exact mul_pos (mul_pos (mul_pos (pD m hm') (pB m hm')) (h0.trans_le hm'.1)) (pU m hm')
    refine (l3.mul l1').eventually_lt (lt.pow 2) ?_
    generalize (∫ m in tracerLow h.hod ((10:ℝ) ^ lo)..(10:ℝ) ^ hi, D m * B m * ((centralNumber h.hod m + h.hod.satOcc m) * T j m)) = a at hA hA0 ⊢
    generalize (∫ m in tracerLow h.hod ((10:ℝ) ^ lo)..(10:ℝ) ^ hi, D m * B m * (centralNumber h.hod m + h.hod.satOcc m * T j m)) = b at hA ⊢
    generalize (∫ m in (10:ℝ) ^ lo..(10:ℝ) ^ hi, D m * B m * m * U j m) = c at hM ⊢
    generalize (∫ m in tracerLow h.hod ((10:ℝ) ^ lo)..(10:ℝ) ^ hi, D m * (centralNumber h.hod m + h.hod.satOcc m)) = nb at hnb ⊢
    have : a ^ 2 < b ^ 2 := pow_lt_pow_left₀ hA hA0 two_ne_zero
    have hk : 0 < (c / h.meanDensity0) ^ 2 * h.phc (h.k j) ^ 2 / nb ^ 2 := by positivity
    have := mul_lt_mul_of_pos_left this hk
    calc _ = (c / h.meanDensity0) ^ 2 * h.phc (h.k j) ^ 2 / nb ^ 2 * a ^ 2 := by ring
      _ < _ := this
      _ = _ := by ring

/-- C64 finding: as `C64_turnover_breaks_bound`, for occupations with steps and the package's mass grid: with the (default) turnover switched on, at large
scales, where the turnover mass exceeds the largest mass, the one-halo power of matter and of the tracers is exactly zero while that of tracers with matter is
positive, on every fine enough grid, so it exceeds any bound by them. -/
theorem C64_mesh_turnover_breaks_bound (E : Env) (hs : SplLin E.isp) (hc : SplQuad E.isp) (h : HM) (ho : h.Ok) {lo hi : ℝ} (hlh : lo < hi) (oc : Occupied h.hod lo hi)
    (ht : h.turnover = true) (D B : ℝ → ℝ) (U T Λ : ℕ → ℝ → ℝ) (hD : Tame D ((10:ℝ) ^ lo) ((10:ℝ) ^ hi)) (hB : Tame B ((10:ℝ) ^ lo) ((10:ℝ) ^ hi))
    (hU : ∀ j, Tame (U j) ((10:ℝ) ^ lo) ((10:ℝ) ^ hi)) (hT : ∀ j, Tame (T j) ((10:ℝ) ^ lo) ((10:ℝ) ^ hi))
    (j : ℕ) (hj : j < h.nk) (hlim : (10:ℝ) ^ hi ≤ 4 * Real.pi * h.meanDensity0 * h.overdensity / 3 * (Real.pi / h.k j / 10) ^ 3)
    (pD : ∀ m ∈ Set.Icc ((10:ℝ) ^ lo) ((10:ℝ) ^ hi), 0 < D m) (pU : ∀ m ∈ Set.Icc ((10:ℝ) ^ lo) ((10:ℝ) ^ hi), 0 < U j m)
    (pT : ∀ m ∈ Set.Icc ((10:ℝ) ^ lo) ((10:ℝ) ^ hi), 0 ≤ T j m) (hρ : 0 < h.meanDensity0) :
    ∃ tm mm tt : ℝ → ℝ → ℝ, (∀ d > 0, (mesh h lo hi D B U T Λ d).power1hCross E = some (tm d)) ∧
      (∀ d > 0, (mesh h lo hi D B U T Λ d).power1hMatter E = some (mm d)) ∧ (∀ d > 0, (mesh h lo hi D B U T Λ d).power1hTracer E = some (tt d)) ∧
      (∀ d > 0, mm d (h.k j) = 0 ∧ tt d (h.k j) = 0) ∧
      ∀ᶠ d in 𝓝[>] (0:ℝ), 0 < tm d (h.k j) ∧ mm d (h.k j) * (tt d (h.k j) + 1 / (mesh h lo hi D B U T Λ d).meanTracerDen E) < tm d (h.k j) ^ 2 := by
  have h0 : (0:ℝ) < (10:ℝ) ^ lo := by positivity
  have hnb : 0 < ∫ m in tracerLow h.hod ((10:ℝ) ^ lo)..(10:ℝ) ^ hi, D m * (centralNumber h.hod m + h.hod.satOcc m) := by
    have := oc.pos hlh D (fun _ => 1) hD (tame_const _ _ _) pD fun _ _ => zero_le_one
    simpa only [mul_one] using this
  have hnum : 0 < ∫ m in tracerLow h.hod ((10:ℝ) ^ lo)..(10:ℝ) ^ hi, D m * m * U j m * (centralNumber h.hod m + h.hod.satOcc m * T j m) :=
    oc.pos hlh (fun m => D m * m * U j m) (T j) ((hD.mul (tame_id _ _)).mul (hU j)) (hT j) (fun m hm => mul_pos (mul_pos (pD m hm) (h0.trans_le hm.1)) (pU m hm)) pT
  obtain ⟨tm, _, htm, _, ltm⟩ := C56_mesh_tracer_matter_power E hs hc h ho hlh oc.cut D B U T Λ hD hB hU hT oc.cenT oc.satT _ rfl hnb.ne' hρ.ne'
  choose! mm hmm using fun (d : ℝ) (hd : 0 < d) => power1hMatter_ok (E := E) hs (mesh_ok h ho hlh D B U T Λ hd)
  choose! tt cs ss htt using fun (d : ℝ) (hd : 0 < d) => C36_one_halo_power (E := E) hs (mesh_ok h ho hlh D B U T Λ hd)
  have hmin : ∀ d a, (10:ℝ) ^ hi ≤ (mesh h lo hi D B U T Λ d).oneHaloMmin a j := by
    intro d a
    have e : (mesh h lo hi D B U T Λ d).oneHaloMmin a j = h.oneHaloMmin a j := rfl
    rw [e]
    unfold HM.oneHaloMmin
    simp only [ht, if_true]
    exact hlim.trans (le_max_right _ _)
  have hzero : ∀ d > 0, ∀ a f, (mesh h lo hi D B U T Λ d).S E f (some ((mesh h lo hi D B U T Λ d).oneHaloMmin a j)) = 0 := by
    intro d hd a f
    unfold HM.S splineIntegral
    rw [if_pos rfl]
    refine splIntegral_beyond E.isp _ _ _ ?_
    simp only [Option.elim_some]
    refine (Real.log_le_log ((mesh_ok h ho hlh D B U T Λ hd).m.pos _ (Nat.sub_lt (mesh_ok h ho hlh D B U T Λ hd).nm0 one_pos)) ?_)
    refine le_trans ?_ (hmin d a)
    change (10:ℝ) ^ (lo + ((arangeN lo hi d - 1 : ℕ) : ℝ) * d) ≤ _
    exact (pow_lt (arangeN_last hlh hd).2.1).le
  have hz : ∀ d > 0, mm d (h.k j) = 0 ∧ tt d (h.k j) = 0 := by
    intro d hd
    have e0 : (mesh h lo hi D B U T Λ d).k j = h.k j := rfl
    constructor
    · rw [← e0, (hmm d hd).2 j hj]
      unfold HM.power1hMatterTab HM.do1halo
      rw [hzero d hd, zero_div]
    · rw [← e0, (htt d hd).2.2.2.2 j hj]
      have := hzero d hd h.hod.mmin
      change (mesh h lo hi D B U T Λ d).S E _ (some ((mesh h lo hi D B U T Λ d).oneHaloMmin h.hod.mmin j)) / _ = 0
      rw [this, zero_div]
  refine ⟨tm, mm, tt, htm, fun d hd => (hmm d hd).1, fun d hd => (htt d hd).1, hz, ?_⟩
  filter_upwards [pos_eventually, (ltm j hj).1.eventually (lt_mem_nhds (div_pos hnum (mul_pos hnb hρ)))] with d hd hn
  refine ⟨hn, ?_⟩
  rw [(hz d hd).1, zero_mul]
  exact pow_pos hn 2

/-! ## the default HOD -/

theorem zehavi_occupied (p : ZehaviP) (central : Bool) {lo hi : ℝ} (hlh : lo < hi) (h2 : p.M_min < hi) : Occupied (zehavi05 p central) lo hi := by
  have h0 : (0:ℝ) < (10:ℝ) ^ lo := by positivity
  have ht := hod_tame (.zehavi05 p) central trivial h0 (pow_lt hlh).le
  have ec : ∀ m, centralNumber (zehavi05 p central) m = if central then 1 else zehaviCen p.M_min m := fun m => by
    unfold centralNumber
    cases central <;> simp [zehavi05, poisson]
  have pc : ∀ m, 0 ≤ zehaviCen p.M_min m := fun m => by unfold zehaviCen; split_ifs <;> norm_num
  have ps : ∀ m ∈ Set.Icc ((10:ℝ) ^ lo) ((10:ℝ) ^ hi), 0 ≤ zehaviSat p.M_1 p.alpha m := fun m hm =>
    Real.rpow_nonneg (div_nonneg (h0.le.trans hm.1) (by positivity)) _
  refine ⟨fun _ => h2, ?_, ht.2.1, fun m _ => ?_, fun m hm => ?_, ⟨max ((10:ℝ) ^ lo) ((10:ℝ) ^ p.M_min), ?_, max_lt (pow_lt hlh) (pow_lt h2), fun m hm => ?_⟩⟩
  · rw [show centralNumber (zehavi05 p central) = fun m => if central then 1 else zehaviCen p.M_min m from funext ec]
    split_ifs
    · exact tame_const _ _ _
    · exact zehaviCen_tame _ _ _
  · rw [ec]; split_ifs
    · exact zero_le_one
    · exact pc m
  · simp only [zehavi05, poisson, satelliteOccupation]
    split_ifs
    · exact mul_nonneg (by simpa using pc m) (ps m hm)
    · exact ps m hm
  · unfold tracerLow
    split_ifs
    · exact le_rfl
    · exact le_max_left _ _
  · rw [ec]; split_ifs
    · exact zero_lt_one
    · rw [show zehaviCen p.M_min m = 1 from if_neg (not_lt.2 ((le_max_right _ _).trans hm.1.le))]
      exact zero_lt_one

/-- C64 for the default HOD, in words of its parameters: the two-halo terms are perfectly correlated where no profile is resolved; where the tracer profile is below one the
cross power exceeds the geometric mean of the auto powers. -/
theorem C64_default_two_halo (E : Env) (hs : SplLin E.isp) (hc : SplQuad E.isp) (h : HM) (ho : h.Ok) (p : ZehaviP) (central : Bool)
    (hh : h.hod = zehavi05 p central) {lo hi : ℝ} (hlh : lo < hi) (h2 : p.M_min < hi)
    (hf : h.forceUnity = false) (hr : h.rhoGtm = h.meanDensity0) (hρ : 0 < h.meanDensity0)
    (D B : ℝ → ℝ) (U T Λ : ℕ → ℝ → ℝ) (hD : Tame D ((10:ℝ) ^ lo) ((10:ℝ) ^ hi)) (hB : Tame B ((10:ℝ) ^ lo) ((10:ℝ) ^ hi))
    (hU : ∀ j, Tame (U j) ((10:ℝ) ^ lo) ((10:ℝ) ^ hi)) (hT : ∀ j, Tame (T j) ((10:ℝ) ^ lo) ((10:ℝ) ^ hi))
    (pD : ∀ m ∈ Set.Icc ((10:ℝ) ^ lo) ((10:ℝ) ^ hi), 0 < D m) (pB : ∀ m ∈ Set.Icc ((10:ℝ) ^ lo) ((10:ℝ) ^ hi), 0 < B m) :
    ∃ tm mm tt : ℝ → ℝ → ℝ, (∀ d > 0, (mesh h lo hi D B U T Λ d).power2hCross E = some (tm d)) ∧
      (∀ d > 0, (mesh h lo hi D B U T Λ d).power2hMatter E = some (mm d)) ∧ (∀ d > 0, (mesh h lo hi D B U T Λ d).power2hTracer E = some (tt d)) ∧
      ∀ j < h.nk,
        ((∀ m ∈ Set.Icc ((10:ℝ) ^ lo) ((10:ℝ) ^ hi), T j m = 1) →
          Tendsto (fun d => tm d (h.k j) ^ 2 - mm d (h.k j) * tt d (h.k j)) (𝓝[>] 0) (𝓝 0)) ∧
        ((∀ m ∈ Set.Icc ((10:ℝ) ^ lo) ((10:ℝ) ^ hi), 0 < U j m) → (∀ m ∈ Set.Icc ((10:ℝ) ^ lo) ((10:ℝ) ^ hi), 0 ≤ T j m ∧ T j m < 1) → h.phc (h.k j) ≠ 0 →
          ∀ᶠ d in 𝓝[>] (0:ℝ), mm d (h.k j) * tt d (h.k j) < tm d (h.k j) ^ 2) :=
  C64_mesh_two_halo E hs hc h ho hlh (by rw [hh]; exact zehavi_occupied p central hlh h2) hf hr hρ D B U T Λ hD hB hU hT pD pB

/-- the default HOD, a power-law mass function, profiles of one half: the finding applies. -/
example : ∃ tm mm tt : ℝ → ℝ → ℝ, (∀ d > 0, (mesh (stepHM false) 11 15 (fun m => m⁻¹) (fun m => m) (fun _ _ => 1 / 2) (fun _ _ => 1 / 2) (fun _ _ => 1) d).power2hCross stepE = some (tm d)) ∧
    ∀ᶠ d in 𝓝[>] (0:ℝ), mm d ((stepHM false).k 0) * tt d ((stepHM false).k 0) < tm d ((stepHM false).k 0) ^ 2 := by
  obtain ⟨tm, mm, tt, h1, -, -, k⟩ := C64_default_two_halo stepE cubicSpl_lin cubicSpl_quad (stepHM false) (stepHM_ok _) {} true rfl (lo := 11) (hi := 15) (by norm_num)
    (by norm_num) rfl rfl (by change (0:ℝ) < 1; norm_num) (fun m => m⁻¹) (fun m => m) (fun _ _ => 1 / 2) (fun _ _ => 1 / 2) (fun _ _ => 1) inv_tame (tame_id _ _)
    (fun _ => tame_const _ _ _) (fun _ => tame_const _ _ _) (fun m hm => inv_pos10 hm) (fun m hm => inv_pos.1 (inv_pos10 hm))
  refine ⟨tm, mm, tt, h1, (k 0 (by change 0 < 2; norm_num)).2 (fun _ _ => by norm_num) (fun _ _ => by norm_num) ?_⟩
  change ((1:ℝ) + ((0:ℕ):ℝ)) ≠ 0
  norm_num

/-- the default HOD with the turnover on and a large overdensity: the finding applies. -/
example : ∃ h : HM, h.Ok ∧ h.hod = zehavi05 {} true ∧ ∃ tm mm tt : ℝ → ℝ → ℝ, (∀ d > 0, mm d (h.k 0) = 0 ∧ tt d (h.k 0) = 0) ∧
    (∀ d > 0, (mesh h 11 15 (fun m => m⁻¹) (fun m => m) (fun _ _ => 1 / 2) (fun _ _ => 1 / 2) (fun _ _ => 1) d).power1hCross stepE = some (tm d)) ∧
    ∀ᶠ d in 𝓝[>] (0:ℝ), 0 < tm d (h.k 0) := by
  set h : HM := { stepHM true with overdensity := 1e20 } with hdef
  have ho : h.Ok := { m := demo_ok.m, k := demo_ok.k, r := demo_ok.r, nm0 := demo_ok.nm0, nk0 := demo_ok.nk0, nr0 := demo_ok.nr0 }
  have hlim : (10:ℝ) ^ (15:ℝ) ≤ 4 * Real.pi * h.meanDensity0 * h.overdensity / 3 * (Real.pi / h.k 0 / 10) ^ 3 := by
    change (10:ℝ) ^ (15:ℝ) ≤ 4 * Real.pi * 1 * 1e20 / 3 * (Real.pi / (1 + ((0:ℕ):ℝ)) / 10) ^ 3
    rw [show (15:ℝ) = ((15:ℕ):ℝ) by norm_num, Real.rpow_natCast]
    have h3 := Real.pi_gt_three
    have e : (3 / 10 : ℝ) ^ 3 ≤ (Real.pi / (1 + ((0:ℕ):ℝ)) / 10) ^ 3 := by
      refine pow_le_pow_left₀ (by norm_num) ?_ 3
      rw [Nat.cast_zero, add_zero, div_one]
      linarith
    have e2 : (4 * 3 * 1 * 1e20 / 3 : ℝ) ≤ 4 * Real.pi * 1 * 1e20 / 3 := by linarith
    calc (10:ℝ) ^ 15 ≤ (4 * 3 * 1 * 1e20 / 3) * (3 / 10) ^ 3 := by norm_num
      _ ≤ _ := mul_le_mul e2 e (by norm_num) (by positivity)
  obtain ⟨tm, mm, tt, h1, -, -, hz, k⟩ := C64_mesh_turnover_breaks_bound stepE cubicSpl_lin cubicSpl_quad h ho (lo := 11) (hi := 15) (by norm_num)
    (zehavi_occupied {} true (by norm_num) (by norm_num)) rfl (fun m => m⁻¹) (fun m => m) (fun _ _ => 1 / 2) (fun _ _ => 1 / 2) (fun _ _ => 1) inv_tame (tame_id _ _)
    (fun _ => tame_const _ _ _) (fun _ => tame_const _ _ _) 0 (by change 0 < 2; norm_num) hlim (fun m hm => inv_pos10 hm) (fun _ _ => by norm_num) (fun _ _ => by norm_num)
    (by change (0:ℝ) < 1; norm_num)
  exact ⟨h, ho, rfl, tm, mm, tt, hz, h1, k.mono fun d hd => hd.1⟩

end Halomod.HaloModel
