import Verif.Props.Converge6

/-! # C56 for the HOD classes of the package, on the real mass grid

The default HOD, `Zehavi05`, has a step; so have most others.  Every class meets the conditions of the `C56_mesh_*` theorems. -/
namespace Halomod.HaloModel

open Filter Topology MeasureTheory Halomod.Tools Halomod.HOD Halomod.Exclusion

theorem tame_le {f g : ℝ → ℝ} {a b c : ℝ} (hf : Tame f a b) (hg : Tame g a b) : Tame (fun m => if m ≤ c then f m else g m) a b := by
  obtain ⟨⟨M, hM⟩, s, hs, hs'⟩ := tame_step (c := c) hf hg
  obtain ⟨N, hN⟩ := hf.1
  refine ⟨⟨max M N, fun m hm => ?_⟩, s ∪ {c}, hs.union (Set.countable_singleton c), fun m hm hn => ?_⟩
  · beta_reduce
    rcases lt_trichotomy m c with h | h | h
    · have := hM m hm; beta_reduce at this; rw [if_pos h] at this; rw [if_pos h.le]; exact this.trans (le_max_left _ _)
    · rw [if_pos h.le]; exact (hN m hm).trans (le_max_right _ _)
    · have := hM m hm; beta_reduce at this; rw [if_neg h.not_gt] at this; rw [if_neg h.not_ge]; exact this.trans (le_max_left _ _)
  · rw [Set.mem_union, not_or, Set.mem_singleton_iff] at hn
    have e : ∀ x, x ≠ c → (if x ≤ c then f x else g x) = if x < c then f x else g x := by
      intro x hx
      rcases lt_or_gt_of_ne hx with h | h
      · rw [if_pos h, if_pos h.le]
      · rw [if_neg h.not_gt, if_neg h.not_ge]
    refine (hs' m hm hn.1).congr_of_eventuallyEq ?_ (e m hn.2)
    exact mem_nhdsWithin_of_mem_nhds (Filter.mem_of_superset (isOpen_ne.mem_nhds hn.2) fun x hx => e x hx)

/-- in a window `c ≤ m ≤ d`. -/
theorem tame_window {f : ℝ → ℝ} {a b c d : ℝ} (hf : Tame f a b) : Tame (fun m => if m ≥ c ∧ m ≤ d then f m else 0) a b := by
  refine (tame_step (c := c) (tame_const 0 a b) (tame_le (c := d) hf (tame_const 0 a b))).congr fun m _ => ?_
  by_cases h1 : m < c
  · rw [if_pos h1, if_neg (fun h => absurd h.1 (not_le.2 h1))]
  · rw [if_neg h1]
    by_cases h2 : m ≤ d
    · rw [if_pos h2, if_pos ⟨not_lt.1 h1, h2⟩]
    · rw [if_neg h2, if_neg (fun h => h2 h.2)]

/-- the four functions of mass the halo model integrates. -/
def HodTame (hod : Hod) (a b : ℝ) : Prop :=
  Tame (tracerNumber hod) a b ∧ Tame hod.satOcc a b ∧ Tame hod.csPairs a b ∧ Tame hod.ssPairs a b

theorem poisson_tame {d : PoissonDef} {central : Bool} {a b : ℝ} (hc : Tame d.cen a b) (hsat : Tame d.sat a b)
    (hn : central = true → d.inherent = false → Tame (fun m => d.cen m / d.tpc m) a b) (ht : Tame d.tpc a b) : HodTame (poisson d central) a b := by
  have hs : Tame (poisson d central).satOcc a b := by
    show Tame (satelliteOccupation central d.inherent (fun m => d.cen m / d.tpc m) d.sat) a b
    cases hcen : central with
    | false => exact hsat.congr fun m _ => by simp [satelliteOccupation]
    | true => cases hi : d.inherent with
      | true => exact hsat.congr fun m _ => by simp [satelliteOccupation]
      | false => exact ((hn hcen hi).mul hsat).congr fun m _ => by simp [satelliteOccupation]
  refine ⟨?_, hs, ?_, hs.pow_two⟩
  · unfold tracerNumber
    cases h : ((poisson d central).sharpCut && ((poisson d central).central || (poisson d central).inherent)) with
    | true => exact ((tame_const 1 a b).add hs).congr fun m _ => by simp
    | false => exact (hc.add hs).congr fun m _ => by simp [poisson]
  · cases central with
    | false => exact (hc.mul hs).congr fun m _ => by simp [poisson]
    | true => exact (hs.mul ht).congr fun m _ => by simp [poisson]

theorem poisson_tame' {d : PoissonDef} {central : Bool} {a b : ℝ} (hc : Tame d.cen a b) (hsat : Tame d.sat a b)
    (e : d.tpc = fun _ => 1) : HodTame (poisson d central) a b :=
  poisson_tame hc hsat (fun _ _ => hc.congr fun m _ => by rw [e]; simp) (by rw [e]; exact tame_const _ _ _)

theorem bulk_tame {sharp : Bool} {sat sigS : ℝ → ℝ} {mmin : ℝ} {central : Bool} {a b : ℝ} (hsat : Tame sat a b) :
    HodTame (bulk sharp sat sigS mmin central) a b := by
  have hs : Tame (bulk sharp sat sigS mmin central).satOcc a b := hsat.congr fun m _ => by simp [bulk, satelliteOccupation]
  refine ⟨hs.congr fun m _ => ?_, hs, tame_const 0 _ _, hs.pow_two⟩
  unfold tracerNumber
  simp [bulk]

theorem power_tame {a b : ℝ} (ha : 0 < a) {c : ℝ} (al : ℝ) : Tame (fun m => (m / c) ^ al) a b := by
  by_cases hc : c = 0
  · subst hc
    exact (tame_const ((0:ℝ) ^ al) a b).congr fun m _ => by simp
  · refine ContinuousOn.tame fun m hm => ?_
    have : m / c ≠ 0 := div_ne_zero (ha.trans_le hm.1).ne' hc
    exact ((Real.continuousAt_rpow_const _ _ (Or.inl this)).comp (f := fun m : ℝ => m / c) (continuousAt_id.div_const c)).continuousWithinAt

theorem inv_power_tame {a b : ℝ} (ha : 0 < a) {c : ℝ} (hc : c ≠ 0) (al : ℝ) : ContinuousOn (fun m => (c / m) ^ al) (Set.Icc a b) := by
  intro m hm
  have hm0 : m ≠ 0 := (ha.trans_le hm.1).ne'
  exact ((Real.continuousAt_rpow_const _ _ (Or.inl (div_ne_zero hc hm0))).comp (f := fun m : ℝ => c / m) (continuousAt_const.div continuousAt_id hm0)).continuousWithinAt

theorem log10_cont {a b : ℝ} (ha : 0 < a) : ContinuousOn (fun m => HOD.log10 m) (Set.Icc a b) := by
  unfold HOD.log10 Real.logb
  intro m hm
  exact ((Real.continuousAt_log (ha.trans_le hm.1).ne').div_const _).continuousWithinAt

theorem log10_div_cont {a b c : ℝ} (ha : 0 < a) (hc : c ≠ 0) : ContinuousOn (fun m => HOD.log10 (m / c)) (Set.Icc a b) := by
  unfold HOD.log10 Real.logb
  intro m hm
  have : m / c ≠ 0 := div_ne_zero (ha.trans_le hm.1).ne' hc
  exact ((ContinuousAt.comp (f := fun m : ℝ => m / c) (Real.continuousAt_log this) (continuousAt_id.div_const c)).div_const _).continuousWithinAt

/-- what is asked of the parameters: a satellite slope that is not negative where the satellite number is a power of the mass above a
cut, no central condition where the number of centrals is a quotient that may be 0 / 0, and an interpolant that is continuous. -/
def _root_.Halomod.HOD.HodInst.Regular : HodInst → Bool → Prop
  | .zheng05 p, _ => 0 ≤ p.alpha
  | .spinelli19 _, central => central = false
  | .leauthaud11 interp _, _ => ∀ tab, Continuous (interp tab)
  | _, _ => True

theorem zehaviCen_tame (M a b : ℝ) : Tame (zehaviCen M) a b :=
  (tame_step (c := (10:ℝ) ^ M) (tame_const 0 a b) (tame_const 1 a b)).congr fun _ _ => rfl

theorem maxCen_tame (M N a b : ℝ) : Tame (zehaviMaxCen M N) a b :=
  (tame_window (c := (10:ℝ) ^ M) (d := (10:ℝ) ^ N) (tame_const 1 a b)).congr fun _ _ => rfl

theorem tinkerSat_tame (p : TinkerP) {a b : ℝ} (hb : 0 ≤ b) (ha : 0 ≤ a) : Tame (tinkerSat p) a b := by
  set c : ℝ := 10 ^ p.M_min with hc
  have e : ∀ m, tinkerSat p m = if m ≤ c then 0 else Real.exp (-(10 ^ p.M_cut) / (m - c)) * (m / 10 ^ p.M_1) := by
    intro m
    unfold tinkerSat zehaviCen
    rcases lt_trichotomy m c with h | h | h
    · rw [if_neg h.ne, if_pos h, if_pos h.le]; ring
    · rw [if_pos h, if_pos h.le]
    · rw [if_neg h.ne', if_neg h.not_gt, if_neg h.not_ge]; ring
  have hM1 : (0:ℝ) < 10 ^ p.M_1 := by positivity
  refine ⟨⟨b / 10 ^ p.M_1, fun m hm => ?_⟩, {c}, Set.countable_singleton c, fun m hm hn => ?_⟩
  · rw [e]
    split_ifs with h
    · rw [abs_zero]; positivity
    · have h1 : Real.exp (-(10 ^ p.M_cut) / (m - c)) ≤ 1 := by
        rw [Real.exp_le_one_iff]
        exact div_nonpos_of_nonpos_of_nonneg (neg_nonpos.2 (by positivity)) (by linarith [not_le.1 h])
      have h2 : 0 ≤ m := ha.trans hm.1
      rw [abs_of_nonneg (mul_nonneg (Real.exp_nonneg _) (div_nonneg h2 hM1.le))]
      calc _ ≤ 1 * (m / 10 ^ p.M_1) := mul_le_mul_of_nonneg_right h1 (div_nonneg h2 hM1.le)
        _ ≤ _ := by rw [one_mul]; exact div_le_div_of_nonneg_right hm.2 hM1.le
  · rw [Set.mem_singleton_iff] at hn
    rcases lt_or_gt_of_ne hn with h | h
    · refine (continuousWithinAt_const (b := (0:ℝ))).congr_of_eventuallyEq ?_ (by rw [e, if_pos h.le])
      exact mem_nhdsWithin_of_mem_nhds (Filter.mem_of_superset (Iio_mem_nhds h) fun x hx => by
        show tinkerSat p x = _
        rw [e, if_pos (le_of_lt hx)])
    · have hc1 : ContinuousAt (fun x : ℝ => Real.exp (-(10 ^ p.M_cut) / (x - c)) * (x / 10 ^ p.M_1)) m := by
        have : m - c ≠ 0 := (sub_pos.2 h).ne'
        fun_prop (disch := assumption)
      refine hc1.continuousWithinAt.congr_of_eventuallyEq ?_ (by rw [e, if_neg h.not_ge])
      exact mem_nhdsWithin_of_mem_nhds (Filter.mem_of_superset (Ioi_mem_nhds h) fun x hx => by
        show tinkerSat p x = _
        rw [e, if_neg (not_le.2 hx)])

theorem hod_tame (i : HodInst) (central : Bool) (hr : i.Regular central) {a b : ℝ} (ha : 0 < a) (hab : a ≤ b) : HodTame (i.mk central) a b := by
  cases i with
  | zehavi05 p => exact poisson_tame' (zehaviCen_tame _ _ _) (power_tame ha _) rfl
  | zheng05 p =>
    refine poisson_tame' (ContinuousOn.tame ?_) ?_ rfl
    · unfold zhengCen
      exact continuousOn_const.mul (continuousOn_const.add (erf_continuous.comp_continuousOn (((log10_cont ha).sub continuousOn_const).div_const _)))
    · have hcont : Continuous fun m : ℝ => (max 0 ((m - 10 ^ p.M_0) / 10 ^ p.M_1)) ^ p.alpha := by
        apply Continuous.rpow_const
        · fun_prop
        · intro m; right; exact hr
      refine (tame_le (c := (10:ℝ) ^ p.M_0) (tame_const 0 a b) (ContinuousOn.tame hcont.continuousOn)).congr fun m _ => ?_
      show zhengSat p m = _
      unfold zhengSat
      by_cases h : m ≤ 10 ^ p.M_0
      · rw [if_pos h, if_neg (not_lt.2 h)]
      · rw [if_neg h, if_pos (not_le.1 h), max_eq_right]
        exact div_nonneg (by linarith [not_le.1 h]) (by positivity)
  | contreras13 p =>
    have h1 := log10_div_cont (a := a) (b := b) (c := (10:ℝ) ^ p.M_min) ha (by positivity)
    have h2 := log10_div_cont (a := a) (b := b) (c := (10:ℝ) ^ p.M_1) ha (by positivity)
    refine poisson_tame' (ContinuousOn.tame ?_) (Tame.mul (ContinuousOn.tame ?_) (power_tame ha _)) rfl
    · unfold contrerasCen
      exact (continuousOn_const.mul (Real.continuous_exp.comp_continuousOn ((h1.pow 2).neg.div_const _))).add
        (continuousOn_const.mul (continuousOn_const.add (erf_continuous.comp_continuousOn ((h1.div_const _).div_const _))))
    · exact continuousOn_const.mul (continuousOn_const.add (erf_continuous.comp_continuousOn (h2.div_const _)))
  | tinker05 p => exact poisson_tame' (zehaviCen_tame _ _ _) (tinkerSat_tame p (ha.le.trans hab) ha.le) rfl
  | zehavi05WithMax p => exact poisson_tame' (maxCen_tame _ _ _ _) (power_tame ha _) rfl
  | zehavi05Marked p =>
    have hc := (maxCen_tame p.M_min p.M_max a b).mul (tame_const ((10:ℝ) ^ p.logA) a b)
    refine poisson_tame hc ((power_tame ha _).mul (tame_const ((10:ℝ) ^ p.logA) a b)) (fun _ _ => ?_) (tame_const _ _ _)
    exact (hc.mul (tame_const ((10:ℝ) ^ p.logA)⁻¹ a b)).congr fun m _ => by rw [div_eq_mul_inv]
  | continuousPowerLaw p =>
    exact bulk_tame (central := central) ((tame_window (c := (10:ℝ) ^ p.M_min) (d := (10:ℝ) ^ p.M_max)
      ((tame_const ((10:ℝ) ^ p.logA) a b).mul ((power_tame (c := (10:ℝ) ^ p.M_1) ha p.alpha).add (tame_const 1 a b)))).congr fun m _ => rfl)
  | constant p =>
    refine bulk_tame (central := central) ((tame_le (c := (10:ℝ) ^ p.M_min) (tame_const 0 a b) (tame_const ((10:ℝ) ^ p.logA) a b)).congr fun m _ => ?_)
    unfold constSat
    by_cases h : m ≤ 10 ^ p.M_min
    · rw [if_pos h, if_neg (not_lt.2 h)]
    · rw [if_neg h, if_pos (not_le.1 h)]
  | spinelli19 p =>
    have hr' : central = false := hr
    have hM1 : (10:ℝ) ^ p.M_1 ≠ 0 := by positivity
    have hMb : (10:ℝ) ^ p.M_break_sat ≠ 0 := by positivity
    refine poisson_tame ?_ ?_ (fun h => absurd h (by simp [hr'])) ?_
    · refine Tame.mul (Tame.mul (tame_id a b) (Tame.add (Tame.mul (Tame.mul (tame_const p.a1 a b) (power_tame ha _)) (ContinuousOn.tame ?_)) (tame_const _ _ _))) (ContinuousOn.tame ?_)
      · refine Real.continuous_exp.comp_continuousOn (ContinuousOn.neg fun m hm => ?_)
        have : m / 10 ^ p.M_break ≠ 0 := div_ne_zero (ha.trans_le hm.1).ne' (by positivity)
        exact ((Real.continuousAt_rpow_const _ _ (Or.inl this)).comp (f := fun m : ℝ => m / 10 ^ p.M_break) (continuousAt_id.div_const _)).continuousWithinAt
      · exact Real.continuous_exp.comp_continuousOn (inv_power_tame ha hM1 _).neg
    · refine Tame.mul (Tame.mul (Tame.mul (tame_const _ a b) (power_tame ha _)) (ContinuousOn.tame ?_)) ?_
      · exact Real.continuous_exp.comp_continuousOn (inv_power_tame ha hMb _).neg
      · refine (tame_step (c := (10:ℝ) ^ 11) (tame_const 0 a b) (tame_const 1 a b)).congr fun m _ => ?_
        by_cases h : m < 10 ^ 11
        · rw [if_pos h, if_neg (not_le.2 h)]
        · rw [if_neg h, if_pos (not_lt.1 h)]
    · refine (tame_window (c := (10:ℝ) ^ p.M_min_counts) (d := (10:ℝ) ^ p.M_max_counts) (tame_const 1 a b)).congr fun m _ => ?_
      rfl
  | leauthaud11 interp p =>
    have hcen : Tame (leauthaudCen interp p) a b := by
      refine ContinuousOn.tame ?_
      unfold leauthaudCen LeauthaudP.meanLogStellarMass
      exact continuousOn_const.mul (continuousOn_const.sub (erf_continuous.comp_continuousOn
        ((continuousOn_const.sub ((hr _).comp_continuousOn (log10_cont ha))).div_const _)))
    refine poisson_tame' hcen (Tame.mul (Tame.mul (ContinuousOn.tame ?_) (power_tame ha _)) hcen) rfl
    refine Real.continuous_exp.comp_continuousOn (continuousOn_const.div continuousOn_id fun m hm => (ha.trans_le hm.1).ne')

/-- C56: for every HOD class of the package and its parameters, with a mass function and a bias that may have jumps, on the mass grid
`10 ** np.arange(Mmin, Mmax, dlog10m)`: as `dlog10m` tends to 0 the mean tracer density, the effective bias and the satellite fraction converge to the
documented integrals over halo mass. -/
theorem C56_mesh_every_hod (E : Env) (hs : SplLin E.isp) (hc : SplQuad E.isp) (h : HM) (i : HodInst) (central : Bool) (hr : i.Regular central)
    (hh : h.hod = i.mk central) {lo hi : ℝ} (hlh : lo < hi) (hcut : h.hod.sharpCut = true → h.hod.mmin < hi) (D B : ℝ → ℝ) (U T Λ : ℕ → ℝ → ℝ)
    (hD : Tame D ((10:ℝ) ^ lo) ((10:ℝ) ^ hi)) (hB : Tame B ((10:ℝ) ^ lo) ((10:ℝ) ^ hi))
    (hpos : (∫ m in tracerLow h.hod ((10:ℝ) ^ lo)..(10:ℝ) ^ hi, D m * tracerNumber h.hod m) ≠ 0) :
    Tendsto (fun d => (mesh h lo hi D B U T Λ d).meanTracerDen E) (𝓝[>] 0)
      (𝓝 (∫ m in tracerLow h.hod ((10:ℝ) ^ lo)..(10:ℝ) ^ hi, D m * tracerNumber h.hod m)) ∧
    Tendsto (fun d => (mesh h lo hi D B U T Λ d).biasEffTracer E) (𝓝[>] 0)
      (𝓝 ((∫ m in tracerLow h.hod ((10:ℝ) ^ lo)..(10:ℝ) ^ hi, D m * tracerNumber h.hod m * B m) /
        ∫ m in tracerLow h.hod ((10:ℝ) ^ lo)..(10:ℝ) ^ hi, D m * tracerNumber h.hod m)) ∧
    Tendsto (fun d => (mesh h lo hi D B U T Λ d).satFrac E) (𝓝[>] 0)
      (𝓝 ((∫ m in tracerLow h.hod ((10:ℝ) ^ lo)..(10:ℝ) ^ hi, D m * h.hod.satOcc m) /
        ∫ m in tracerLow h.hod ((10:ℝ) ^ lo)..(10:ℝ) ^ hi, D m * tracerNumber h.hod m)) := by
  have ht : HodTame h.hod ((10:ℝ) ^ lo) ((10:ℝ) ^ hi) := by rw [hh]; exact hod_tame i central hr (by positivity) (pow_lt hlh).le
  have key := C56_mesh_tracer E hs hc h hlh hcut D B U T Λ hD hB ht.1 ht.2.1
  exact ⟨key.1, (key.2 hpos).1, (key.2 hpos).2.1⟩

/-- C56: the same for the power spectra of every HOD class, without halo exclusion, at every wavenumber of the grid. -/
theorem C56_mesh_every_hod_power (E : Env) (hs : SplLin E.isp) (hc : SplQuad E.isp) (h : HM) (ho : h.Ok) (i : HodInst) (central : Bool) (hr : i.Regular central)
    (hh : h.hod = i.mk central) {lo hi : ℝ} (hlh : lo < hi) (hcut : h.hod.sharpCut = true → h.hod.mmin < hi) (D B : ℝ → ℝ) (U T Λ : ℕ → ℝ → ℝ)
    (hD : Tame D ((10:ℝ) ^ lo) ((10:ℝ) ^ hi)) (hB : Tame B ((10:ℝ) ^ lo) ((10:ℝ) ^ hi))
    (hU : ∀ j, Tame (U j) ((10:ℝ) ^ lo) ((10:ℝ) ^ hi)) (hT : ∀ j, Tame (T j) ((10:ℝ) ^ lo) ((10:ℝ) ^ hi)) (hrho : h.rhoGtm ≠ 0)
    (hpos : (∫ m in tracerLow h.hod ((10:ℝ) ^ lo)..(10:ℝ) ^ hi, D m * tracerNumber h.hod m) ≠ 0)
    (hmb : (∫ m in (10:ℝ) ^ lo..(10:ℝ) ^ hi, m * D m * B m) ≠ 0) :
    (∃ P : ℝ → ℝ → ℝ, (∀ d > 0, (mesh h lo hi D B U T Λ d).power2hTracer E = some (P d)) ∧ ∀ j < h.nk,
      Tendsto (fun d => P d (h.k j)) (𝓝[>] 0) (𝓝 (((∫ m in tracerLow h.hod ((10:ℝ) ^ lo)..(10:ℝ) ^ hi, D m * tracerNumber h.hod m * B m * T j m) /
        ∫ m in tracerLow h.hod ((10:ℝ) ^ lo)..(10:ℝ) ^ hi, D m * tracerNumber h.hod m) ^ 2 * h.phc (h.k j)))) ∧
    (∀ j < h.nk, h.oneHaloMmin ((10:ℝ) ^ lo) j < (10:ℝ) ^ hi → 0 < h.oneHaloMmin h.hod.mmin j → h.oneHaloMmin h.hod.mmin j < (10:ℝ) ^ hi →
      ∃ Q : ℝ → ℝ → ℝ, (∀ d > 0, (mesh h lo hi D B U T Λ d).power1hTracer E = some (Q d)) ∧
        Tendsto (fun d => Q d (h.k j)) (𝓝[>] 0) (𝓝 ((∫ m in max ((10:ℝ) ^ lo) (h.oneHaloMmin h.hod.mmin j)..(10:ℝ) ^ hi,
          D m * (2 * h.hod.csPairs m * T j m + h.hod.ssPairs m * T j m ^ 2)) /
            (∫ m in tracerLow h.hod ((10:ℝ) ^ lo)..(10:ℝ) ^ hi, D m * tracerNumber h.hod m) ^ 2))) := by
  have ht : HodTame h.hod ((10:ℝ) ^ lo) ((10:ℝ) ^ hi) := by rw [hh]; exact hod_tame i central hr (by positivity) (pow_lt hlh).le
  obtain ⟨P, _, hP, _, hPQ⟩ := C56_mesh_two_halo_power E hs hc h ho hlh hcut D B U T Λ hD hB hU hT ht.1 hrho hpos hmb
  refine ⟨⟨P, hP, fun j hj => (hPQ j hj).1⟩, fun j hj h1 h2 h3 => ?_⟩
  obtain ⟨_, Q, _, hQ, _, hQ'⟩ := C56_mesh_one_halo_power E hs hc h ho hlh D B U T Λ hD hU hT ht.1 ht.2.2.1 ht.2.2.2 hcut hpos j hj h1 ⟨h2, h3⟩
  exact ⟨Q, hQ, hQ'⟩

theorem tracerLow_between {hod : Hod} {lo hi : ℝ} (hlh : lo < hi) (hcut : hod.sharpCut = true → hod.mmin < hi) :
    (10:ℝ) ^ lo ≤ tracerLow hod ((10:ℝ) ^ lo) ∧ tracerLow hod ((10:ℝ) ^ lo) < (10:ℝ) ^ hi := by
  unfold tracerLow
  split_ifs with hb
  · exact ⟨le_max_left _ _, max_lt (pow_lt hlh) (pow_lt (hcut (by rw [Bool.and_eq_true] at hb; exact hb.1)))⟩
  · exact ⟨le_rfl, pow_lt hlh⟩

theorem mesh_positive {hod : Hod} {lo hi : ℝ} (hlh : lo < hi) (hcut : hod.sharpCut = true → hod.mmin < hi) {D : ℝ → ℝ}
    (hD : Tame D ((10:ℝ) ^ lo) ((10:ℝ) ^ hi)) (hN : Tame (tracerNumber hod) ((10:ℝ) ^ lo) ((10:ℝ) ^ hi))
    (hpos : ∀ m, (10:ℝ) ^ lo < m → m < (10:ℝ) ^ hi → 0 < D m * tracerNumber hod m) :
    0 < ∫ m in tracerLow hod ((10:ℝ) ^ lo)..(10:ℝ) ^ hi, D m * tracerNumber hod m := by
  obtain ⟨h1, h2⟩ := tracerLow_between hlh hcut
  refine intervalIntegral.intervalIntegral_pos_of_pos_on ((hD.mul hN).intervalIntegrable ⟨h1, h2.le⟩ ⟨(pow_lt hlh).le, le_rfl⟩) ?_ h2
  exact fun m hm => hpos m (h1.trans_lt hm.1) hm.2

/-- C56 for the default HOD, `Zehavi05`, in words of its parameters: when satellites need a central, the integrals run from the larger of `10 ** Mmin` and
the occupation's `10 ** M_min` over `1 + (m / 10 ** M_1) ** alpha`; otherwise from `10 ** Mmin`, with the step in the integrand.  The mean density is
positive whenever the mass function is. -/
theorem C56_mesh_default (E : Env) (hs : SplLin E.isp) (hc : SplQuad E.isp) (h : HM) (p : ZehaviP) (central : Bool)
    (hh : h.hod = zehavi05 p central) {lo hi : ℝ} (hlh : lo < hi) (hcut : p.M_min < hi) (D B : ℝ → ℝ) (U T Λ : ℕ → ℝ → ℝ)
    (hD : Tame D ((10:ℝ) ^ lo) ((10:ℝ) ^ hi)) (hB : Tame B ((10:ℝ) ^ lo) ((10:ℝ) ^ hi)) (hpos : ∀ m, (10:ℝ) ^ lo < m → m < (10:ℝ) ^ hi → 0 < D m)
    (a : ℝ) (ha : a = if central then max ((10:ℝ) ^ lo) (10 ^ p.M_min) else (10:ℝ) ^ lo) (N : ℝ → ℝ)
    (hN : ∀ m, N m = (if central = false ∧ m < 10 ^ p.M_min then 0 else 1) + (m / 10 ^ p.M_1) ^ p.alpha) :
    0 < (∫ m in a..(10:ℝ) ^ hi, D m * N m) ∧
    Tendsto (fun d => (mesh h lo hi D B U T Λ d).meanTracerDen E) (𝓝[>] 0) (𝓝 (∫ m in a..(10:ℝ) ^ hi, D m * N m)) ∧
    Tendsto (fun d => (mesh h lo hi D B U T Λ d).biasEffTracer E) (𝓝[>] 0)
      (𝓝 ((∫ m in a..(10:ℝ) ^ hi, D m * N m * B m) / ∫ m in a..(10:ℝ) ^ hi, D m * N m)) ∧
    Tendsto (fun d => (mesh h lo hi D B U T Λ d).satFrac E) (𝓝[>] 0)
      (𝓝 ((∫ m in a..(10:ℝ) ^ hi, D m * (m / 10 ^ p.M_1) ^ p.alpha) / ∫ m in a..(10:ℝ) ^ hi, D m * N m)) := by
  have hcut' : h.hod.sharpCut = true → h.hod.mmin < hi := fun _ => by rw [hh]; exact hcut
  have hlow : tracerLow h.hod ((10:ℝ) ^ lo) = a := by
    rw [hh, ha]
    unfold tracerLow
    cases central <;> simp [zehavi05, poisson]
  have ht : HodTame h.hod ((10:ℝ) ^ lo) ((10:ℝ) ^ hi) := by rw [hh]; exact hod_tame (.zehavi05 p) central trivial (by positivity) (pow_lt hlh).le
  obtain ⟨ha1, ha2⟩ := tracerLow_between hlh hcut'
  have hcenI : ∀ m ∈ Set.uIcc a ((10:ℝ) ^ hi), central = true → ¬ m < 10 ^ p.M_min := by
    intro m hm hct
    rw [hlow] at ha2
    rw [Set.uIcc_of_le ha2.le] at hm
    have h1 : (10:ℝ) ^ p.M_min ≤ a := by rw [ha, if_pos hct]; exact le_max_right _ _
    exact not_lt.2 (h1.trans hm.1)
  have hnum : ∀ m ∈ Set.uIcc a ((10:ℝ) ^ hi), tracerNumber h.hod m = N m := by
    intro m hm
    have h3 := hcenI m hm
    rw [hh, hN]
    unfold tracerNumber
    cases hct : central with
    | false => simp [zehavi05, poisson, satelliteOccupation, zehaviSat, zehaviCen]
    | true => simp [zehavi05, poisson, satelliteOccupation, zehaviSat, zehaviCen, h3 hct]
  have hsat : ∀ m ∈ Set.uIcc a ((10:ℝ) ^ hi), h.hod.satOcc m = (m / 10 ^ p.M_1) ^ p.alpha := by
    intro m hm
    have h3 := hcenI m hm
    rw [hh]
    cases hct : central with
    | false => simp [zehavi05, poisson, satelliteOccupation, zehaviSat]
    | true => simp [zehavi05, poisson, satelliteOccupation, zehaviSat, zehaviCen, h3 hct]
  have e1 : (∫ m in a..(10:ℝ) ^ hi, D m * tracerNumber h.hod m) = ∫ m in a..(10:ℝ) ^ hi, D m * N m :=
    intervalIntegral.integral_congr fun m hm => by simp only [hnum m hm]
  have e2 : (∫ m in a..(10:ℝ) ^ hi, D m * tracerNumber h.hod m * B m) = ∫ m in a..(10:ℝ) ^ hi, D m * N m * B m :=
    intervalIntegral.integral_congr fun m hm => by simp only [hnum m hm]
  have e3 : (∫ m in a..(10:ℝ) ^ hi, D m * h.hod.satOcc m) = ∫ m in a..(10:ℝ) ^ hi, D m * (m / 10 ^ p.M_1) ^ p.alpha :=
    intervalIntegral.integral_congr fun m hm => by simp only [hsat m hm]
  have hp0 : 0 < ∫ m in tracerLow h.hod ((10:ℝ) ^ lo)..(10:ℝ) ^ hi, D m * tracerNumber h.hod m := by
    refine intervalIntegral.intervalIntegral_pos_of_pos_on ((hD.mul ht.1).intervalIntegrable ⟨ha1, ha2.le⟩ ⟨(pow_lt hlh).le, le_rfl⟩) ?_ ha2
    intro m hm
    have hm0 : 0 < m := lt_trans (lt_of_lt_of_le (by positivity) ha1) hm.1
    rw [hlow] at ha2 hm
    rw [hnum m (by rw [Set.uIcc_of_le ha2.le]; exact ⟨hm.1.le, hm.2.le⟩), hN]
    refine mul_pos (hpos m (lt_of_le_of_lt (by rw [← hlow]; exact ha1) hm.1) hm.2) ?_
    have h4 : 0 < (m / 10 ^ p.M_1) ^ p.alpha := Real.rpow_pos_of_pos (div_pos hm0 (by positivity)) _
    split_ifs <;> linarith
  obtain ⟨k1, k2, k3⟩ := C56_mesh_every_hod E hs hc h (.zehavi05 p) central trivial hh hlh hcut' D B U T Λ hD hB hp0.ne'
  rw [hlow, e1] at k1 hp0
  rw [hlow, e1, e2] at k2
  rw [hlow, e1, e3] at k3
  exact ⟨hp0, k1, k2, k3⟩

/-- a case that meets the hypotheses: the default occupation, the package's spline, a power-law mass function and linear bias. -/
example (h : HM) : ∃ L, 0 < L ∧
    Tendsto (fun d => (mesh { h with hod := zehavi05 {} true } 11 15 (fun m => m⁻¹) (fun m => m) (fun _ _ => 1) (fun _ _ => 1) (fun _ _ => 1) d).meanTracerDen
      { isp := cubicSpl, us := fun _ _ _ _ => 0, hankel := fun _ _ => 0 }) (𝓝[>] 0) (𝓝 L) := by
  have := C56_mesh_default { isp := cubicSpl, us := fun _ _ _ _ => 0, hankel := fun _ _ => 0 } cubicSpl_lin cubicSpl_quad { h with hod := zehavi05 {} true } {}
    true rfl (lo := 11) (hi := 15) (by norm_num) (by norm_num) (fun m => m⁻¹) (fun m => m) (fun _ _ => 1) (fun _ _ => 1) (fun _ _ => 1)
    (ContinuousOn.tame (continuousOn_inv₀.mono fun m hm => by
      have h1 : (0:ℝ) < 10 ^ (11:ℝ) := by positivity
      have := h1.trans_le hm.1
      exact this.ne'))
    (tame_id _ _) (fun m hm _ => inv_pos.mpr (lt_trans (by positivity) hm)) _ rfl _ fun m => rfl
  exact ⟨_, this.1, this.2.1⟩

/-- every class with the parameters it is given by default. -/
example (c : Bool) : (HodInst.zehavi05 {}).Regular c ∧ (HodInst.zheng05 {}).Regular c ∧ (HodInst.tinker05 {}).Regular c ∧ (HodInst.spinelli19 {}).Regular false ∧
    (HodInst.leauthaud11 (fun _ x => x) {}).Regular c :=
  ⟨trivial, by show (0:ℝ) ≤ 1.049; norm_num, trivial, rfl, fun _ => continuous_id⟩

end Halomod.HaloModel
