import Verif.Props.Mesh2

/-! # C64 for occupations with steps (the default HOD), on the mass grid the package really uses -/
namespace Halomod.HaloModel

open Filter Topology MeasureTheory Halomod.Tools Halomod.HOD

theorem tame_sqrt {f : ℝ → ℝ} {a b : ℝ} (hf : Tame f a b) : Tame (fun m => Real.sqrt (f m)) a b := by
  obtain ⟨⟨M, hM⟩, s, hs, hs'⟩ := hf
  refine ⟨⟨Real.sqrt M, fun m hm => ?_⟩, s, hs, fun m hm hn => (Real.continuous_sqrt.continuousAt).comp_continuousWithinAt (hs' m hm hn)⟩
  rw [abs_of_nonneg (Real.sqrt_nonneg _)]
  exact Real.sqrt_le_sqrt ((le_abs_self _).trans (hM m hm))

/-- if pointwise `f² ≤ p q` then the same holds for weighted integrals. -/
theorem cauchy_schwarz_tame {a b : ℝ} (hab : a ≤ b) {w f p q : ℝ → ℝ} (hw : Tame w a b) (hf : Tame f a b) (hp : Tame p a b) (hq : Tame q a b)
    (pw : ∀ t ∈ Set.Icc a b, 0 ≤ w t)
    (pp : ∀ t ∈ Set.Icc a b, 0 ≤ p t) (pq : ∀ t ∈ Set.Icc a b, 0 ≤ q t) (key : ∀ t ∈ Set.Icc a b, f t ^ 2 ≤ p t * q t) :
    (∫ t in a..b, w t * f t) ^ 2 ≤ (∫ t in a..b, w t * p t) * ∫ t in a..b, w t * q t := by
  have ii : ∀ {u : ℝ → ℝ}, Tame u a b → IntervalIntegrable u volume a b := fun hu => hu.intervalIntegrable ⟨le_rfl, hab⟩ ⟨hab, le_rfl⟩
  have quad : ∀ x : ℝ, 0 ≤ (∫ t in a..b, w t * p t) * (x * x) + (2 * ∫ t in a..b, w t * f t) * x + ∫ t in a..b, w t * q t := by
    intro x
    have e : (∫ t in a..b, w t * p t) * (x * x) + (2 * ∫ t in a..b, w t * f t) * x + ∫ t in a..b, w t * q t
        = ∫ t in a..b, w t * (p t * x ^ 2 + 2 * f t * x + q t) := by
      rw [show (fun t => w t * (p t * x ^ 2 + 2 * f t * x + q t)) = fun t => ((x * x) * (w t * p t) + (2 * x) * (w t * f t)) + w t * q t from
          funext fun t => by ring]
      rw [intervalIntegral.integral_add, intervalIntegral.integral_add, intervalIntegral.integral_const_mul, intervalIntegral.integral_const_mul]
      · ring
      · exact (ii (hw.mul hp)).const_mul _
      · exact (ii (hw.mul hf)).const_mul _
      · exact ((ii (hw.mul hp)).const_mul _).add ((ii (hw.mul hf)).const_mul _)
      · exact ii (hw.mul hq)
    rw [e]
    refine intervalIntegral.integral_nonneg hab fun t ht => mul_nonneg (pw t ht) ?_
    have k := key t ht
    have p0 := pp t ht
    have q0 := pq t ht
    rcases p0.eq_or_lt with hz | hpos
    · rw [← hz, zero_mul] at k
      have hf0 : f t = 0 := by nlinarith
      rw [← hz, hf0]
      linarith
    · have h2 : 0 ≤ p t * (p t * x ^ 2 + 2 * f t * x + q t) := by nlinarith [sq_nonneg (p t * x + f t)]
      exact nonneg_of_mul_nonneg_right h2 hpos
  have := discrim_le_zero quad
  unfold discrim at this
  nlinarith

/-- a tracer population whose occupation is Poisson with at most one central per halo, with countably many jumps over the tabulated masses; where it
has a sharp cut, haloes above the cut have their central and haloes below it none (and no satellites, if the class handles that itself). -/
structure Stepped (d : PoissonDef) (lo hi : ℝ) : Prop where
  tpc : ∀ m, d.tpc m = 1
  cut : d.sharpCut = true → d.mmin < hi
  one : d.sharpCut = true → ∀ m, (10:ℝ) ^ d.mmin ≤ m → d.cen m = 1
  zero : d.sharpCut = true → ∀ m, m < (10:ℝ) ^ d.mmin → d.cen m = 0 ∧ (d.inherent = true → d.sat m = 0)
  mmin : 0 < d.mmin ∧ d.mmin ≤ (10:ℝ) ^ lo
  cenT : Tame d.cen ((10:ℝ) ^ lo) ((10:ℝ) ^ hi)
  satT : Tame d.sat ((10:ℝ) ^ lo) ((10:ℝ) ^ hi)
  sigT : Tame d.sigC ((10:ℝ) ^ lo) ((10:ℝ) ^ hi)
  cen : ∀ m ∈ Set.Icc ((10:ℝ) ^ lo) ((10:ℝ) ^ hi), 0 ≤ d.cen m
  sat : ∀ m ∈ Set.Icc ((10:ℝ) ^ lo) ((10:ℝ) ^ hi), 0 ≤ d.sat m
  sig : ∀ m ∈ Set.Icc ((10:ℝ) ^ lo) ((10:ℝ) ^ hi), d.sigC m ^ 2 ≤ d.cen m * (1 - d.cen m)

theorem Stepped.facts {d : PoissonDef} {lo hi : ℝ} (hlh : lo < hi) (s : Stepped d lo hi) (central : Bool) :
    Tame (poisson d central).satOcc ((10:ℝ) ^ lo) ((10:ℝ) ^ hi) ∧
    (∀ m ∈ Set.Icc ((10:ℝ) ^ lo) ((10:ℝ) ^ hi), 0 ≤ (poisson d central).satOcc m) ∧
    Tame (poisson d central).csPairs ((10:ℝ) ^ lo) ((10:ℝ) ^ hi) ∧
    (∀ m ∈ Set.Icc ((10:ℝ) ^ lo) ((10:ℝ) ^ hi), d.cen m * (poisson d central).satOcc m ≤ (poisson d central).csPairs m) ∧
    Tame (centralNumber (poisson d central)) ((10:ℝ) ^ lo) ((10:ℝ) ^ hi) ∧
    (∀ m ∈ Set.Icc ((10:ℝ) ^ lo) ((10:ℝ) ^ hi), d.cen m ≤ 1) ∧
    ∀ α β : ℝ → ℝ, Tame α ((10:ℝ) ^ lo) ((10:ℝ) ^ hi) → Tame β ((10:ℝ) ^ lo) ((10:ℝ) ^ hi) →
      (∫ m in tracerLow (poisson d central) ((10:ℝ) ^ lo)..(10:ℝ) ^ hi, (α m * centralNumber (poisson d central) m + β m * (poisson d central).satOcc m)) =
      ∫ m in (10:ℝ) ^ lo..(10:ℝ) ^ hi, (α m * d.cen m + β m * (poisson d central).satOcc m) := by
  have esat : ∀ m, (poisson d central).satOcc m = if central && !d.inherent then d.cen m * d.sat m else d.sat m := fun m => by
    change HOD.satelliteOccupation _ _ (fun m => d.cen m / d.tpc m) _ m = _
    unfold HOD.satelliteOccupation
    simp only [s.tpc, div_one]
  have ecs : ∀ m, (poisson d central).csPairs m = if central then (poisson d central).satOcc m else d.cen m * (poisson d central).satOcc m := fun m => by
    change (if central then _ * d.tpc m else _) = _
    rw [s.tpc, mul_one]; rfl
  have c1 : ∀ m ∈ Set.Icc ((10:ℝ) ^ lo) ((10:ℝ) ^ hi), d.cen m ≤ 1 := fun m hm => by
    by_contra hlt
    push Not at hlt
    have := s.sig m hm
    have := sq_nonneg (d.sigC m)
    nlinarith
  have hS : Tame (poisson d central).satOcc ((10:ℝ) ^ lo) ((10:ℝ) ^ hi) := by
    rw [show (poisson d central).satOcc = fun m => if central && !d.inherent then d.cen m * d.sat m else d.sat m from funext esat]
    split_ifs
    · exact s.cenT.mul s.satT
    · exact s.satT
  have pS : ∀ m ∈ Set.Icc ((10:ℝ) ^ lo) ((10:ℝ) ^ hi), 0 ≤ (poisson d central).satOcc m := fun m hm => by
    rw [esat]
    split_ifs
    · exact mul_nonneg (s.cen m hm) (s.sat m hm)
    · exact s.sat m hm
  have ecn : ∀ m, centralNumber (poisson d central) m = if d.sharpCut && (central || d.inherent) then 1 else d.cen m := fun m => rfl
  have hC : Tame (centralNumber (poisson d central)) ((10:ℝ) ^ lo) ((10:ℝ) ^ hi) := by
    rw [show centralNumber (poisson d central) = fun m => if d.sharpCut && (central || d.inherent) then 1 else d.cen m from funext ecn]
    split_ifs
    · exact tame_const _ _ _
    · exact s.cenT
  refine ⟨hS, pS, ?_, ?_, hC, c1, fun α β hα hβ => ?_⟩
  · rw [show (poisson d central).csPairs = fun m => if central then (poisson d central).satOcc m else d.cen m * (poisson d central).satOcc m from funext ecs]
    split_ifs
    · exact hS
    · exact s.cenT.mul hS
  · intro m hm
    rw [ecs]
    split_ifs
    · exact mul_le_of_le_one_left (pS m hm) (c1 m hm)
    · exact le_rfl
  · obtain ⟨l1, l2⟩ := tracerLow_between (hod := poisson d central) hlh s.cut
    have hcl : tracerLow (poisson d central) ((10:ℝ) ^ lo) =
      if d.sharpCut && (central || d.inherent) then max ((10:ℝ) ^ lo) ((10:ℝ) ^ d.mmin) else (10:ℝ) ^ lo := rfl
    by_cases hb : (d.sharpCut && (central || d.inherent)) = true
    · have hsc : d.sharpCut = true := by rw [Bool.and_eq_true] at hb; exact hb.1
      have hci : (central || d.inherent) = true := by rw [Bool.and_eq_true] at hb; exact hb.2
      rw [if_pos hb] at hcl
      have hG : Tame (fun m => α m * d.cen m + β m * (poisson d central).satOcc m) ((10:ℝ) ^ lo) ((10:ℝ) ^ hi) := (hα.mul s.cenT).add (hβ.mul hS)
      have e1 : (∫ m in tracerLow (poisson d central) ((10:ℝ) ^ lo)..(10:ℝ) ^ hi, (α m * centralNumber (poisson d central) m + β m * (poisson d central).satOcc m)) =
          ∫ m in tracerLow (poisson d central) ((10:ℝ) ^ lo)..(10:ℝ) ^ hi, (α m * d.cen m + β m * (poisson d central).satOcc m) := by
        refine intervalIntegral.integral_congr fun m hm => ?_
        rw [Set.uIcc_of_le l2.le] at hm
        have : (10:ℝ) ^ d.mmin ≤ m := (by rw [hcl] at hm; exact (le_max_right _ _).trans hm.1)
        simp only [ecn, if_pos hb, s.one hsc m this]
      rw [e1, ← intervalIntegral.integral_add_adjacent_intervals (b := tracerLow (poisson d central) ((10:ℝ) ^ lo))
        (hG.intervalIntegrable ⟨le_rfl, (pow_lt hlh).le⟩ ⟨l1, l2.le⟩) (hG.intervalIntegrable ⟨l1, l2.le⟩ ⟨(pow_lt hlh).le, le_rfl⟩)]
      have e2 : (∫ m in (10:ℝ) ^ lo..tracerLow (poisson d central) ((10:ℝ) ^ lo), (α m * d.cen m + β m * (poisson d central).satOcc m)) = 0 := by
        refine (intervalIntegral.integral_congr_ae ?_).trans intervalIntegral.integral_zero
        filter_upwards [not_mem_ae (Set.countable_singleton (tracerLow (poisson d central) ((10:ℝ) ^ lo)))] with m hn hm
        rw [Set.uIoc_of_le l1] at hm
        have hlt : m < tracerLow (poisson d central) ((10:ℝ) ^ lo) := lt_of_le_of_ne hm.2 hn
        have hlt' : m < (10:ℝ) ^ d.mmin := by
          rw [hcl] at hlt
          rcases lt_max_iff.mp hlt with h | h
          · exact absurd h (not_lt.mpr hm.1.le)
          · exact h
        obtain ⟨z1, z2⟩ := s.zero hsc m hlt'
        have z3 : (poisson d central).satOcc m = 0 := by
          rw [esat]
          cases hi' : d.inherent with
          | true => simp [z2 hi']
          | false =>
            have : central = true := by rw [hi', Bool.or_false] at hci; exact hci
            simp [this, z1]
        rw [z1, z3]; ring
      rw [e2, zero_add]
    · rw [if_neg hb] at hcl
      rw [hcl]
      refine intervalIntegral.integral_congr fun m _ => ?_
      simp only [ecn, if_neg hb]

/-- C64: as `C64_one_halo_bound_partial`, for occupations that jump inside the mass range and the mass grid the package makes: with the one-halo
turnover switched off, the one-halo tracer-matter power never exceeds the geometric mean of the one-halo matter power and the one-halo tracer power
plus shot noise, up to an error that vanishes with `dlog10m`.  Missing: the default, turnover switched on (see `C64_turnover_breaks_bound`). -/
theorem C64_mesh_one_halo_bound_partial (E : Env) (hs : SplLin E.isp) (hc : SplQuad E.isp) (h : HM) (ho : h.Ok) {lo hi : ℝ} (hlh : lo < hi)
    (d : PoissonDef) (central : Bool) (hh : h.hod = poisson d central) (sd : Stepped d lo hi) (ht : h.turnover = false)
    (D B : ℝ → ℝ) (U T Λ : ℕ → ℝ → ℝ) (hD : Tame D ((10:ℝ) ^ lo) ((10:ℝ) ^ hi)) (hB : Tame B ((10:ℝ) ^ lo) ((10:ℝ) ^ hi))
    (hU : ∀ j, Tame (U j) ((10:ℝ) ^ lo) ((10:ℝ) ^ hi)) (hT : ∀ j, Tame (T j) ((10:ℝ) ^ lo) ((10:ℝ) ^ hi))
    (pD : ∀ m ∈ Set.Icc ((10:ℝ) ^ lo) ((10:ℝ) ^ hi), 0 ≤ D m) (hρ : 0 < h.meanDensity0)
    (hnb : 0 < ∫ m in (10:ℝ) ^ lo..(10:ℝ) ^ hi, D m * (h.hod.cenOcc m + h.hod.satOcc m))
    (j : ℕ) (hj : j < h.nk) (pT : ∀ m ∈ Set.Icc ((10:ℝ) ^ lo) ((10:ℝ) ^ hi), 0 ≤ T j m) :
    ∃ tm mm tt : ℝ → ℝ → ℝ, (∀ d > 0, (mesh h lo hi D B U T Λ d).power1hCross E = some (tm d)) ∧
      (∀ d > 0, (mesh h lo hi D B U T Λ d).power1hMatter E = some (mm d)) ∧ (∀ d > 0, (mesh h lo hi D B U T Λ d).power1hTracer E = some (tt d)) ∧
      ∀ ε > 0, ∀ᶠ d in 𝓝[>] (0:ℝ), tm d (h.k j) ^ 2 ≤
        mm d (h.k j) * (tt d (h.k j) + 1 / (mesh h lo hi D B U T Λ d).meanTracerDen E) + ε := by
  have h01 := (pow_lt hlh).le
  obtain ⟨hS, pS, hcs, qcs, hC, c1, move⟩ := sd.facts hlh central
  rw [← hh] at hS pS hcs qcs hC move
  have ecen : h.hod.cenOcc = d.cen := by rw [hh]; rfl
  have ess : h.hod.ssPairs = fun m => h.hod.satOcc m ^ 2 := by rw [hh]; rfl
  have emm : h.hod.mmin = d.mmin := by rw [hh]; rfl
  have hcut : h.hod.sharpCut = true → h.hod.mmin < hi := by rw [hh]; exact sd.cut
  have hss : Tame h.hod.ssPairs ((10:ℝ) ^ lo) ((10:ℝ) ^ hi) := by rw [ess]; exact hS.pow_two
  have hN : Tame (tracerNumber h.hod) ((10:ℝ) ^ lo) ((10:ℝ) ^ hi) := hC.add hS
  have en : (∫ m in tracerLow h.hod ((10:ℝ) ^ lo)..(10:ℝ) ^ hi, D m * tracerNumber h.hod m) = ∫ m in (10:ℝ) ^ lo..(10:ℝ) ^ hi, D m * (d.cen m + h.hod.satOcc m) := by
    refine Eq.trans (intervalIntegral.integral_congr fun m _ => ?_) ((move D D hD hD).trans (intervalIntegral.integral_congr fun m _ => ?_))
    · change D m * (centralNumber h.hod m + h.hod.satOcc m) = _; ring
    · ring
  have ex : (∫ m in tracerLow h.hod ((10:ℝ) ^ lo)..(10:ℝ) ^ hi, D m * m * U j m * (centralNumber h.hod m + h.hod.satOcc m * T j m)) =
      ∫ m in (10:ℝ) ^ lo..(10:ℝ) ^ hi, D m * (m * U j m * (d.cen m + h.hod.satOcc m * T j m)) := by
    refine Eq.trans (intervalIntegral.integral_congr fun m _ => ?_)
      ((move (fun m => D m * m * U j m) (fun m => D m * m * U j m * T j m) ((hD.mul (tame_id _ _)).mul (hU j))
        (((hD.mul (tame_id _ _)).mul (hU j)).mul (hT j))).trans (intervalIntegral.integral_congr fun m _ => ?_))
    · ring
    · ring
  rw [ecen] at hnb
  have hne : (∫ m in tracerLow h.hod ((10:ℝ) ^ lo)..(10:ℝ) ^ hi, D m * tracerNumber h.hod m) ≠ 0 := by rw [en]; exact hnb.ne'
  obtain ⟨tm, _, htm, _, ltm⟩ := C56_mesh_tracer_matter_power E hs hc h ho hlh hcut D B U T Λ hD hB hU hT hC hS _ rfl hne hρ.ne'
  have hmin1 : h.oneHaloMmin ((10:ℝ) ^ lo) j = (10:ℝ) ^ lo := fine_turnover_off h ht _ _
  have hmin2 : h.oneHaloMmin h.hod.mmin j = h.hod.mmin := fine_turnover_off h ht _ _
  obtain ⟨mm, tt, hmmv, htt, lmm, ltt⟩ := C56_mesh_one_halo_power E hs hc h ho hlh D B U T Λ hD hU hT hN hcs hss hcut hne j hj
    (by rw [hmin1]; exact pow_lt hlh) (by rw [hmin2, emm]; exact ⟨sd.mmin.1, sd.mmin.2.trans_lt (pow_lt hlh)⟩)
  refine ⟨tm, mm, tt, htm, hmmv, htt, fun ε hε => ?_⟩
  have lden := mesh_mean E hs hc h hlh hcut D B U T Λ hD hN
  have ltm := (ltm j hj).1
  rw [hmin1] at lmm
  rw [hmin2, emm, max_eq_left sd.mmin.2, en, ess] at ltt
  rw [en] at lden
  rw [ex, show (∫ m in tracerLow h.hod ((10:ℝ) ^ lo)..(10:ℝ) ^ hi, D m * (centralNumber h.hod m + h.hod.satOcc m)) = _ from en] at ltm
  have p1 : Tame (fun m => 2 * h.hod.csPairs m * T j m + h.hod.satOcc m ^ 2 * T j m ^ 2) ((10:ℝ) ^ lo) ((10:ℝ) ^ hi) :=
    (((tame_const 2 _ _).mul hcs).mul (hT j)).add (hS.pow_two.mul (hT j).pow_two)
  have p2 : Tame (fun m => d.cen m + h.hod.satOcc m) ((10:ℝ) ^ lo) ((10:ℝ) ^ hi) := sd.cenT.add hS
  have key := cauchy_schwarz_tame h01 hD (f := fun m => m * U j m * (d.cen m + h.hod.satOcc m * T j m)) (p := fun m => m ^ 2 * U j m ^ 2)
    (((tame_id _ _).mul (hU j)).mul (sd.cenT.add (hS.mul (hT j)))) ((tame_id _ _).pow_two.mul (hU j).pow_two) (p1.add p2) pD
    (fun m _ => by positivity)
    (fun m hm => by
      have := pS m hm; have := sd.cen m hm; have := pT m hm
      have q0 := (mul_nonneg (sd.cen m hm) (pS m hm)).trans (qcs m hm)
      positivity)
    (fun m hm => by
      have a1 := pS m hm; have a2 := sd.cen m hm; have a3 := pT m hm; have a4 := c1 m hm; have a5 := qcs m hm
      have : (d.cen m + h.hod.satOcc m * T j m) ^ 2 ≤ 2 * h.hod.csPairs m * T j m + h.hod.satOcc m ^ 2 * T j m ^ 2 + (d.cen m + h.hod.satOcc m) := by
        have b1 := mul_le_mul_of_nonneg_right a5 a3
        have b2 : d.cen m ^ 2 ≤ d.cen m := by nlinarith
        nlinarith
      calc (m * U j m * (d.cen m + h.hod.satOcc m * T j m)) ^ 2 = (m ^ 2 * U j m ^ 2) * (d.cen m + h.hod.satOcc m * T j m) ^ 2 := by ring
        _ ≤ _ := mul_le_mul_of_nonneg_left this (by positivity))
  have split : (∫ m in (10:ℝ) ^ lo..(10:ℝ) ^ hi, D m * (2 * h.hod.csPairs m * T j m + h.hod.satOcc m ^ 2 * T j m ^ 2 + (d.cen m + h.hod.satOcc m))) =
      (∫ m in (10:ℝ) ^ lo..(10:ℝ) ^ hi, D m * (2 * h.hod.csPairs m * T j m + h.hod.satOcc m ^ 2 * T j m ^ 2)) +
      ∫ m in (10:ℝ) ^ lo..(10:ℝ) ^ hi, D m * (d.cen m + h.hod.satOcc m) := by
    rw [← intervalIntegral.integral_add ((hD.mul p1).intervalIntegrable ⟨le_rfl, h01⟩ ⟨h01, le_rfl⟩) ((hD.mul p2).intervalIntegrable ⟨le_rfl, h01⟩ ⟨h01, le_rfl⟩)]
    exact intervalIntegral.integral_congr fun m _ => by ring
  rw [split] at key
  have emat : (∫ m in (10:ℝ) ^ lo..(10:ℝ) ^ hi, D m * m ^ 2 * U j m ^ 2) = ∫ m in (10:ℝ) ^ lo..(10:ℝ) ^ hi, D m * (m ^ 2 * U j m ^ 2) :=
    intervalIntegral.integral_congr fun m _ => by ring
  rw [emat] at lmm
  generalize (∫ m in (10:ℝ) ^ lo..(10:ℝ) ^ hi, D m * (m * U j m * (d.cen m + h.hod.satOcc m * T j m))) = X at *
  generalize (∫ m in (10:ℝ) ^ lo..(10:ℝ) ^ hi, D m * (m ^ 2 * U j m ^ 2)) = Mm at *
  generalize (∫ m in (10:ℝ) ^ lo..(10:ℝ) ^ hi, D m * (2 * h.hod.csPairs m * T j m + h.hod.satOcc m ^ 2 * T j m ^ 2)) = P at *
  generalize (∫ m in (10:ℝ) ^ lo..(10:ℝ) ^ hi, D m * (d.cen m + h.hod.satOcc m)) = w at *
  have rhs := (lmm.mul (ltt.add ((tendsto_const_nhds (x := (1:ℝ))).div lden hnb.ne'))).add_const ε
  refine ((ltm.pow 2).eventually_lt rhs ?_).mono fun n hn => hn.le
  have hρ' := hρ.ne'
  have hw' := hnb.ne'
  have e : Mm / h.meanDensity0 ^ 2 * (P / w ^ 2 + 1 / w) = Mm * (P + w) / (w * h.meanDensity0) ^ 2 := by
    generalize h.meanDensity0 = ρ at *
    field_simp
  rw [e, div_pow]
  have : X ^ 2 / (w * h.meanDensity0) ^ 2 ≤ Mm * (P + w) / (w * h.meanDensity0) ^ 2 := by gcongr
  linarith

/-- C64: as `C64_two_tracers_one_halo_partial`, for occupations that jump inside the mass range and the mass grid the package makes.  Missing: the
default, turnover switched on. -/
theorem C64_mesh_two_tracers_one_halo_partial (E : Env) (hs : SplLin E.isp) (hc : SplQuad E.isp) (h g : HM) (ho : h.Ok) (go : g.Ok) {lo hi : ℝ} (hlh : lo < hi)
    (hnk : h.nk = g.nk) (hk : h.k = g.k) (d d' : PoissonDef) (ce ce' : Bool)
    (hh : h.hod = poisson d ce) (hg : g.hod = poisson d' ce') (sd : Stepped d lo hi) (sd' : Stepped d' lo hi)
    (ht : h.turnover = false) (gt : g.turnover = false) (c : Cross.CrossDef) (keep : ℝ → ℕ → Bool) (kt : ∀ d i, keep d i = true)
    (adm : ∀ m ∈ Set.Icc ((10:ℝ) ^ lo) ((10:ℝ) ^ hi), Cross.Admissible c m) (nos : ∀ m, c.selfPairs m = 0)
    (r1 : Tame c.Rss ((10:ℝ) ^ lo) ((10:ℝ) ^ hi)) (r2 : Tame c.Rcs ((10:ℝ) ^ lo) ((10:ℝ) ^ hi)) (r3 : Tame c.Rsc ((10:ℝ) ^ lo) ((10:ℝ) ^ hi))
    (D B B' : ℝ → ℝ) (U U' T T' Λ Λ' : ℕ → ℝ → ℝ) (hD : Tame D ((10:ℝ) ^ lo) ((10:ℝ) ^ hi)) (hB : Tame B ((10:ℝ) ^ lo) ((10:ℝ) ^ hi))
    (gB : Tame B' ((10:ℝ) ^ lo) ((10:ℝ) ^ hi)) (hU : ∀ j, Tame (U j) ((10:ℝ) ^ lo) ((10:ℝ) ^ hi)) (gU : ∀ j, Tame (U' j) ((10:ℝ) ^ lo) ((10:ℝ) ^ hi))
    (hT : ∀ j, Tame (T j) ((10:ℝ) ^ lo) ((10:ℝ) ^ hi)) (gT : ∀ j, Tame (T' j) ((10:ℝ) ^ lo) ((10:ℝ) ^ hi))
    (pD : ∀ m ∈ Set.Icc ((10:ℝ) ^ lo) ((10:ℝ) ^ hi), 0 ≤ D m)
    (hnb : 0 < ∫ m in (10:ℝ) ^ lo..(10:ℝ) ^ hi, D m * (h.hod.cenOcc m + h.hod.satOcc m))
    (gnb : 0 < ∫ m in (10:ℝ) ^ lo..(10:ℝ) ^ hi, D m * (g.hod.cenOcc m + g.hod.satOcc m))
    (j : ℕ) (hj : j < h.nk) (pT : ∀ m ∈ Set.Icc ((10:ℝ) ^ lo) ((10:ℝ) ^ hi), 0 ≤ T j m ∧ T j m ≤ 1)
    (pT' : ∀ m ∈ Set.Icc ((10:ℝ) ^ lo) ((10:ℝ) ^ hi), 0 ≤ T' j m ∧ T' j m ≤ 1) :
    ∃ x t1 t2 : ℝ → ℝ → ℝ, (∀ d > 0, Cross.power1h E c (keep d) (mesh h lo hi D B U T Λ d) (mesh g lo hi D B' U' T' Λ' d) = some (x d)) ∧
      (∀ d > 0, (mesh h lo hi D B U T Λ d).power1hTracer E = some (t1 d)) ∧ (∀ d > 0, (mesh g lo hi D B' U' T' Λ' d).power1hTracer E = some (t2 d)) ∧
      ∀ ε > 0, ∀ᶠ d in 𝓝[>] (0:ℝ), x d (h.k j) ^ 2 ≤ (t1 d (h.k j) + 1 / (mesh h lo hi D B U T Λ d).meanTracerDen E) *
        (t2 d (h.k j) + 1 / (mesh g lo hi D B' U' T' Λ' d).meanTracerDen E) + ε := by
  have h01 := (pow_lt hlh).le
  obtain ⟨s1, ps1, cs1, qcs1, C1, _, move1⟩ := sd.facts hlh ce
  obtain ⟨s2, ps2, cs2, qcs2, C2, _, move2⟩ := sd'.facts hlh ce'
  rw [← hh] at s1 ps1 cs1 qcs1 C1 move1
  rw [← hg] at s2 ps2 cs2 qcs2 C2 move2
  have ec1 : h.hod.cenOcc = d.cen := by rw [hh]; rfl
  have ec2 : g.hod.cenOcc = d'.cen := by rw [hg]; rfl
  have eg1 : h.hod.sigmaCen = d.sigC := by rw [hh]; rfl
  have eg2 : g.hod.sigmaCen = d'.sigC := by rw [hg]; rfl
  have es1 : h.hod.sigmaSat = fun m => Real.sqrt (h.hod.satOcc m) := by rw [hh]; rfl
  have es2 : g.hod.sigmaSat = fun m => Real.sqrt (g.hod.satOcc m) := by rw [hg]; rfl
  have ess1 : h.hod.ssPairs = fun m => h.hod.satOcc m ^ 2 := by rw [hh]; rfl
  have ess2 : g.hod.ssPairs = fun m => g.hod.satOcc m ^ 2 := by rw [hg]; rfl
  have emm1 : h.hod.mmin = d.mmin := by rw [hh]; rfl
  have emm2 : g.hod.mmin = d'.mmin := by rw [hg]; rfl
  have hcut : h.hod.sharpCut = true → h.hod.mmin < hi := by rw [hh]; exact sd.cut
  have gcut : g.hod.sharpCut = true → g.hod.mmin < hi := by rw [hg]; exact sd'.cut
  have N1 : Tame (tracerNumber h.hod) ((10:ℝ) ^ lo) ((10:ℝ) ^ hi) := C1.add s1
  have N2 : Tame (tracerNumber g.hod) ((10:ℝ) ^ lo) ((10:ℝ) ^ hi) := C2.add s2
  have cq1 : Tame h.hod.sigmaSat ((10:ℝ) ^ lo) ((10:ℝ) ^ hi) := by rw [es1]; exact tame_sqrt s1
  have cq2 : Tame g.hod.sigmaSat ((10:ℝ) ^ lo) ((10:ℝ) ^ hi) := by rw [es2]; exact tame_sqrt s2
  have cg1 : Tame h.hod.sigmaCen ((10:ℝ) ^ lo) ((10:ℝ) ^ hi) := by rw [eg1]; exact sd.sigT
  have cg2 : Tame g.hod.sigmaCen ((10:ℝ) ^ lo) ((10:ℝ) ^ hi) := by rw [eg2]; exact sd'.sigT
  have cc1 : Tame h.hod.cenOcc ((10:ℝ) ^ lo) ((10:ℝ) ^ hi) := by rw [ec1]; exact sd.cenT
  have cc2 : Tame g.hod.cenOcc ((10:ℝ) ^ lo) ((10:ℝ) ^ hi) := by rw [ec2]; exact sd'.cenT
  have hss : Tame (Cross.ssCross c h.hod g.hod) ((10:ℝ) ^ lo) ((10:ℝ) ^ hi) :=
    ((s1.mul s2).add ((cq1.mul cq2).mul r1)).congr fun m _ => by simp only [Cross.ssCross, nos, sub_zero]
  have hcs : Tame (Cross.csCross c h.hod g.hod) ((10:ℝ) ^ lo) ((10:ℝ) ^ hi) := (cc1.mul s2).add ((cg1.mul cq2).mul r2)
  have hsc : Tame (Cross.scCross c h.hod g.hod) ((10:ℝ) ^ lo) ((10:ℝ) ^ hi) := (cc2.mul s1).add ((cg2.mul cq1).mul r3)
  have en1 : (∫ m in tracerLow h.hod ((10:ℝ) ^ lo)..(10:ℝ) ^ hi, D m * tracerNumber h.hod m) = ∫ m in (10:ℝ) ^ lo..(10:ℝ) ^ hi, D m * (d.cen m + h.hod.satOcc m) := by
    refine Eq.trans (intervalIntegral.integral_congr fun m _ => ?_) ((move1 D D hD hD).trans (intervalIntegral.integral_congr fun m _ => ?_))
    · change D m * (centralNumber h.hod m + h.hod.satOcc m) = _; ring
    · ring
  have en2 : (∫ m in tracerLow g.hod ((10:ℝ) ^ lo)..(10:ℝ) ^ hi, D m * tracerNumber g.hod m) = ∫ m in (10:ℝ) ^ lo..(10:ℝ) ^ hi, D m * (d'.cen m + g.hod.satOcc m) := by
    refine Eq.trans (intervalIntegral.integral_congr fun m _ => ?_) ((move2 D D hD hD).trans (intervalIntegral.integral_congr fun m _ => ?_))
    · change D m * (centralNumber g.hod m + g.hod.satOcc m) = _; ring
    · ring
  rw [ec1] at hnb
  rw [ec2] at gnb
  obtain ⟨x, _, _, hx, _, _, lx⟩ := C56_mesh_cross_power E hs hc h g ho hlh hcut gcut hnk D D B B' U U' T T' Λ Λ' c keep kt hD hB hT N1 hD gB gT N2
    hss hcs hsc _ _ rfl rfl (by rw [en1]; exact hnb.ne') (by rw [en2]; exact gnb.ne')
  have a1 : h.oneHaloMmin h.hod.mmin j = h.hod.mmin := fine_turnover_off h ht _ _
  have a2 : g.oneHaloMmin g.hod.mmin j = g.hod.mmin := fine_turnover_off g gt _ _
  have b1 : h.oneHaloMmin ((10:ℝ) ^ lo) j = (10:ℝ) ^ lo := fine_turnover_off h ht _ _
  have b2 : g.oneHaloMmin ((10:ℝ) ^ lo) j = (10:ℝ) ^ lo := fine_turnover_off g gt _ _
  obtain ⟨-, t1, -, ht1, -, lt1⟩ := C56_mesh_one_halo_power E hs hc h ho hlh D B U T Λ hD hU hT N1 cs1 (by rw [ess1]; exact s1.pow_two) hcut
    (by rw [en1]; exact hnb.ne') j hj (by rw [b1]; exact pow_lt hlh) (by rw [a1, emm1]; exact ⟨sd.mmin.1, sd.mmin.2.trans_lt (pow_lt hlh)⟩)
  obtain ⟨-, t2, -, ht2, -, lt2⟩ := C56_mesh_one_halo_power E hs hc g go hlh D B' U' T' Λ' hD gU gT N2 cs2 (by rw [ess2]; exact s2.pow_two) gcut
    (by rw [en2]; exact gnb.ne') j (hnk ▸ hj) (by rw [b2]; exact pow_lt hlh) (by rw [a2, emm2]; exact ⟨sd'.mmin.1, sd'.mmin.2.trans_lt (pow_lt hlh)⟩)
  have lden1 := mesh_mean E hs hc h hlh hcut D B U T Λ hD N1
  have lden2 := mesh_mean E hs hc g hlh gcut D B' U' T' Λ' hD N2
  obtain ⟨a, _, ha, _, lxa, _, _⟩ := lx j hj
  rw [a1, emm1, max_eq_left sd.mmin.2, ess1, en1] at lt1
  rw [a2, emm2, max_eq_left sd'.mmin.2, ← hk, ess2, en2] at lt2
  rw [en1] at lden1
  rw [en2] at lden2
  rw [en1, en2] at ha
  refine ⟨x, t1, t2, hx, ht1, ht2, fun ε hε => ?_⟩
  have p1C : Tame (fun m => 2 * h.hod.csPairs m * T j m + h.hod.satOcc m ^ 2 * T j m ^ 2) ((10:ℝ) ^ lo) ((10:ℝ) ^ hi) :=
    (((tame_const 2 _ _).mul cs1).mul (hT j)).add (s1.pow_two.mul (hT j).pow_two)
  have p2C : Tame (fun m => 2 * g.hod.csPairs m * T' j m + g.hod.satOcc m ^ 2 * T' j m ^ 2) ((10:ℝ) ^ lo) ((10:ℝ) ^ hi) :=
    (((tame_const 2 _ _).mul cs2).mul (gT j)).add (s2.pow_two.mul (gT j).pow_two)
  have n1C : Tame (fun m => d.cen m + h.hod.satOcc m) ((10:ℝ) ^ lo) ((10:ℝ) ^ hi) := sd.cenT.add s1
  have n2C : Tame (fun m => d'.cen m + g.hod.satOcc m) ((10:ℝ) ^ lo) ((10:ℝ) ^ hi) := sd'.cenT.add s2
  have key := cauchy_schwarz_tame h01 hD
    (((((hT j).mul (gT j)).mul hss).add ((hT j).mul hsc)).add ((gT j).mul hcs)) (p1C.add n1C) (p2C.add n2C) pD
    (fun m hm => by
      have q := qcs1 m hm; have := ps1 m hm; have c0 := sd.cen m hm; have := (pT m hm).1
      have q0 : 0 ≤ h.hod.csPairs m := (mul_nonneg c0 (ps1 m hm)).trans q
      positivity)
    (fun m hm => by
      have q := qcs2 m hm; have := ps2 m hm; have c0 := sd'.cen m hm; have := (pT' m hm).1
      have q0 : 0 ≤ g.hod.csPairs m := (mul_nonneg c0 (ps2 m hm)).trans q
      positivity)
    (fun m hm => by
      unfold Cross.ssCross Cross.csCross Cross.scCross
      rw [nos, sub_zero, ec1, ec2, eg1, eg2]
      refine Cross.pair_bound (sd.cen m hm) (ps1 m hm) (sd'.cen m hm) (ps2 m hm) (pT m hm).1 (pT m hm).2 (pT' m hm).1 (pT' m hm).2
        (sd.sig m hm) ?_ (sd'.sig m hm) ?_ (qcs1 m hm) (qcs2 m hm) (adm m hm)
      · rw [es1]; exact Real.sq_sqrt (ps1 m hm)
      · rw [es2]; exact Real.sq_sqrt (ps2 m hm))
  have split : ∀ {p N : ℝ → ℝ}, Tame p ((10:ℝ) ^ lo) ((10:ℝ) ^ hi) → Tame N ((10:ℝ) ^ lo) ((10:ℝ) ^ hi) →
      (∫ m in (10:ℝ) ^ lo..(10:ℝ) ^ hi, D m * (p m + N m)) = (∫ m in (10:ℝ) ^ lo..(10:ℝ) ^ hi, D m * p m) + ∫ m in (10:ℝ) ^ lo..(10:ℝ) ^ hi, D m * N m := by
    intro p N hp hN
    rw [← intervalIntegral.integral_add ((hD.mul hp).intervalIntegrable ⟨le_rfl, h01⟩ ⟨h01, le_rfl⟩) ((hD.mul hN).intervalIntegrable ⟨le_rfl, h01⟩ ⟨h01, le_rfl⟩)]
    exact intervalIntegral.integral_congr fun m _ => by ring
  rw [split p1C n1C, split p2C n2C] at key
  generalize (∫ m in (10:ℝ) ^ lo..(10:ℝ) ^ hi, D m * (T j m * T' j m * Cross.ssCross c h.hod g.hod m + T j m * Cross.scCross c h.hod g.hod m + T' j m * Cross.csCross c h.hod g.hod m)) = X at *
  generalize (∫ m in (10:ℝ) ^ lo..(10:ℝ) ^ hi, D m * (2 * h.hod.csPairs m * T j m + h.hod.satOcc m ^ 2 * T j m ^ 2)) = P1 at *
  generalize (∫ m in (10:ℝ) ^ lo..(10:ℝ) ^ hi, D m * (2 * g.hod.csPairs m * T' j m + g.hod.satOcc m ^ 2 * T' j m ^ 2)) = P2 at *
  generalize (∫ m in (10:ℝ) ^ lo..(10:ℝ) ^ hi, D m * (d.cen m + h.hod.satOcc m)) = w1 at *
  generalize (∫ m in (10:ℝ) ^ lo..(10:ℝ) ^ hi, D m * (d'.cen m + g.hod.satOcc m)) = w2 at *
  have lhs := lxa.pow 2
  have rhs := ((lt1.add ((tendsto_const_nhds (x := (1:ℝ))).div lden1 hnb.ne')).mul (lt2.add ((tendsto_const_nhds (x := (1:ℝ))).div lden2 gnb.ne'))).add_const ε
  refine (lhs.eventually_lt rhs ?_).mono fun n hn => hn.le
  have e : (P1 / w1 ^ 2 + 1 / w1) * (P2 / w2 ^ 2 + 1 / w2) = (P1 + w1) * (P2 + w2) / (w1 * w2) ^ 2 := by field_simp
  rw [ha, e, div_pow]
  have : X ^ 2 / (w1 * w2) ^ 2 ≤ (P1 + w1) * (P2 + w2) / (w1 * w2) ^ 2 := by gcongr
  linarith

/-! ## the classes of the package -/

/-- the default HOD, with any parameters whose `M_min` is a power of ten below the largest mass. -/
theorem zehavi_stepped (p : ZehaviP) {lo hi : ℝ} (h1 : 0 < p.M_min) (h2 : p.M_min < hi) (h3 : p.M_min ≤ (10:ℝ) ^ lo) :
    Stepped { inherent := false, sharpCut := true, cen := zehaviCen p.M_min, sat := zehaviSat p.M_1 p.alpha, mmin := p.M_min } lo hi := by
  have h0 : (0:ℝ) < (10:ℝ) ^ lo := by positivity
  have hc : ∀ m, 0 ≤ zehaviCen p.M_min m ∧ zehaviCen p.M_min m ≤ 1 := fun m => by unfold zehaviCen; split_ifs <;> norm_num
  exact { tpc := fun _ => rfl
          cut := fun _ => h2
          one := fun _ m hm => if_neg (not_lt.mpr hm)
          zero := fun _ m hm => ⟨if_pos hm, fun hf => absurd hf (by simp)⟩
          mmin := ⟨h1, h3⟩
          cenT := zehaviCen_tame _ _ _
          satT := power_tame h0 _
          sigT := by
            refine tame_sqrt ?_
            refine (zehaviCen_tame p.M_min ((10:ℝ) ^ lo) ((10:ℝ) ^ hi)).mul (((tame_const 1 _ _).add ((tame_const (-1) _ _).mul (zehaviCen_tame p.M_min _ _))).congr fun m _ => ?_)
            ring
          cen := fun m _ => (hc m).1
          sat := fun m hm => Real.rpow_nonneg (div_nonneg (h0.le.trans hm.1) (by positivity)) _
          sig := fun m _ => (Real.sq_sqrt (mul_nonneg (hc m).1 (by linarith [(hc m).2]))).le }

/-- the number of default tracers is positive where the mass function is. -/
theorem zehavi_positive (p : ZehaviP) (central : Bool) {lo hi : ℝ} (hlh : lo < hi) (h1 : 0 < p.M_min) (h2 : p.M_min < hi) (h3 : p.M_min ≤ (10:ℝ) ^ lo)
    {D : ℝ → ℝ} (hD : Tame D ((10:ℝ) ^ lo) ((10:ℝ) ^ hi)) (pD : ∀ m ∈ Set.Icc ((10:ℝ) ^ lo) ((10:ℝ) ^ hi), 0 < D m) :
    0 < ∫ m in (10:ℝ) ^ lo..(10:ℝ) ^ hi, D m * ((zehavi05 p central).cenOcc m + (zehavi05 p central).satOcc m) := by
  have sd := zehavi_stepped p h1 h2 h3
  obtain ⟨s1, ps1, cs1, qcs1, C1, _, move1⟩ := sd.facts hlh central
  have e := move1 D D hD hD
  have e2 : (∫ m in (10:ℝ) ^ lo..(10:ℝ) ^ hi, D m * ((zehavi05 p central).cenOcc m + (zehavi05 p central).satOcc m)) =
      ∫ m in (10:ℝ) ^ lo..(10:ℝ) ^ hi, (D m * zehaviCen p.M_min m + D m * (zehavi05 p central).satOcc m) :=
    intervalIntegral.integral_congr fun m _ => by
      change D m * (zehaviCen p.M_min m + (zehavi05 p central).satOcc m) = _
      ring
  rw [e2]
  refine lt_of_lt_of_eq ?_ e
  obtain ⟨l1, l2⟩ := tracerLow_between (hod := zehavi05 p central) hlh fun _ => h2
  refine intervalIntegral.intervalIntegral_pos_of_pos_on (((hD.mul C1).add (hD.mul s1)).intervalIntegrable ⟨l1, l2.le⟩ ⟨(pow_lt hlh).le, le_rfl⟩) ?_ l2
  intro m hm
  have hm' : m ∈ Set.Icc ((10:ℝ) ^ lo) ((10:ℝ) ^ hi) := ⟨l1.trans hm.1.le, hm.2.le⟩
  have hm0 : 0 < m := lt_of_lt_of_le (by positivity) hm'.1
  have a1 := pD m hm'
  have a2 := ps1 m hm'
  rw [← mul_add]
  refine mul_pos a1 ?_
  cases central with
  | true => exact add_pos_of_pos_of_nonneg (by change (0:ℝ) < 1; norm_num) a2
  | false =>
    have h5 : 0 < (poisson { inherent := false, sharpCut := true, cen := zehaviCen p.M_min, sat := zehaviSat p.M_1 p.alpha, mmin := p.M_min } false).satOcc m := by
      simp only [poisson, satelliteOccupation, Bool.false_and, Bool.false_eq_true, if_false]
      exact Real.rpow_pos_of_pos (div_pos hm0 (by positivity)) _
    exact add_pos_of_nonneg_of_pos ((sd.cen m hm').trans_eq rfl) h5

/-- C64 for the default HOD, in words of its parameters, on any mass grid whose smallest mass exceeds the number `M_min` (always so in practice:
`M_min` is a power of ten, about 12) and with the turnover switched off. -/
theorem C64_default_partial (E : Env) (hs : SplLin E.isp) (hc : SplQuad E.isp) (h : HM) (ho : h.Ok) (p : ZehaviP) (central : Bool)
    (hh : h.hod = zehavi05 p central) {lo hi : ℝ} (hlh : lo < hi) (h1 : 0 < p.M_min) (h2 : p.M_min < hi) (h3 : p.M_min ≤ (10:ℝ) ^ lo) (ht : h.turnover = false)
    (D B : ℝ → ℝ) (U T Λ : ℕ → ℝ → ℝ) (hD : Tame D ((10:ℝ) ^ lo) ((10:ℝ) ^ hi)) (hB : Tame B ((10:ℝ) ^ lo) ((10:ℝ) ^ hi))
    (hU : ∀ j, Tame (U j) ((10:ℝ) ^ lo) ((10:ℝ) ^ hi)) (hT : ∀ j, Tame (T j) ((10:ℝ) ^ lo) ((10:ℝ) ^ hi))
    (pD : ∀ m ∈ Set.Icc ((10:ℝ) ^ lo) ((10:ℝ) ^ hi), 0 < D m) (hρ : 0 < h.meanDensity0)
    (j : ℕ) (hj : j < h.nk) (pT : ∀ m ∈ Set.Icc ((10:ℝ) ^ lo) ((10:ℝ) ^ hi), 0 ≤ T j m) :
    ∃ tm mm tt : ℝ → ℝ → ℝ, (∀ d > 0, (mesh h lo hi D B U T Λ d).power1hCross E = some (tm d)) ∧
      (∀ d > 0, (mesh h lo hi D B U T Λ d).power1hMatter E = some (mm d)) ∧ (∀ d > 0, (mesh h lo hi D B U T Λ d).power1hTracer E = some (tt d)) ∧
      ∀ ε > 0, ∀ᶠ d in 𝓝[>] (0:ℝ), tm d (h.k j) ^ 2 ≤
        mm d (h.k j) * (tt d (h.k j) + 1 / (mesh h lo hi D B U T Λ d).meanTracerDen E) + ε :=
  C64_mesh_one_halo_bound_partial E hs hc h ho hlh _ central hh (zehavi_stepped p h1 h2 h3) ht D B U T Λ hD hB hU hT (fun m hm => (pD m hm).le) hρ
    (by rw [hh]; exact zehavi_positive p central hlh h1 h2 h3 hD pD) j hj pT

/-- the default occupation in the demo model, turnover off. -/
noncomputable def stepHM (t : Bool) : HM := { demoHM with hod := zehavi05 {} true, turnover := t, forceUnity := false }

theorem stepHM_ok (t : Bool) : (stepHM t).Ok := { m := demo_ok.m, k := demo_ok.k, r := demo_ok.r, nm0 := demo_ok.nm0, nk0 := demo_ok.nk0, nr0 := demo_ok.nr0 }

/-- the package's spline. -/
noncomputable def stepE : Env := { isp := cubicSpl, us := fun _ _ _ _ => 0, hankel := fun _ _ => 0 }

theorem inv_tame {lo hi : ℝ} : Tame (fun m : ℝ => m⁻¹) ((10:ℝ) ^ lo) ((10:ℝ) ^ hi) :=
  ContinuousOn.tame (continuousOn_inv₀.mono fun m hm => by
    have h1 : (0:ℝ) < 10 ^ lo := by positivity
    exact (h1.trans_le hm.1).ne')

theorem inv_pos10 {lo hi m : ℝ} (hm : m ∈ Set.Icc ((10:ℝ) ^ lo) ((10:ℝ) ^ hi)) : 0 < m⁻¹ := by
  have h1 : (0:ℝ) < 10 ^ lo := by positivity
  exact inv_pos.mpr (h1.trans_le hm.1)

theorem mmin_small : (11.6222:ℝ) ≤ (10:ℝ) ^ (11:ℝ) := by
  rw [show (11:ℝ) = ((11:ℕ):ℝ) by norm_num, Real.rpow_natCast]; norm_num

/-- the default HOD, a power-law mass function. -/
example : ∃ tm mm tt : ℝ → ℝ → ℝ, ∀ ε > 0, ∀ᶠ d in 𝓝[>] (0:ℝ), tm d ((stepHM false).k 0) ^ 2 ≤ mm d ((stepHM false).k 0) * (tt d ((stepHM false).k 0) +
    1 / (mesh (stepHM false) 11 15 (fun m => m⁻¹) (fun m => m) (fun _ _ => 1 / 2) (fun _ _ => 1 / 2) (fun _ _ => 1) d).meanTracerDen stepE) + ε := by
  obtain ⟨tm, mm, tt, -, -, -, k⟩ := C64_default_partial stepE cubicSpl_lin cubicSpl_quad (stepHM false) (stepHM_ok _) {} true rfl (lo := 11) (hi := 15) (by norm_num)
    (by norm_num) (by norm_num) mmin_small rfl (fun m => m⁻¹) (fun m => m) (fun _ _ => 1 / 2) (fun _ _ => 1 / 2) (fun _ _ => 1) inv_tame (tame_id _ _)
    (fun _ => tame_const _ _ _) (fun _ => tame_const _ _ _) (fun m hm => inv_pos10 hm) (by change (0:ℝ) < 1; norm_num) 0 (by change 0 < 2; norm_num) (fun _ _ => by norm_num)
  exact ⟨tm, mm, tt, k⟩

/-- two tracers with the default HOD, one with satellites in every halo, whose satellites are fully correlated. -/
example : ∃ x t1 t2 : ℝ → ℝ → ℝ, ∀ ε > 0, ∀ᶠ d in 𝓝[>] (0:ℝ), x d ((stepHM false).k 0) ^ 2 ≤
    (t1 d ((stepHM false).k 0) + 1 / (mesh (stepHM false) 11 15 (fun m => m⁻¹) (fun m => m) (fun _ _ => 1 / 2) (fun _ _ => 1 / 2) (fun _ _ => 1) d).meanTracerDen stepE) *
    (t2 d ((stepHM false).k 0) + 1 / (mesh { stepHM false with hod := zehavi05 {} false } 11 15 (fun m => m⁻¹) (fun m => m) (fun _ _ => 1 / 2) (fun _ _ => 1 / 3) (fun _ _ => 1) d).meanTracerDen stepE) + ε := by
  have sd := zehavi_stepped {} (lo := 11) (hi := 15) (by norm_num) (by norm_num) mmin_small
  obtain ⟨x, t1, t2, -, -, -, k⟩ := C64_mesh_two_tracers_one_halo_partial stepE cubicSpl_lin cubicSpl_quad (stepHM false) { stepHM false with hod := zehavi05 {} false } (stepHM_ok _)
    { m := demo_ok.m, k := demo_ok.k, r := demo_ok.r, nm0 := demo_ok.nm0, nk0 := demo_ok.nk0, nr0 := demo_ok.nr0 } (lo := 11) (hi := 15) (by norm_num) rfl rfl _ _ true false rfl rfl sd sd rfl rfl
    (Cross.constantCorr 1 0 0) (fun _ _ => true) (fun _ _ => rfl) (fun m _ => Cross.admissible_ss 1 (by simp) m) (fun _ => rfl)
    (tame_const _ _ _) (tame_const _ _ _) (tame_const _ _ _) (fun m => m⁻¹) (fun m => m) (fun m => m) (fun _ _ => 1 / 2) (fun _ _ => 1 / 2) (fun _ _ => 1 / 2) (fun _ _ => 1 / 3)
    (fun _ _ => 1) (fun _ _ => 1) inv_tame (tame_id _ _) (tame_id _ _) (fun _ => tame_const _ _ _) (fun _ => tame_const _ _ _) (fun _ => tame_const _ _ _) (fun _ => tame_const _ _ _)
    (fun m hm => (inv_pos10 hm).le)
    (zehavi_positive {} true (lo := 11) (hi := 15) (by norm_num) (by norm_num) (by norm_num) mmin_small inv_tame fun m hm => inv_pos10 hm)
    (zehavi_positive {} false (lo := 11) (hi := 15) (by norm_num) (by norm_num) (by norm_num) mmin_small inv_tame fun m hm => inv_pos10 hm)
    0 (by change 0 < 2; norm_num) (fun _ _ => by norm_num) (fun _ _ => by norm_num)
  exact ⟨x, t1, t2, k⟩

/-- the WDM theorem on the same model. -/
example (md : ℝ) : ∃ bs, Tendsto (fun d => Wdm.biasSmooth stepE (mesh (stepHM false) 11 15 (fun m => m⁻¹) (fun m => m) (fun _ _ => 1 / 2) (fun _ _ => 1 / 2)
    (fun _ _ => 1) d) md) (𝓝[>] 0) (𝓝 bs) :=
  ⟨_, (C56_mesh_wdm stepE cubicSpl_lin cubicSpl_quad (stepHM false) rfl (by change (1:ℝ) ≠ 0; norm_num) (lo := 11) (hi := 15) (by norm_num) (fun m => m⁻¹)
    (fun m => m) (fun _ => 1) (fun _ _ => 1 / 2) (fun _ _ => 1 / 2) (fun _ _ => 1) inv_tame (tame_id _ _) (tame_const _ _ _) md 1 _ _ _ rfl rfl rfl).1⟩

end Halomod.HaloModel
