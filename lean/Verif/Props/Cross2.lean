import Verif.Props.Bound
import Verif.Props.Cross
import Verif.Props.Converge3

/-! # C39, C64: the correlation functions and the power spectra of two tracer populations -/
namespace Halomod.Cross

open Filter Topology MeasureTheory Halomod.Tools Halomod.HOD Halomod.HaloModel

/-- C39: at every tabulated separation the correlation of two tracers is the transform of their one-halo power (default step) plus the
transform of their two-halo power (step 1e-4); finding: the total adds one to that sum.  Beyond the table both parts are zero. -/
theorem C39_two_tracers {E : Env} {h h2 : HM} (hs : SplLin E.isp) (ho : h.Ok) (c : CrossDef) (keep : ℕ → Bool) (hm : h.nm = h2.nm)
    (hk : h.nk = h2.nk) : ∃ a b f p q, corr1h E c keep h h2 = some a ∧ corr2h E h h2 = some b ∧ corr E c keep h h2 = some f ∧
      power1h E c keep h h2 = some p ∧ power2h E h h2 = some q ∧ (∀ r, f r = a r + b r + 1) ∧
      (∀ i < h.nr, a (h.rt i) = E.hankel p (h.rt i) ∧ b (h.rt i) = E.hankelFine q (h.rt i)) ∧
      ∀ j < h.nk, p (h.k j) = power1hTab E c keep h h2 j ∧ q (h.k j) = power2hTab E h h2 j := by
  obtain ⟨p1, hp1, vp1, _⟩ := mkES_ok E hs.toSplOk { n := h.nk, x := h.k, y := power1hTab E c keep h h2, lower := .powerLaw, upper := .powerLaw } rfl rfl ho.k (by simp) (by simp)
  obtain ⟨p2, hp2, vp2, _⟩ := mkES_ok E hs.toSplOk { n := h.nk, x := h.k, y := power2hTab E h h2, lower := .callable h.linPow, matchLower := true, upper := .powerLaw } rfl rfl ho.k (by simp) (by simp)
  obtain ⟨a, ha, va⟩ := corrES_ok (E := E) (h := h) hs ho fun i => E.hankel p1 (h.rt i)
  obtain ⟨b, hb, vb⟩ := corrES_ok (E := E) (h := h) hs ho fun i => E.hankelFine p2 (h.rt i)
  have e1 : power1h E c keep h h2 = some p1 := by unfold power1h; rw [if_pos ⟨hm, hk⟩, hp1]
  have e2 : power2h E h h2 = some p2 := by unfold power2h; rw [if_pos hk, hp2]
  have ha' : corr1h E c keep h h2 = some a := by unfold corr1h; rw [e1]; exact ha
  have hb' : corr2h E h h2 = some b := by unfold corr2h; rw [e2]; exact hb
  exact ⟨a, b, fun r => a r + b r + 1, p1, p2, ha', hb', by unfold corr; rw [ha', hb']; rfl, e1, e2, fun r => rfl,
    fun i hi => ⟨va i hi, vb i hi⟩, fun j hj => ⟨vp1 j hj, vp2 j hj⟩⟩

/-- C64: the two-halo terms of two tracers of the same haloes are perfectly correlated: at every tabulated wavenumber, on every mass grid, the
square of the cross term is the product of the two auto terms the halo models themselves report (no exclusion, no filtering, constant
log-mass step). -/
theorem C64_two_tracers_two_halo {E : Env} (hs : SplLin E.isp) (h1 h2 : HM) (ho1 : h1.Ok) (ho2 : h2.Ok) (hsh : Shared h1 h2)
    (hf1 : h1.filtered = false) (hf2 : h2.filtered = false) (dx : ℝ) (hdx : dx ≠ 0) (hn : 2 ≤ h1.nm)
    (hx : ∀ i, i + 1 < h1.nm → Real.log (h1.m (i + 1)) - Real.log (h1.m i) = dx) :
    ∃ p p1 p2, power2h E h1 h2 = some p ∧ h1.power2hTracer E = some p1 ∧ h2.power2hTracer E = some p2 ∧
      ∀ j < h1.nk, p (h1.k j) ^ 2 = p1 (h1.k j) * p2 (h1.k j) := by
  have get : ∀ a b : HM, a.Ok → a.nk = b.nk → ∃ p, power2h E a b = some p ∧ ∀ j < a.nk, p (a.k j) = power2hTab E a b j := by
    intro a b hoa hab
    obtain ⟨p2, hp2, vp2, _⟩ := mkES_ok E hs.toSplOk { n := a.nk, x := a.k, y := power2hTab E a b, lower := .callable a.linPow, matchLower := true, upper := .powerLaw } rfl rfl hoa.k (by simp) (by simp)
    exact ⟨p2, by unfold power2h; rw [if_pos hab, hp2], vp2⟩
  obtain ⟨p, hp, vp⟩ := get h1 h2 ho1 hsh.nk
  obtain ⟨p1, hp1, vp1⟩ := get h1 h1 ho1 rfl
  obtain ⟨p2, hp2, vp2⟩ := get h2 h2 ho2 rfl
  refine ⟨p, p1, p2, hp, ?_, ?_, fun j hj => ?_⟩
  · rw [← C41_self_two_halo hs h1 ho1 hf1 dx hdx hn hx]; exact hp1
  · rw [← C41_self_two_halo hs h2 ho2 hf2 dx hdx (hsh.nm ▸ hn) (by rw [← hsh.nm, ← hsh.m]; exact hx)]; exact hp2
  · rw [vp j hj, vp1 j hj, show h1.k j = h2.k j from congrFun hsh.k j, vp2 j (hsh.nk ▸ hj)]
    unfold power2hTab
    rw [show h1.k j = h2.k j from congrFun hsh.k j, hsh.phc, div_pow, div_mul_div_comm]
    congr 1 <;> ring

/-! ## one-halo terms -/

/-- if pointwise `f² ≤ p q` then the same holds for weighted integrals. -/
theorem cauchy_schwarz_pointwise {a b : ℝ} (hab : a ≤ b) {w f p q : ℝ → ℝ} (hw : ContinuousOn w (Set.Icc a b)) (hf : ContinuousOn f (Set.Icc a b))
    (hp : ContinuousOn p (Set.Icc a b)) (hq : ContinuousOn q (Set.Icc a b)) (pw : ∀ t ∈ Set.Icc a b, 0 ≤ w t)
    (pp : ∀ t ∈ Set.Icc a b, 0 ≤ p t) (pq : ∀ t ∈ Set.Icc a b, 0 ≤ q t) (key : ∀ t ∈ Set.Icc a b, f t ^ 2 ≤ p t * q t) :
    (∫ t in a..b, w t * f t) ^ 2 ≤ (∫ t in a..b, w t * p t) * ∫ t in a..b, w t * q t := by
  have ii : ∀ {u : ℝ → ℝ}, ContinuousOn u (Set.Icc a b) → IntervalIntegrable u volume a b := fun hu =>
    ContinuousOn.intervalIntegrable (by rwa [Set.uIcc_of_le hab])
  have quad : ∀ x : ℝ, 0 ≤ (∫ t in a..b, w t * p t) * (x * x) + (2 * ∫ t in a..b, w t * f t) * x + ∫ t in a..b, w t * q t := by
    intro x
    have e : (∫ t in a..b, w t * p t) * (x * x) + (2 * ∫ t in a..b, w t * f t) * x + ∫ t in a..b, w t * q t
        = ∫ t in a..b, w t * (p t * x ^ 2 + 2 * f t * x + q t) := by
      rw [show (fun t => w t * (p t * x ^ 2 + 2 * f t * x + q t)) = fun t => ((x * x) * (w t * p t) + (2 * x) * (w t * f t)) + w t * q t from
          funext fun t => by ring]
      rw [intervalIntegral.integral_add, intervalIntegral.integral_add, intervalIntegral.integral_const_mul, intervalIntegral.integral_const_mul]
      · ring
      · exact ii (continuousOn_const.mul (hw.mul hp))
      · exact ii (continuousOn_const.mul (hw.mul hf))
      · exact ii ((continuousOn_const.mul (hw.mul hp)).add (continuousOn_const.mul (hw.mul hf)))
      · exact ii (hw.mul hq)
    rw [e]
    refine intervalIntegral.integral_nonneg hab fun t ht => mul_nonneg (pw t ht) ?_
    have k := key t ht
    have p0 := pp t ht
    have q0 := pq t ht
    rcases p0.eq_or_lt with hz | hpos
    · rw [← hz, zero_mul] at k
      have hf0 : f t = 0 := by nlinarith
      rw [← hz, hf0]
      linarith
    · have h2 : 0 ≤ p t * (p t * x ^ 2 + 2 * f t * x + q t) := by nlinarith [sq_nonneg (p t * x + f t)]
      exact nonneg_of_mul_nonneg_right h2 hpos
  have := discrim_le_zero quad
  unfold discrim at this
  nlinarith

/-- correlation coefficients that two random pairs (centrals, satellites) can have with each other, with no central-central term:
the matrix `(0, Rcs; Rsc, Rss)` is a contraction. -/
def Admissible (c : CrossDef) (m : ℝ) : Prop :=
  ∀ x y x' y' : ℝ, (y * y' * c.Rss m + x * y' * c.Rcs m + y * x' * c.Rsc m) ^ 2 ≤ (x ^ 2 + y ^ 2) * (x' ^ 2 + y' ^ 2)

theorem sum_bound {A A' w W W' : ℝ} (A0 : 0 ≤ A) (A0' : 0 ≤ A') (w0 : 0 ≤ w) (W0 : 0 ≤ W) (W0' : 0 ≤ W') (hw : w ^ 2 ≤ W * W') :
    (A * A' + w) ^ 2 ≤ (A ^ 2 + W) * (A' ^ 2 + W') := by
  have h3 : 2 * (A * A' * w) ≤ A ^ 2 * W' + W * A' ^ 2 := by
    have hp : (A * A' * w) ^ 2 ≤ (A ^ 2 * W') * (W * A' ^ 2) := by
      have : (A * A' * w) ^ 2 = A ^ 2 * A' ^ 2 * w ^ 2 := by ring
      rw [this]
      calc A ^ 2 * A' ^ 2 * w ^ 2 ≤ A ^ 2 * A' ^ 2 * (W * W') := by gcongr
        _ = _ := by ring
    have a1 : 0 ≤ A ^ 2 * W' := by positivity
    have a2 : 0 ≤ W * A' ^ 2 := by positivity
    have a3 : 0 ≤ A * A' * w := by positivity
    generalize A * A' * w = z at *
    generalize A ^ 2 * W' = u at *
    generalize W * A' ^ 2 = v at *
    by_contra hlt
    push Not at hlt
    nlinarith [sq_nonneg (u - v)]
  calc (A * A' + w) ^ 2 = A ^ 2 * A' ^ 2 + 2 * (A * A' * w) + w ^ 2 := by ring
    _ ≤ A ^ 2 * A' ^ 2 + (A ^ 2 * W' + W * A' ^ 2) + W * W' := by linarith
    _ = _ := by ring

theorem auto_bound {C S σ T cs : ℝ} (hS : 0 ≤ S) (hT : 0 ≤ T) (hT1 : T ≤ 1) (hσ : σ ^ 2 ≤ C * (1 - C)) (hcs : C * S ≤ cs) :
    (C + T * S) ^ 2 + (σ ^ 2 + T ^ 2 * S) ≤ 2 * cs * T + S ^ 2 * T ^ 2 + (C + S) := by
  have h1 := mul_le_mul_of_nonneg_right hcs hT
  have h2 : T ^ 2 * S ≤ 1 * S := mul_le_mul_of_nonneg_right (by nlinarith) hS
  have e : (C + T * S) ^ 2 = C ^ 2 + 2 * (C * S * T) + S ^ 2 * T ^ 2 := by ring
  have e2 : C * (1 - C) = C - C ^ 2 := by ring
  rw [e]
  rw [e2] at hσ
  linarith

theorem pair_bound {C S σc σs T C' S' σc' σs' T' cs cs' rss rcs rsc : ℝ} (hC : 0 ≤ C) (hS : 0 ≤ S)
    (hC' : 0 ≤ C') (hS' : 0 ≤ S') (hT : 0 ≤ T) (hT1 : T ≤ 1) (hT' : 0 ≤ T') (hT1' : T' ≤ 1)
    (hσc : σc ^ 2 ≤ C * (1 - C)) (hσs : σs ^ 2 = S) (hσc' : σc' ^ 2 ≤ C' * (1 - C')) (hσs' : σs' ^ 2 = S')
    (hcs : C * S ≤ cs) (hcs' : C' * S' ≤ cs')
    (hR : ∀ x y x' y' : ℝ, (y * y' * rss + x * y' * rcs + y * x' * rsc) ^ 2 ≤ (x ^ 2 + y ^ 2) * (x' ^ 2 + y' ^ 2)) :
    (T * T' * (S * S' + σs * σs' * rss) + T * (C' * S + σc' * σs * rsc) + T' * (C * S' + σc * σs' * rcs)) ^ 2 ≤
      (2 * cs * T + S ^ 2 * T ^ 2 + (C + S)) * (2 * cs' * T' + S' ^ 2 * T' ^ 2 + (C' + S')) := by
  obtain ⟨A, hA⟩ : ∃ A, A = C + T * S := ⟨_, rfl⟩
  obtain ⟨A', hA'⟩ : ∃ A', A' = C' + T' * S' := ⟨_, rfl⟩
  obtain ⟨w, hw⟩ : ∃ w, w = T * σs * (T' * σs') * rss + σc * (T' * σs') * rcs + T * σs * σc' * rsc := ⟨_, rfl⟩
  have r := hR σc (T * σs) σc' (T' * σs')
  rw [← hw] at r
  obtain ⟨W, hW⟩ : ∃ W, W = σc ^ 2 + (T * σs) ^ 2 := ⟨_, rfl⟩
  obtain ⟨W', hW'⟩ : ∃ W', W' = σc' ^ 2 + (T' * σs') ^ 2 := ⟨_, rfl⟩
  rw [← hW, ← hW'] at r
  have W0 : 0 ≤ W := by rw [hW]; positivity
  have W0' : 0 ≤ W' := by rw [hW']; positivity
  have A0 : 0 ≤ A := by rw [hA]; positivity
  have A0' : 0 ≤ A' := by rw [hA']; positivity
  have e : T * T' * (S * S' + σs * σs' * rss) + T * (C' * S + σc' * σs * rsc) + T' * (C * S' + σc * σs' * rcs) = (A * A' - C * C') + w := by
    rw [hA, hA', hw]; ring
  have u0 : 0 ≤ A * A' - C * C' := by
    have h1 : C ≤ A := by rw [hA]; have := mul_nonneg hT hS; linarith
    have h2 : C' ≤ A' := by rw [hA']; have := mul_nonneg hT' hS'; linarith
    have := mul_le_mul h1 h2 hC' A0
    linarith
  have u1 : A * A' - C * C' ≤ A * A' := by have := mul_nonneg hC hC'; linarith
  have sq : ((A * A' - C * C') + w) ^ 2 ≤ (A ^ 2 + W) * (A' ^ 2 + W') := by
    have h1 : |A * A' - C * C' + w| ≤ A * A' + |w| := by
      refine (abs_add_le _ _).trans (add_le_add_left ?_ _)
      rw [abs_of_nonneg u0]; exact u1
    have h2 : (A * A' + |w|) ^ 2 ≤ (A ^ 2 + W) * (A' ^ 2 + W') := by
      exact sum_bound A0 A0' (abs_nonneg w) W0 W0' (by rw [sq_abs]; exact r)
    calc _ = |A * A' - C * C' + w| ^ 2 := (sq_abs _).symm
      _ ≤ (A * A' + |w|) ^ 2 := by gcongr
      _ ≤ _ := h2
  rw [e]
  refine sq.trans (mul_le_mul ?_ ?_ (by positivity) ?_)
  · rw [hA, hW, mul_pow, hσs]; exact auto_bound hS hT hT1 hσc hcs
  · rw [hA', hW', mul_pow, hσs']; exact auto_bound hS' hT' hT1' hσc' hcs'
  · have : 0 ≤ cs := (mul_nonneg hC hS).trans hcs
    positivity

/-- a tracer population whose occupation is Poisson with at most one central per halo, continuous over the tabulated masses; where it has a
sharp cut, all tabulated haloes are above it and have their central. -/
structure Smooth (d : PoissonDef) (M0 M1 : ℝ) : Prop where
  tpc : ∀ m, d.tpc m = 1
  cut : d.sharpCut = true → (10:ℝ) ^ d.mmin ≤ M0
  one : d.sharpCut = true → ∀ m ∈ Set.Icc M0 M1, d.cen m = 1
  mmin : 0 < d.mmin ∧ d.mmin ≤ M0
  cenC : ContinuousOn d.cen (Set.Icc M0 M1)
  satC : ContinuousOn d.sat (Set.Icc M0 M1)
  sigC : ContinuousOn d.sigC (Set.Icc M0 M1)
  cen : ∀ m ∈ Set.Icc M0 M1, 0 ≤ d.cen m
  sat : ∀ m ∈ Set.Icc M0 M1, 0 ≤ d.sat m
  sig : ∀ m ∈ Set.Icc M0 M1, d.sigC m ^ 2 ≤ d.cen m * (1 - d.cen m)

theorem Smooth.facts {d : PoissonDef} {M0 M1 : ℝ} (s : Smooth d M0 M1) (central : Bool) :
    tracerLow (poisson d central) M0 = M0 ∧ ContinuousOn (poisson d central).satOcc (Set.Icc M0 M1) ∧
    (∀ m ∈ Set.Icc M0 M1, 0 ≤ (poisson d central).satOcc m) ∧ ContinuousOn (poisson d central).csPairs (Set.Icc M0 M1) ∧
    (∀ m ∈ Set.Icc M0 M1, d.cen m * (poisson d central).satOcc m ≤ (poisson d central).csPairs m) ∧
    (∀ m ∈ Set.Icc M0 M1, tracerNumber (poisson d central) m = d.cen m + (poisson d central).satOcc m) ∧
    ContinuousOn (tracerNumber (poisson d central)) (Set.Icc M0 M1) := by
  have esat : ∀ m, (poisson d central).satOcc m = if central && !d.inherent then d.cen m * d.sat m else d.sat m := fun m => by
    change HOD.satelliteOccupation _ _ (fun m => d.cen m / d.tpc m) _ m = _
    unfold HOD.satelliteOccupation
    simp only [s.tpc, div_one]
  have ecs : ∀ m, (poisson d central).csPairs m = if central then (poisson d central).satOcc m else d.cen m * (poisson d central).satOcc m := fun m => by
    change (if central then _ * d.tpc m else _) = _
    rw [s.tpc, mul_one]; rfl
  have c1 : ∀ m ∈ Set.Icc M0 M1, d.cen m ≤ 1 := fun m hm => by
    by_contra hlt
    push Not at hlt
    have := s.sig m hm
    have := sq_nonneg (d.sigC m)
    nlinarith
  have hS : ContinuousOn (poisson d central).satOcc (Set.Icc M0 M1) := by
    rw [show (poisson d central).satOcc = fun m => if central && !d.inherent then d.cen m * d.sat m else d.sat m from funext esat]
    split_ifs
    · exact s.cenC.mul s.satC
    · exact s.satC
  have pS : ∀ m ∈ Set.Icc M0 M1, 0 ≤ (poisson d central).satOcc m := fun m hm => by
    rw [esat]
    split_ifs
    · exact mul_nonneg (s.cen m hm) (s.sat m hm)
    · exact s.sat m hm
  have num : ∀ m ∈ Set.Icc M0 M1, tracerNumber (poisson d central) m = d.cen m + (poisson d central).satOcc m := by
    intro m hm
    unfold tracerNumber
    change (if (d.sharpCut && (central || d.inherent)) = true then (1:ℝ) else d.cen m) + _ = _
    split_ifs with hb
    · rw [s.one (by rw [Bool.and_eq_true] at hb; exact hb.1) m hm]
    · rfl
  refine ⟨?_, hS, pS, ?_, ?_, num, (s.cenC.add hS).congr num⟩
  · unfold tracerLow
    split_ifs with hb
    · exact max_eq_left (s.cut (by rw [Bool.and_eq_true] at hb; exact hb.1))
    · rfl
  · rw [show (poisson d central).csPairs = fun m => if central then (poisson d central).satOcc m else d.cen m * (poisson d central).satOcc m from funext ecs]
    split_ifs
    · exact hS
    · exact s.cenC.mul hS
  · intro m hm
    rw [ecs]
    split_ifs
    · exact mul_le_of_le_one_left (pS m hm) (c1 m hm)
    · exact le_rfl

/-- C64: with the one-halo turnover switched off, the one-halo cross power of two tracer populations of the same haloes never exceeds, in
absolute value, the geometric mean of the two one-halo auto powers plus their shot noises (one over the mean density of each), at every
tabulated wavenumber, up to an error that vanishes on fine mass grids.  For every pair of Poisson occupations and every set of
correlation coefficients that random numbers of centrals and satellites can have.  Missing: the default, turnover switched on.
Occupations that jump inside the mass range: `C64_mesh_two_tracers_one_halo_partial`. -/
theorem C64_two_tracers_one_halo_partial (E : Env) (hs : SplLin E.isp) (hc : SplConv E.isp) (h g : HM) (ho : h.Ok) (go : g.Ok) (M0 M1 : ℝ)
    (h0 : 0 < M0) (h1 : M0 < M1) (hnk : h.nk = g.nk) (hk : h.k = g.k) (d d' : PoissonDef) (ce ce' : Bool)
    (hh : h.hod = poisson d ce) (hg : g.hod = poisson d' ce') (sd : Smooth d M0 M1) (sd' : Smooth d' M0 M1)
    (ht : h.turnover = false) (gt : g.turnover = false) (c : CrossDef) (keep : ℕ → ℕ → Bool) (kt : ∀ n i, keep n i = true)
    (adm : ∀ m ∈ Set.Icc M0 M1, Admissible c m) (nos : ∀ m, c.selfPairs m = 0)
    (r1 : ContinuousOn c.Rss (Set.Icc M0 M1)) (r2 : ContinuousOn c.Rcs (Set.Icc M0 M1)) (r3 : ContinuousOn c.Rsc (Set.Icc M0 M1))
    (D B B' : ℝ → ℝ) (U U' T T' Λ Λ' : ℕ → ℝ → ℝ) (hD : ContinuousOn D (Set.Icc M0 M1)) (hB : ContinuousOn B (Set.Icc M0 M1))
    (gB : ContinuousOn B' (Set.Icc M0 M1)) (hU : ∀ j, ContinuousOn (U j) (Set.Icc M0 M1)) (gU : ∀ j, ContinuousOn (U' j) (Set.Icc M0 M1))
    (hT : ∀ j, ContinuousOn (T j) (Set.Icc M0 M1)) (gT : ∀ j, ContinuousOn (T' j) (Set.Icc M0 M1)) (pD : ∀ m ∈ Set.Icc M0 M1, 0 ≤ D m)
    (hnb : 0 < ∫ m in M0..M1, D m * tracerNumber h.hod m) (gnb : 0 < ∫ m in M0..M1, D m * tracerNumber g.hod m)
    (j : ℕ) (hj : j < h.nk) (pT : ∀ m ∈ Set.Icc M0 M1, 0 ≤ T j m ∧ T j m ≤ 1) (pT' : ∀ m ∈ Set.Icc M0 M1, 0 ≤ T' j m ∧ T' j m ≤ 1) :
    ∃ x t1 t2 : ℕ → ℝ → ℝ, (∀ n, power1h E c (keep n) (fine h M0 M1 D B U T Λ n) (fine g M0 M1 D B' U' T' Λ' n) = some (x n)) ∧
      (∀ n, (fine h M0 M1 D B U T Λ n).power1hTracer E = some (t1 n)) ∧ (∀ n, (fine g M0 M1 D B' U' T' Λ' n).power1hTracer E = some (t2 n)) ∧
      ∀ ε > 0, ∀ᶠ n in atTop, x n (h.k j) ^ 2 ≤ (t1 n (h.k j) + 1 / (fine h M0 M1 D B U T Λ n).meanTracerDen E) *
        (t2 n (h.k j) + 1 / (fine g M0 M1 D B' U' T' Λ' n).meanTracerDen E) + ε := by
  obtain ⟨l1, s1, ps1, cs1, qcs1, n1, N1⟩ := sd.facts ce
  obtain ⟨l2, s2, ps2, cs2, qcs2, n2, N2⟩ := sd'.facts ce'
  rw [← hh] at l1 s1 ps1 cs1 qcs1 n1 N1
  rw [← hg] at l2 s2 ps2 cs2 qcs2 n2 N2
  have ec1 : h.hod.cenOcc = d.cen := by rw [hh]; rfl
  have ec2 : g.hod.cenOcc = d'.cen := by rw [hg]; rfl
  have eg1 : h.hod.sigmaCen = d.sigC := by rw [hh]; rfl
  have eg2 : g.hod.sigmaCen = d'.sigC := by rw [hg]; rfl
  have es1 : h.hod.sigmaSat = fun m => Real.sqrt (h.hod.satOcc m) := by rw [hh]; rfl
  have es2 : g.hod.sigmaSat = fun m => Real.sqrt (g.hod.satOcc m) := by rw [hg]; rfl
  have ess1 : h.hod.ssPairs = fun m => h.hod.satOcc m ^ 2 := by rw [hh]; rfl
  have ess2 : g.hod.ssPairs = fun m => g.hod.satOcc m ^ 2 := by rw [hg]; rfl
  have emm1 : h.hod.mmin = d.mmin := by rw [hh]; rfl
  have emm2 : g.hod.mmin = d'.mmin := by rw [hg]; rfl
  have hcut : h.hod.sharpCut = true → (10:ℝ) ^ h.hod.mmin ≤ M1 := by rw [hh]; exact fun hb => (sd.cut hb).trans h1.le
  have gcut : g.hod.sharpCut = true → (10:ℝ) ^ g.hod.mmin ≤ M1 := by rw [hg]; exact fun hb => (sd'.cut hb).trans h1.le
  have cq1 : ContinuousOn h.hod.sigmaSat (Set.Icc M0 M1) := by rw [es1]; exact Real.continuous_sqrt.comp_continuousOn s1
  have cq2 : ContinuousOn g.hod.sigmaSat (Set.Icc M0 M1) := by rw [es2]; exact Real.continuous_sqrt.comp_continuousOn s2
  have cg1 : ContinuousOn h.hod.sigmaCen (Set.Icc M0 M1) := by rw [eg1]; exact sd.sigC
  have cg2 : ContinuousOn g.hod.sigmaCen (Set.Icc M0 M1) := by rw [eg2]; exact sd'.sigC
  have cc1 : ContinuousOn h.hod.cenOcc (Set.Icc M0 M1) := by rw [ec1]; exact sd.cenC
  have cc2 : ContinuousOn g.hod.cenOcc (Set.Icc M0 M1) := by rw [ec2]; exact sd'.cenC
  have hss : ContinuousOn (ssCross c h.hod g.hod) (Set.Icc M0 M1) :=
    (((s1.mul s2).add ((cq1.mul cq2).mul r1)).sub (continuousOn_const (c := (0:ℝ)))).congr fun m _ => by
      simp only [ssCross, nos, Pi.mul_apply, Pi.add_apply, Pi.sub_apply]
  have hcs : ContinuousOn (csCross c h.hod g.hod) (Set.Icc M0 M1) := (cc1.mul s2).add ((cg1.mul cq2).mul r2)
  have hsc : ContinuousOn (scCross c h.hod g.hod) (Set.Icc M0 M1) := (cc2.mul s1).add ((cg2.mul cq1).mul r3)
  obtain ⟨x, _, _, hx, _, _, lx⟩ := C56_cross_power E hs hc h g ho M0 M1 h0 h1 hcut gcut hnk D D B B' U U' T T' Λ Λ' c keep kt hD hB hT N1 hD gB gT N2
    hss hcs hsc _ _ rfl rfl (by rw [l1]; exact hnb.ne') (by rw [l2]; exact gnb.ne')
  have a1 : h.oneHaloMmin h.hod.mmin j = h.hod.mmin := fine_turnover_off h ht _ _
  have a2 : g.oneHaloMmin g.hod.mmin j = g.hod.mmin := fine_turnover_off g gt _ _
  have b1 : h.oneHaloMmin M0 j = M0 := fine_turnover_off h ht _ _
  have b2 : g.oneHaloMmin M0 j = M0 := fine_turnover_off g gt _ _
  obtain ⟨-, t1, -, ht1, -, lt1⟩ := C56_one_halo_power E hs hc h ho M0 M1 h0 h1 D B U T Λ hD hU hT N1 cs1 (by rw [ess1]; exact s1.pow 2) hcut
    (by rw [l1]; exact hnb.ne') j hj (by rw [b1]; exact h1.le) (by rw [a1, emm1]; exact ⟨sd.mmin.1, sd.mmin.2.trans h1.le⟩)
  obtain ⟨-, t2, -, ht2, -, lt2⟩ := C56_one_halo_power E hs hc g go M0 M1 h0 h1 D B' U' T' Λ' hD gU gT N2 cs2 (by rw [ess2]; exact s2.pow 2) gcut
    (by rw [l2]; exact gnb.ne') j (hnk ▸ hj) (by rw [b2]; exact h1.le) (by rw [a2, emm2]; exact ⟨sd'.mmin.1, sd'.mmin.2.trans h1.le⟩)
  have lden1 := C56_tracer_mean E hs hc h M0 M1 h0 h1 hcut D B U T Λ hD N1
  have lden2 := C56_tracer_mean E hs hc g M0 M1 h0 h1 gcut D B' U' T' Λ' hD N2
  obtain ⟨a, _, ha, _, lxa, _, _⟩ := lx j hj
  rw [a1, emm1, max_eq_left sd.mmin.2] at lt1
  rw [a2, emm2, max_eq_left sd'.mmin.2, ← hk] at lt2
  rw [l1] at lt1 lden1 ha
  rw [l2] at lt2 lden2 ha
  refine ⟨x, t1, t2, hx, ht1, ht2, fun ε hε => ?_⟩
  have p1C : ContinuousOn (fun m => 2 * h.hod.csPairs m * T j m + h.hod.ssPairs m * T j m ^ 2) (Set.Icc M0 M1) := by
    rw [ess1]; exact (((continuousOn_const (c := (2:ℝ))).mul cs1).mul (hT j)).add ((s1.pow 2).mul ((hT j).pow 2))
  have p2C : ContinuousOn (fun m => 2 * g.hod.csPairs m * T' j m + g.hod.ssPairs m * T' j m ^ 2) (Set.Icc M0 M1) := by
    rw [ess2]; exact (((continuousOn_const (c := (2:ℝ))).mul cs2).mul (gT j)).add ((s2.pow 2).mul ((gT j).pow 2))
  have key := cauchy_schwarz_pointwise h1.le hD
    (((((hT j).mul (gT j)).mul hss).add ((hT j).mul hsc)).add ((gT j).mul hcs)) (p1C.add N1) (p2C.add N2) pD
    (fun m hm => by
      have q := qcs1 m hm; have := ps1 m hm; have c0 := sd.cen m hm; have := (pT m hm).1
      have q0 : 0 ≤ h.hod.csPairs m := (mul_nonneg c0 (ps1 m hm)).trans q
      simp only [Pi.add_apply]
      rw [n1 m hm, ess1]; positivity)
    (fun m hm => by
      have q := qcs2 m hm; have := ps2 m hm; have c0 := sd'.cen m hm; have := (pT' m hm).1
      have q0 : 0 ≤ g.hod.csPairs m := (mul_nonneg c0 (ps2 m hm)).trans q
      simp only [Pi.add_apply]
      rw [n2 m hm, ess2]; positivity)
    (fun m hm => by
      simp only [Pi.add_apply, Pi.mul_apply]
      rw [n1 m hm, n2 m hm, ess1, ess2]
      unfold ssCross csCross scCross
      rw [nos, sub_zero, ec1, ec2, eg1, eg2]
      refine pair_bound (sd.cen m hm) (ps1 m hm) (sd'.cen m hm) (ps2 m hm) (pT m hm).1 (pT m hm).2 (pT' m hm).1 (pT' m hm).2
        (sd.sig m hm) ?_ (sd'.sig m hm) ?_ (qcs1 m hm) (qcs2 m hm) (adm m hm)
      · rw [es1]; exact Real.sq_sqrt (ps1 m hm)
      · rw [es2]; exact Real.sq_sqrt (ps2 m hm))
  have split : ∀ (p N : ℝ → ℝ), ContinuousOn p (Set.Icc M0 M1) → ContinuousOn N (Set.Icc M0 M1) →
      (∫ m in M0..M1, D m * (p + N) m) = (∫ m in M0..M1, D m * p m) + ∫ m in M0..M1, D m * N m := by
    intro p N hp hN
    have e := intervalIntegral.integral_add ((hD.mul hp).intervalIntegrable_of_Icc (μ := volume) h1.le) ((hD.mul hN).intervalIntegrable_of_Icc (μ := volume) h1.le)
    refine Eq.trans (intervalIntegral.integral_congr fun m _ => ?_) e
    simp only [Pi.add_apply, Pi.mul_apply]; ring
  have key' : (∫ m in M0..M1, D m * (T j m * T' j m * ssCross c h.hod g.hod m + T j m * scCross c h.hod g.hod m + T' j m * csCross c h.hod g.hod m)) ^ 2 ≤
      ((∫ m in M0..M1, D m * (2 * h.hod.csPairs m * T j m + h.hod.ssPairs m * T j m ^ 2)) + ∫ m in M0..M1, D m * tracerNumber h.hod m) *
      ((∫ m in M0..M1, D m * (2 * g.hod.csPairs m * T' j m + g.hod.ssPairs m * T' j m ^ 2)) + ∫ m in M0..M1, D m * tracerNumber g.hod m) := by
    rw [← split _ _ p1C N1, ← split _ _ p2C N2]
    exact key
  generalize (∫ m in M0..M1, D m * (T j m * T' j m * ssCross c h.hod g.hod m + T j m * scCross c h.hod g.hod m + T' j m * csCross c h.hod g.hod m)) = X at *
  generalize (∫ m in M0..M1, D m * (2 * h.hod.csPairs m * T j m + h.hod.ssPairs m * T j m ^ 2)) = P1 at *
  generalize (∫ m in M0..M1, D m * (2 * g.hod.csPairs m * T' j m + g.hod.ssPairs m * T' j m ^ 2)) = P2 at *
  generalize (∫ m in M0..M1, D m * tracerNumber h.hod m) = w1 at *
  generalize (∫ m in M0..M1, D m * tracerNumber g.hod m) = w2 at *
  have lhs := lxa.pow 2
  have rhs := ((lt1.add ((tendsto_const_nhds (x := (1:ℝ))).div lden1 hnb.ne')).mul (lt2.add ((tendsto_const_nhds (x := (1:ℝ))).div lden2 gnb.ne'))).add_const ε
  refine (lhs.eventually_lt rhs ?_).mono fun n hn => hn.le
  have e : (P1 / w1 ^ 2 + 1 / w1) * (P2 / w2 ^ 2 + 1 / w2) = (P1 + w1) * (P2 + w2) / (w1 * w2) ^ 2 := by field_simp
  rw [ha, e, div_pow]
  have : X ^ 2 / (w1 * w2) ^ 2 ≤ (P1 + w1) * (P2 + w2) / (w1 * w2) ^ 2 := by gcongr
  linarith

/-! ## cases that meet the hypotheses -/

theorem zheng_smooth : Smooth { inherent := false, sharpCut := false, cen := zhengCen {}, sat := zhengSat {}, mmin := ({} : ZhengP).M_min - 5 * ({} : ZhengP).sig_logm } 1e11 1e15 := by
  obtain ⟨z1, z2, z3, z4⟩ := zheng_parts 1e11 1e15 (by norm_num)
  have hn : ∀ m, 0 ≤ zhengCen {} m * (1 - zhengCen {} m) := fun m => mul_nonneg (z3 m).1.le (by linarith [(z3 m).2])
  exact ⟨fun _ => rfl, fun h => absurd (show false = true from h) (by simp), fun h => absurd (show false = true from h) (by simp),
    by change (0:ℝ) < 11.6222 - 5 * 0.26 ∧ (11.6222 - 5 * 0.26 : ℝ) ≤ 1e11; norm_num, z1, z2,
    Real.continuous_sqrt.comp_continuousOn (z1.mul (continuousOn_const.sub z1)), fun m _ => (z3 m).1.le, fun m _ => z4 m,
    fun m _ => (Real.sq_sqrt (hn m)).le⟩

theorem admissible_ss (r : ℝ) (hr : |r| ≤ 1) (m : ℝ) : Admissible (constantCorr r 0 0) m := by
  intro x y x' y'
  have h1 : r ^ 2 ≤ 1 := (sq_le_one_iff_abs_le_one r).mpr hr
  change (y * y' * r + x * y' * 0 + y * x' * 0) ^ 2 ≤ _
  have e : (y * y' * r + x * y' * 0 + y * x' * 0) ^ 2 = y ^ 2 * y' ^ 2 * r ^ 2 := by ring
  rw [e]
  calc y ^ 2 * y' ^ 2 * r ^ 2 ≤ y ^ 2 * y' ^ 2 * 1 := by gcongr
    _ = y ^ 2 * y' ^ 2 := mul_one _
    _ ≤ _ := by gcongr <;> nlinarith [sq_nonneg x, sq_nonneg x']

/-- two tracers with the Zheng05 HOD whose satellites are fully correlated. -/
example : ∃ x t1 t2 : ℕ → ℝ → ℝ, ∀ ε > 0, ∀ᶠ n in atTop, x n ((boundHM false).k 0) ^ 2 ≤
    (t1 n ((boundHM false).k 0) + 1 / (fine (boundHM false) 1e11 1e15 (fun m => m⁻¹) (fun m => m) (fun _ _ => 1 / 2) (fun _ _ => 1 / 2) (fun _ _ => 1) n).meanTracerDen boundE) *
    (t2 n ((boundHM false).k 0) + 1 / (fine (boundHM false) 1e11 1e15 (fun m => m⁻¹) (fun m => m) (fun _ _ => 1 / 2) (fun _ _ => 1 / 3) (fun _ _ => 1) n).meanTracerDen boundE) + ε := by
  have hpos : 0 < ∫ m in (1e11:ℝ)..1e15, m⁻¹ * tracerNumber (boundHM false).hod m := by
    obtain ⟨z1, z2, z3, z4⟩ := zheng_parts 1e11 1e15 (by norm_num)
    refine integral_pos_on (by norm_num) (inv_cont.mul ?_) fun m hm => mul_pos (inv_pos' m hm) ?_
    · exact (zheng_smooth.facts false).2.2.2.2.2.2
    · rw [show tracerNumber (boundHM false).hod m = _ from (zheng_smooth.facts false).2.2.2.2.2.1 m hm]
      exact add_pos_of_pos_of_nonneg (z3 m).1 ((zheng_smooth.facts false).2.2.1 m hm)
  obtain ⟨x, t1, t2, -, -, -, k⟩ := C64_two_tracers_one_halo_partial boundE linSpl_lin linSpl_conv (boundHM false) (boundHM false) (boundHM_ok _) (boundHM_ok _) 1e11 1e15
    (by norm_num) (by norm_num) rfl rfl _ _ false false rfl rfl zheng_smooth zheng_smooth rfl rfl (constantCorr 1 0 0) (fun _ _ => true) (fun _ _ => rfl)
    (fun m _ => admissible_ss 1 (by simp) m) (fun _ => rfl) continuousOn_const continuousOn_const continuousOn_const
    (fun m => m⁻¹) (fun m => m) (fun m => m) (fun _ _ => 1 / 2) (fun _ _ => 1 / 2) (fun _ _ => 1 / 2) (fun _ _ => 1 / 3) (fun _ _ => 1) (fun _ _ => 1) inv_cont continuousOn_id
    continuousOn_id (fun _ => continuousOn_const) (fun _ => continuousOn_const) (fun _ => continuousOn_const) (fun _ => continuousOn_const)
    (fun m hm => (inv_pos' m hm).le) hpos hpos 0 (by change 0 < 2; norm_num) (fun _ _ => by norm_num) (fun _ _ => by norm_num)
  exact ⟨x, t1, t2, k⟩

/-- two different tracers of the demo haloes. -/
example : ∃ p p1 p2, power2h demoE demoHM demoHM2 = some p ∧ demoHM.power2hTracer demoE = some p1 ∧ demoHM2.power2hTracer demoE = some p2 ∧
    ∀ j < demoHM.nk, p (demoHM.k j) ^ 2 = p1 (demoHM.k j) * p2 (demoHM.k j) := by
  refine C64_two_tracers_two_halo demoE_lin demoHM demoHM2 demo_ok ⟨demo_ok.m, demo_ok.k, demo_ok.r, demo_ok.nm0, demo_ok.nk0, demo_ok.nr0⟩
    ⟨rfl, rfl, rfl, rfl, rfl, rfl, rfl, rfl, rfl⟩ rfl rfl (Real.log 10) (by positivity) le_rfl fun i _ => ?_
  change Real.log (10 ^ ((11.5:ℝ) + (i + 1 : ℕ))) - Real.log (10 ^ ((11.5:ℝ) + i)) = Real.log 10
  rw [Real.log_rpow (by norm_num), Real.log_rpow (by norm_num)]
  push_cast
  ring

end Halomod.Cross
