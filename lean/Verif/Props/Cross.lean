import Verif.Model.Cross
import Verif.Props.HaloModel3

/-! # C41: cross-correlations of two tracers -/
namespace Halomod.Cross

open Halomod.Tools Halomod.HOD Halomod.HaloModel Halomod.Exclusion

/-- the correlation model seen from the other side: `R_cs` and `R_sc` exchanged. -/
def CrossDef.swap (c : CrossDef) : CrossDef := ⟨c.Rss, c.Rsc, c.Rcs, c.selfPairs⟩

/-- two models on the same grids, with the same mass function, matter power and halo-centre power. -/
structure Shared (h1 h2 : HM) : Prop where
  nm : h1.nm = h2.nm
  m : h1.m = h2.m
  dndm : h1.dndm = h2.dndm
  nk : h1.nk = h2.nk
  k : h1.k = h2.k
  nr : h1.nr = h2.nr
  rt : h1.rt = h2.rt
  phc : h1.phc = h2.phc
  lin : h1.linPow = h2.linPow

/-! ## pair counts -/

/-- C41: exchanging the tracers exchanges the pair counts. -/
theorem C41_pairs_symmetric (c : CrossDef) (h1 h2 : Hod) (m : ℝ) :
    ssCross c.swap h2 h1 m = ssCross c h1 h2 m ∧ csCross c.swap h2 h1 m = scCross c h1 h2 m ∧
    scCross c.swap h2 h1 m = csCross c h1 h2 m := by
  unfold ssCross csCross scCross CrossDef.swap
  refine ⟨by ring, rfl, rfl⟩

/-- C41: uncorrelated tracers have the product of the mean numbers as pair count. -/
theorem C41_uncorrelated (h1 h2 : Hod) (m : ℝ) :
    ssCross (constantCorr 0 0 0) h1 h2 m = h1.satOcc m * h2.satOcc m ∧
    csCross (constantCorr 0 0 0) h1 h2 m = h1.cenOcc m * h2.satOcc m ∧
    scCross (constantCorr 0 0 0) h1 h2 m = h1.satOcc m * h2.cenOcc m := by
  unfold ssCross csCross scCross constantCorr
  refine ⟨by ring, by ring, by ring⟩

/-- C41: a Poisson tracer crossed with itself without correlation has its own satellite-satellite count;
its central-satellite counts agree with its own exactly for `central=False`; with `central=True` they agree
exactly where the halo either has no satellites or surely has its central. -/
theorem C41_self_pairs (d : PoissonDef) (central : Bool) (m : ℝ) :
    let h := poisson d central
    ssCross (constantCorr 0 0 0) h h m = h.ssPairs m ∧
    (central = false → csCross (constantCorr 0 0 0) h h m = h.csPairs m ∧
      scCross (constantCorr 0 0 0) h h m = h.csPairs m) ∧
    (central = true → (csCross (constantCorr 0 0 0) h h m = h.csPairs m ↔
      h.satOcc m = 0 ∨ h.cenOcc m = d.tpc m)) := by
  intro h
  refine ⟨?_, ?_, ?_⟩
  · simp only [ssCross, constantCorr, h, poisson]; ring
  · intro hc
    subst hc
    simp only [csCross, scCross, constantCorr, h, poisson]
    constructor <;> simp
  · intro hc
    subst hc
    simp only [csCross, constantCorr, h, poisson, if_true, mul_zero, add_zero]
    generalize satelliteOccupation true d.inherent (fun m => d.cen m / d.tpc m) d.sat m = s
    constructor
    · intro he
      have : s * (d.cen m - d.tpc m) = 0 := by linear_combination he
      rcases mul_eq_zero.mp this with h | h
      · exact Or.inl h
      · exact Or.inr (by linarith)
    · rintro (h | h)
      · rw [h]; ring
      · rw [h]; ring

/-- C41 finding: with full correlation a Poisson tracer crossed with itself counts every satellite paired
with itself: `constantCorr` takes no self-pairs off. -/
theorem C41_full_correlation_counts_self (d : PoissonDef) (central : Bool) (rcs rsc m : ℝ)
    (hs : 0 ≤ (poisson d central).satOcc m) :
    ssCross (constantCorr 1 rcs rsc) (poisson d central) (poisson d central) m =
      (poisson d central).ssPairs m + (poisson d central).satOcc m := by
  have : (poisson d central).sigmaSat m * (poisson d central).sigmaSat m = (poisson d central).satOcc m :=
    Real.mul_self_sqrt hs
  unfold ssCross
  rw [this]
  simp only [constantCorr, poisson]
  ring

/-- C41 finding: an anti-correlation makes the pair count negative in haloes with less than one satellite on
average. -/
theorem C41_negative_pairs (d : PoissonDef) (central : Bool) (rcs rsc m : ℝ)
    (h0 : 0 < (poisson d central).satOcc m) (h1 : (poisson d central).satOcc m < 1) :
    ssCross (constantCorr (-1) rcs rsc) (poisson d central) (poisson d central) m < 0 := by
  have : (poisson d central).sigmaSat m * (poisson d central).sigmaSat m = (poisson d central).satOcc m :=
    Real.mul_self_sqrt h0.le
  unfold ssCross
  rw [this]
  simp only [constantCorr]
  nlinarith

/-- C41: with correlation coefficients between -1 and 1, satellites of both tracers averaging at least one
per halo, and no self-pairs, the satellite pair count is never negative. -/
theorem C41_pairs_nonneg (d1 d2 : PoissonDef) (c1 c2 : Bool) (c : CrossDef) (m : ℝ) (hR : |c.Rss m| ≤ 1)
    (hq : c.selfPairs m ≤ 0) (h1 : 1 ≤ (poisson d1 c1).satOcc m) (h2 : 1 ≤ (poisson d2 c2).satOcc m) :
    0 ≤ ssCross c (poisson d1 c1) (poisson d2 c2) m := by
  unfold ssCross
  set a := (poisson d1 c1).satOcc m
  set b := (poisson d2 c2).satOcc m
  have e1 : (poisson d1 c1).sigmaSat m = Real.sqrt a := rfl
  have e2 : (poisson d2 c2).sigmaSat m = Real.sqrt b := rfl
  rw [e1, e2]
  have ha : Real.sqrt a ≤ a := Real.sqrt_le_iff.mpr ⟨by linarith, by nlinarith⟩
  have hb : Real.sqrt b ≤ b := Real.sqrt_le_iff.mpr ⟨by linarith, by nlinarith⟩
  have h0a := Real.sqrt_nonneg a
  have h0b := Real.sqrt_nonneg b
  have hp : Real.sqrt a * Real.sqrt b ≤ a * b := mul_le_mul ha hb h0b (by linarith)
  have hR' := abs_le.mp hR
  nlinarith [mul_nonneg h0a h0b]

/-! ## power spectra -/

variable {E : Env}

/-- C41: exchanging the tracers (and `R_cs` with `R_sc`) leaves the 1-halo cross power unchanged when the
models share grid and mass function. -/
theorem C41_one_halo_symmetric (c : CrossDef) (keep : ℕ → Bool) (h1 h2 : HM) (hs : Shared h1 h2) :
    power1h E c.swap keep h2 h1 = power1h E c keep h1 h2 := by
  have ht : power1hTab E c.swap keep h2 h1 = power1hTab E c keep h1 h2 := by
    funext j
    unfold power1hTab
    simp only [← hs.nm, ← hs.m]
    rw [mul_comm (h2.meanTracerDen E)]
    congr 2
    funext i
    unfold integ1h
    rw [← hs.dndm, ← hs.m, (C41_pairs_symmetric c h1.hod h2.hod _).1, (C41_pairs_symmetric c h1.hod h2.hod _).2.1,
      (C41_pairs_symmetric c h1.hod h2.hod _).2.2]
    ring
  unfold power1h
  rw [if_pos ⟨hs.nm.symm, hs.nk.symm⟩, if_pos ⟨hs.nm, hs.nk⟩, ht, ← hs.nk, ← hs.k]

/-- C41: and the 2-halo cross power. -/
theorem C41_two_halo_symmetric (h1 h2 : HM) (hs : Shared h1 h2) : power2h E h2 h1 = power2h E h1 h2 := by
  have ht : power2hTab E h2 h1 = power2hTab E h1 h2 := by
    funext j
    unfold power2hTab
    rw [← hs.phc, ← hs.k, mul_comm (beff E h2 j), mul_comm (h2.meanTracerDen E)]
  unfold power2h
  rw [if_pos hs.nk.symm, if_pos hs.nk, ht, ← hs.nk, ← hs.k, ← hs.lin]

/-- C41: hence the total power and the total correlation are symmetric. -/
theorem C41_total_symmetric (c : CrossDef) (keep : ℕ → Bool) (h1 h2 : HM) (hs : Shared h1 h2) :
    power E c.swap keep h2 h1 = power E c keep h1 h2 ∧ corr E c.swap keep h2 h1 = corr E c keep h1 h2 := by
  have e1 := C41_one_halo_symmetric (E := E) c keep h1 h2 hs
  have e2 := C41_two_halo_symmetric (E := E) h1 h2 hs
  constructor
  · unfold power; rw [e1, e2]
  · unfold corr corr1h corr2h HM.corrES
    rw [e1, e2, ← hs.nr, ← hs.rt]

/-- C41 finding: the 1-halo term uses the mass function of the first model only.  When the second model has
`a` times the mass function of the first and the rest is shared (and the given mean densities are those of
the models), exchanging the tracers multiplies the 1-halo table by `a`. -/
theorem C41_first_mass_function_only (c : CrossDef) (keep : ℕ → Bool) (h1 h2 : HM) (a : ℝ)
    (hnm : h1.nm = h2.nm) (hm : h1.m = h2.m) (hd : ∀ i, h2.dndm i = a * h1.dndm i) (j : ℕ) :
    power1hTab E c.swap keep h2 h1 j = a * power1hTab E c keep h1 h2 j := by
  unfold power1hTab
  simp only [← hnm, ← hm]
  rw [mul_comm (h2.meanTracerDen E), ← mul_div_assoc, ← simpsonX_mul]
  congr 2
  funext i
  unfold integ1h
  rw [hd, ← hm, (C41_pairs_symmetric c h1.hod h2.hod _).1, (C41_pairs_symmetric c h1.hod h2.hod _).2.1,
      (C41_pairs_symmetric c h1.hod h2.hod _).2.2]
  ring

/-- C41: a tracer crossed with itself has exactly its own 2-halo power — as a function of every wavenumber —
on a mass grid even in `ln m`, for unfiltered halo-centre power (no exclusion, no scale-dependent bias). -/
theorem C41_self_two_halo (hs : SplLin E.isp) (h : HM) (ho : h.Ok) (hnf : h.filtered = false) (dx : ℝ)
    (hdx : dx ≠ 0) (h2 : 2 ≤ h.nm) (hx : ∀ i, i + 1 < h.nm → Real.log (h.m (i + 1)) - Real.log (h.m i) = dx) :
    power2h E h h = h.power2hTracer E := by
  have hdl : Real.log (h.m 1 / h.m 0) = dx := by
    rw [Real.log_div (ho.m.pos 1 (by omega)).ne' (ho.m.pos 0 (by omega)).ne']
    exact hx 0 (by omega)
  have key : ∀ j, (h.tracerExcl E).splineIntegrate (fun n x y a c => splIntegral E.isp n x y a c)
      (fun im => (h.tracerExcl E).pint j im * h.bias im * (h.tracerExcl E).m im) =
      (1 / h.meanTracerDen E) * beff E h j := by
    intro j
    have hf : ∀ i, (h.tracerExcl E).pint j i * h.bias i * (h.tracerExcl E).m i =
        1 / h.meanTracerDen E * (h.dndm i * h.bias i * h.totOccInt i * h.ut j i * h.m i) := by
      intro i
      change h.dndm i * h.totOccInt i / h.meanTracerDen E * h.ut j i * h.bias i * h.m i = _
      ring
    simp only [hf]
    unfold Excl.splineIntegrate beff Excl.xmin
    rw [show (h.tracerExcl E).xminArg = h.tracerMmin from rfl]
    cases h.tracerMmin with
    | none =>
      simp only
      rw [simpsonX_uniform hdx hx ho.nm0]
      change simpsonDx h.nm (Real.log (h.m 1 / h.m 0)) _ = _
      rw [hdl, simpsonDx_mul]
    | some x =>
      simp only
      rw [show (h.tracerExcl E).m 0 = h.m 0 from rfl]
      by_cases hlt : h.m 0 < x
      · rw [if_pos hlt, if_pos hlt]
        simp only
        exact splIntegral_smul hs.toSplOk _ _ _ _ _ _
      · rw [if_neg hlt, if_neg hlt]
        simp only
        rw [simpsonX_uniform hdx hx ho.nm0]
        change simpsonDx h.nm (Real.log (h.m 1 / h.m 0)) _ = _
        rw [hdl, simpsonDx_mul]
  have ht : power2hTab E h h = h.power2hTab E (noExclRes E (h.tracerExcl E) h.bias) (h.biasEffTracer E) false 0 := by
    funext j
    unfold power2hTab HM.power2hTab
    simp only [Bool.false_eq_true, if_false]
    change _ = ((h.tracerExcl E).splineIntegrate (fun n x y a c => splIntegral E.isp n x y a c)
      (fun im => (h.tracerExcl E).pint j im * h.bias im * (h.tracerExcl E).m im)) ^ 2 * 1 * _
    rw [key j]
    ring
  unfold power2h HM.power2hTracer HM.power2hPrim
  rw [if_pos rfl, ht, hnf]
  rfl

/-- C41: a tracer crossed with itself without correlation integrates, in its 1-halo power, exactly the sum of
the satellite-satellite and central-satellite integrands of its own 1-halo power, if wherever there are
satellites the central is certain (`Zehavi05` and its relatives), or if `central=False`. -/
theorem C41_self_one_halo_integrand (h : HM) (d : PoissonDef) (central : Bool) (hh : h.hod = poisson d central)
    (j i : ℕ) (hc : central = true → h.hod.satOcc (h.m i) = 0 ∨ h.hod.cenOcc (h.m i) = d.tpc (h.m i)) :
    integ1h (constantCorr 0 0 0) h h j i =
      h.ut j i ^ 2 * h.dndm i * h.hod.ssPairs (h.m i) + h.dndm i * 2 * h.hod.csPairs (h.m i) * h.ut j i := by
  have h3 := C41_self_pairs d central (h.m i)
  simp only at h3
  rw [← hh] at h3
  have hcs : csCross (constantCorr 0 0 0) h.hod h.hod (h.m i) = h.hod.csPairs (h.m i) := by
    cases hcen : central with
    | false => exact (h3.2.1 hcen).1
    | true => exact (h3.2.2 hcen).mpr (hc hcen)
  have hsc : scCross (constantCorr 0 0 0) h.hod h.hod (h.m i) = csCross (constantCorr 0 0 0) h.hod h.hod (h.m i) := rfl
  unfold integ1h
  rw [hsc, hcs, h3.1]
  ring

/-- C41 finding: with a gradual central occupation (`Zheng05` and others, `central=True`) the uncorrelated
self-cross counts strictly fewer central-satellite pairs than the tracer's own count. -/
theorem C41_self_gradual (d : PoissonDef) (m : ℝ) (hs : 0 < (poisson d true).satOcc m)
    (hc : d.cen m < d.tpc m) :
    csCross (constantCorr 0 0 0) (poisson d true) (poisson d true) m < (poisson d true).csPairs m := by
  have e : csCross (constantCorr 0 0 0) (poisson d true) (poisson d true) m =
      d.cen m * (poisson d true).satOcc m := by
    simp only [csCross, constantCorr, poisson]; ring
  have e2 : (poisson d true).csPairs m = (poisson d true).satOcc m * d.tpc m := rfl
  rw [e, e2]
  nlinarith

/-- C41: the total cross power is the sum of its parts; finding: the total cross *correlation* is the sum of
its parts plus one (so it is not the excess over random that its parts are). -/
theorem C41_totals (c : CrossDef) (keep : ℕ → Bool) (h1 h2 : HM) (a b a' b' : ℝ → ℝ)
    (e1 : power1h E c keep h1 h2 = some a) (e2 : power2h E h1 h2 = some b)
    (e3 : corr1h E c keep h1 h2 = some a') (e4 : corr2h E h1 h2 = some b') :
    (∃ p, power E c keep h1 h2 = some p ∧ ∀ k, p k = a k + b k) ∧
    (∃ x, corr E c keep h1 h2 = some x ∧ ∀ r, x r = a' r + b' r + 1) := by
  constructor
  · exact ⟨_, by unfold power; rw [e1, e2]; rfl, fun _ => rfl⟩
  · exact ⟨_, by unfold corr; rw [e3, e4]; rfl, fun _ => rfl⟩

/-- C41: the 2-halo cross power is bilinear in the bias: where both profiles are unity and both biases are
constant (`b1`, `b2`), for tracers cut at `M_min` inside the grid, it is `b1 b2` times the halo-centre
power. -/
theorem C41_large_scale (hs : SplLin E.isp) (h1 h2 : HM) (hc1 : h1.cut) (hc2 : h2.cut)
    (hi1 : h1.m 0 < 10 ^ h1.hod.mmin) (hi2 : h2.m 0 < 10 ^ h2.hod.mmin) (b1 b2 : ℝ)
    (hb1 : ∀ i < h1.nm, h1.bias i = b1) (hb2 : ∀ i < h2.nm, h2.bias i = b2) (j : ℕ)
    (hu1 : ∀ i < h1.nm, h1.ut j i = 1) (hu2 : ∀ i < h2.nm, h2.ut j i = 1)
    (hd1 : h1.meanTracerDen E ≠ 0) (hd2 : h2.meanTracerDen E ≠ 0) :
    power2hTab E h1 h2 j = b1 * b2 * h1.phc (h1.k j) := by
  have key : ∀ (h : HM) (b : ℝ), h.cut → h.m 0 < 10 ^ h.hod.mmin → (∀ i < h.nm, h.bias i = b) →
      (∀ i < h.nm, h.ut j i = 1) → beff E h j = b * h.meanTracerDen E := by
    intro h b hc hi hb hu
    have hm : h.tracerMmin = some (10 ^ h.hod.mmin) := by
      unfold HM.tracerMmin; rw [cut_true hc, if_pos rfl]
    unfold beff HM.meanTracerDen HM.S splineIntegral
    rw [hm]
    simp only [if_true, Option.elim, hi]
    rw [← splIntegral_smul hs.toSplOk]
    apply splIntegral_congr hs.toSplOk
    intro i hin
    rw [hb i hin, hu i hin]
    ring
  unfold power2hTab
  rw [key h1 b1 hc1 hi1 hb1 hu1, key h2 b2 hc2 hi2 hb2 hu2]
  field_simp

/-! ### non-vacuity -/

/-- the demo tracer crossed with itself has its own 2-halo power. -/
example : power2h demoE demoHM demoHM = demoHM.power2hTracer demoE := by
  apply C41_self_two_halo demoE_lin demoHM demo_ok rfl (Real.log 10) (by positivity) le_rfl
  intro i _
  change Real.log (10 ^ ((11.5:ℝ) + (i + 1 : ℕ))) - Real.log (10 ^ ((11.5:ℝ) + i)) = Real.log 10
  rw [Real.log_rpow (by norm_num), Real.log_rpow (by norm_num)]
  push_cast
  ring

/-- a second tracer on the grid of the demo model with another HOD, profile and bias. -/
noncomputable def demoHM2 : HM :=
  { demoHM with hod := zehavi05 { M_min := 11.8 } false, ut := fun j _ => 1 / (1 + j), bias := fun _ => 2 }

example : Shared demoHM demoHM2 := ⟨rfl, rfl, rfl, rfl, rfl, rfl, rfl, rfl, rfl⟩

/-- a large-scale cross spectrum with a constant bias 2 on both sides. -/
example : power2hTab demoE { demoHM with bias := fun _ => 2 } { demoHM with bias := fun _ => 3 } 0 =
    2 * 3 * demoHM.phc (demoHM.k 0) :=
  C41_large_scale (E := demoE) demoE_lin { demoHM with bias := fun _ => 2 } { demoHM with bias := fun _ => 3 }
    demo_cut demo_cut demo_low demo_low 2 3 (fun _ _ => rfl) (fun _ _ => rfl) 0
    (fun _ _ => by simp [demoHM]) (fun _ _ => by simp [demoHM]) demo_den.ne' demo_den.ne'

/-- satellites and a gradual central exist: the hypotheses of the pair-count findings are met. -/
example : 0 < (poisson ⟨false, false, fun _ => 1 / 2, fun m => m, fun _ => 1, fun _ => 1, fun _ => 0, 0⟩
      true).satOcc 1 ∧
    (poisson ⟨false, false, fun _ => 1 / 2, fun m => m, fun _ => 1, fun _ => 1, fun _ => 0, 0⟩ true).satOcc 1 < 1 :=
  ⟨by norm_num [poisson, satelliteOccupation], by norm_num [poisson, satelliteOccupation]⟩

end Halomod.Cross
