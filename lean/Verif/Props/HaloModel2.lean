import Verif.Props.HaloModel

/-! # C36 (1-halo power), C39 (offsets), C44 (2-halo limit) -/
namespace Halomod.HaloModel

open Finset Halomod.Tools Halomod.HOD Halomod.Exclusion

section
variable {E : Env} {h : HM}

theorem oneHaloLower_valid : h.oneHaloLower ≠ .invalid := by
  unfold HM.oneHaloLower; split <;> simp

theorem power1hMatter_ok (hs : SplLin E.isp) (ho : h.Ok) : ∃ f, h.power1hMatter E = some f ∧
    ∀ j < h.nk, f (h.k j) = h.power1hMatterTab E j := by
  obtain ⟨f, h1, h2, _⟩ := mkES_ok E hs.toSplOk { n := h.nk, x := h.k, y := h.power1hMatterTab E, lower := h.oneHaloLower, upper := .powerLaw } rfl rfl ho.k oneHaloLower_valid (by simp)
  exact ⟨f, h1, h2⟩

theorem power1hSS_ok (hs : SplLin E.isp) (ho : h.Ok) : ∃ f, h.power1hSS E = some f ∧
    ∀ j < h.nk, f (h.k j) = h.power1hSSTab E j := by
  obtain ⟨f, h1, h2, _⟩ := mkES_ok E hs.toSplOk { n := h.nk, x := h.k, y := h.power1hSSTab E, lower := h.oneHaloLower, upper := .powerLaw } rfl rfl ho.k oneHaloLower_valid (by simp)
  exact ⟨f, h1, h2⟩

theorem power1hCS_ok (hs : SplLin E.isp) (ho : h.Ok) : ∃ f, h.power1hCS E = some f ∧
    ∀ j < h.nk, f (h.k j) = h.power1hCSTab E j := by
  classical
  obtain ⟨f, h1, h2, _⟩ := mkES_ok E hs.toSplOk { n := h.nk, x := h.k, y := h.power1hCSTab E, lower := h.oneHaloLower, upper := if ∀ j < h.nk, h.nk ≤ j + 10 → 0 < h.power1hCSTab E j then .powerLaw else .callable fun _ => 0 } rfl rfl ho.k oneHaloLower_valid (by dsimp only; split <;> simp)
  refine ⟨f, ?_, h2⟩
  unfold HM.power1hCS
  convert h1

theorem corrES_ok (hs : SplLin E.isp) (ho : h.Ok) (c : ℕ → ℝ) : ∃ f, h.corrES E c = some f ∧
    ∀ i < h.nr, f (h.rt i) = c i := by
  obtain ⟨f, h1, h2, _⟩ := mkES_ok E hs.toSplOk { n := h.nr, x := h.rt, y := c, lower := .powerLaw, upper := .callable fun _ => 0 } rfl rfl ho.r (by simp) (by simp)
  exact ⟨f, h1, h2⟩

theorem power2hPrim_ok (hs : SplLin E.isp) (ho : h.Ok) (e : ExclRes) (eb : ℝ) (db : Bool) (ir : ℕ) :
    ∃ f, h.power2hPrim E e eb db ir = some f ∧ ∀ j < h.nk, f (h.k j) = h.power2hTab E e eb db ir j := by
  obtain ⟨f, h1, h2, _⟩ := mkES_ok E hs.toSplOk
    { n := h.nk, x := h.k, y := h.power2hTab E e eb db ir, lower := .callable h.linPow, matchLower := true, upper := if e.isNone && !h.filtered then .powerLaw else .callable fun _ => 0 }
    rfl rfl ho.k (by simp) (by dsimp only; split <;> simp)
  exact ⟨f, h1, h2⟩

/-- C36: the 1-halo tracer power is, at every wavenumber (inside and outside the tabulated range), the
central-satellite plus the satellite-satellite part, and at the tabulated wavenumbers the single integral
of `n(m) (2 <N_c N_s> u + <N_s (N_s-1)> u^2)` divided by the squared mean density. -/
theorem C36_one_halo_power (hs : SplLin E.isp) (ho : h.Ok) :
    ∃ f cs ss, h.power1hTracer E = some f ∧ h.power1hCS E = some cs ∧ h.power1hSS E = some ss ∧
      (∀ k, f k = cs k + ss k) ∧
      ∀ j < h.nk, f (h.k j) = h.S E (fun i => h.dndm i *
        (2 * h.hod.csPairs (h.m i) * h.ut j i + h.hod.ssPairs (h.m i) * h.ut j i ^ 2))
        (some (h.oneHaloMmin h.hod.mmin j)) / h.meanTracerDen E ^ 2 := by
  obtain ⟨cs, hcs, hcsn⟩ := power1hCS_ok (E := E) (h := h) hs ho
  obtain ⟨ss, hss, hssn⟩ := power1hSS_ok (E := E) (h := h) hs ho
  refine ⟨sumCallable cs ss 0, cs, ss, ?_, hcs, hss, fun k => by simp [sumCallable], ?_⟩
  · unfold HM.power1hTracer sumC; rw [hcs, hss]; rfl
  · intro j hj
    simp only [sumCallable, add_zero]
    rw [hcsn j hj, hssn j hj]
    unfold HM.power1hCSTab HM.power1hSSTab HM.do1halo
    rw [← add_div, ← S_add hs ho]
    congr 2
    ext i; ring

/-- C36: the total tracer power is the 1-halo plus the 2-halo power at every wavenumber, and so is the
total matter power. -/
theorem C36_total_power (hs : SplLin E.isp) (ho : h.Ok) :
    (∃ f a b, h.powerTracer E = some f ∧ h.power1hTracer E = some a ∧ h.power2hTracer E = some b ∧
      ∀ k, f k = a k + b k) ∧
    (∃ f a b, h.powerMatter E = some f ∧ h.power1hMatter E = some a ∧ h.power2hMatter E = some b ∧
      ∀ k, f k = a k + b k) := by
  obtain ⟨f1, _, _, h1, _⟩ := C36_one_halo_power (E := E) (h := h) hs ho
  obtain ⟨f2, h2, _⟩ := power2hPrim_ok (E := E) (h := h) hs ho (noExclRes E (h.tracerExcl E) h.bias)
    (h.biasEffTracer E) false 0
  obtain ⟨g1, k1, _⟩ := power1hMatter_ok (E := E) (h := h) hs ho
  obtain ⟨g2, k2, _⟩ := power2hPrim_ok (E := E) (h := h) hs ho (noExclRes E h.matterExcl h.bias)
    (h.biasEffMatter E) h.forceUnity 0
  refine ⟨⟨fun k => f1 k + f2 k, f1, f2, ?_, h1, h2, fun _ => rfl⟩,
    ⟨sumCallable g1 g2 0, g1, g2, ?_, k1, k2, fun k => by simp [sumCallable]⟩⟩
  · unfold HM.powerTracer HM.power2hTracer; rw [h1, h2]; rfl
  · unfold HM.powerMatter HM.power2hMatter sumC; rw [k1, k2]; rfl

/-- C36 finding: the 1-halo integrals pass the *logarithm* of the minimum mass as their lower mass limit.
Whenever that number (about 10 to 15) is below the first grid mass it has no effect: the tables are
integrals over the whole mass grid, while density, bias and the 2-halo term start at `10**M_min`. -/
theorem C36_one_halo_cut_not_applied (hs : SplLin E.isp) (ho : h.Ok) (ht : h.turnover = false)
    (h0 : 0 < h.hod.mmin) (h1 : h.hod.mmin ≤ h.m 0) (j : ℕ) :
    h.power1hSSTab E j = h.S E (fun i => h.ut j i ^ 2 * h.dndm i * h.hod.ssPairs (h.m i)) none
      / h.meanTracerDen E ^ 2 ∧
    h.power1hCSTab E j = h.S E (fun i => h.dndm i * 2 * h.hod.csPairs (h.m i) * h.ut j i) none
      / h.meanTracerDen E ^ 2 := by
  unfold HM.power1hSSTab HM.power1hCSTab HM.do1halo HM.oneHaloMmin HM.S
  simp only [ht, Bool.false_eq_true, if_false]
  constructor <;> rw [si_xmin_low hs ho.m _ _ h0 h1 _ fun _ _ => rfl]

/-- C36 finding, consequence: for `Zehavi05`, moving `M_min` between two neighbouring grid masses changes
the mean density but not the 1-halo pair integrals (`P_1h * n^2`), so the 1-halo power is not a smooth
function of `M_min`. -/
theorem C36_one_halo_pairs_frozen (hs : SplLin E.isp) (ho : h.Ok) (ht : h.turnover = false)
    (p q : ZehaviP) (hM : q.M_1 = p.M_1) (ha : q.alpha = p.alpha) (hh : h.hod = zehavi05 p true)
    (hp : 0 < p.M_min ∧ p.M_min ≤ h.m 0) (hq : 0 < q.M_min ∧ q.M_min ≤ h.m 0)
    (hgap : ∀ i < h.nm, h.m i < 10 ^ p.M_min ↔ h.m i < 10 ^ q.M_min) (j : ℕ) :
    let h' := { h with hod := zehavi05 q true }
    h.meanTracerDen E ≠ 0 → h'.meanTracerDen E ≠ 0 →
    h'.power1hSSTab E j * h'.meanTracerDen E ^ 2 = h.power1hSSTab E j * h.meanTracerDen E ^ 2 ∧
    h'.power1hCSTab E j * h'.meanTracerDen E ^ 2 = h.power1hCSTab E j * h.meanTracerDen E ^ 2 := by
  intro h' hd hd'
  have ho' : h'.Ok := ⟨ho.m, ho.k, ho.r, ho.nm0, ho.nk0, ho.nr0⟩
  have e := C36_one_halo_cut_not_applied (E := E) (h := h) hs ho ht (by rw [hh]; exact hp.1)
    (by rw [hh]; exact hp.2) j
  have e' := C36_one_halo_cut_not_applied (E := E) (h := h') hs ho' ht hq.1 hq.2 j
  have hcen : ∀ i < h.nm, zehaviCen q.M_min (h.m i) = zehaviCen p.M_min (h.m i) := by
    intro i hi
    unfold zehaviCen
    by_cases hlt : h.m i < 10 ^ p.M_min
    · rw [if_pos hlt, if_pos ((hgap i hi).mp hlt)]
    · rw [if_neg hlt, if_neg (fun hx => hlt ((hgap i hi).mpr hx))]
  have hss : ∀ i < h.nm, h'.hod.ssPairs (h.m i) = h.hod.ssPairs (h.m i) := by
    intro i hi
    rw [hh]
    simp [h', zehavi05, poisson, satelliteOccupation, hcen i hi, hM, ha]
  have hcs : ∀ i < h.nm, h'.hod.csPairs (h.m i) = h.hod.csPairs (h.m i) := by
    intro i hi
    rw [hh]
    simp [h', zehavi05, poisson, satelliteOccupation, hcen i hi, hM, ha]
  rw [e.1, e.2, e'.1, e'.2]
  have hd2 := pow_ne_zero 2 hd
  have hd2' := pow_ne_zero 2 hd'
  rw [div_mul_cancel₀ _ hd2, div_mul_cancel₀ _ hd2', div_mul_cancel₀ _ hd2, div_mul_cancel₀ _ hd2']
  constructor
  · exact S_congr (h := h) hs _ fun i hi => by
      change h.ut j i ^ 2 * h.dndm i * h'.hod.ssPairs (h.m i) = _; rw [hss i hi]
  · exact S_congr (h := h) hs _ fun i hi => by
      change h.dndm i * 2 * h'.hod.csPairs (h.m i) * h.ut j i = _; rw [hcs i hi]

/-- C36: with `force_1halo_turnover` the 1-halo integral at wavenumber `k` starts at the mass whose
virial radius is `pi/(10 k)` — every halo below it is dropped. -/
theorem C36_turnover_mass (ht : h.turnover = true) (maxM : ℝ) (j : ℕ)
    (hle : maxM ≤ 4 / 3 * Real.pi * (h.overdensity * h.meanDensity0) * (Real.pi / (10 * h.k j)) ^ 3) :
    h.oneHaloMmin maxM j
      = 4 / 3 * Real.pi * (h.overdensity * h.meanDensity0) * (Real.pi / (10 * h.k j)) ^ 3 := by
  unfold HM.oneHaloMmin
  simp only [ht, if_true]
  have : 4 * Real.pi * h.meanDensity0 * h.overdensity / 3 * (Real.pi / h.k j / 10) ^ 3
      = 4 / 3 * Real.pi * (h.overdensity * h.meanDensity0) * (Real.pi / (10 * h.k j)) ^ 3 := by
    rw [div_div, mul_comm (h.k j) 10]; ring
  rw [this, max_eq_right hle]

/-! ## C39 -/

theorem corr2hMatter_ok (hs : SplLin E.isp) (ho : h.Ok) (e : ExclRes) (he : e.rows = 1) (eb : ℝ) (db : Bool) :
    ∃ f p, h.corr2h E e eb db = some f ∧ h.power2hPrim E e eb db 0 = some p ∧
      (∀ i < h.nr, f (h.rt i) = E.hankelFine p (h.rt i)) ∧ ∀ t < h.rt 0, f t = 0 := by
  obtain ⟨p, hp, _⟩ := power2hPrim_ok (E := E) (h := h) hs ho e eb db 0
  set a : ESArgs := { n := h.nr, x := h.rt, y := fun i => E.hankelFine p (h.rt i), lower := .callable (fun _ => 0), upper := .callable fun _ => 0 } with ha
  obtain ⟨f, h1, h2, _⟩ := mkES_ok E hs.toSplOk a rfl rfl ho.r (by simp [ha]) (by simp [ha])
  have hf0 : ∀ t < h.rt 0, f t = 0 := by
    unfold mkES at h1
    obtain ⟨es, hes, rfl⟩ := Option.map_eq_some_iff.mp h1
    intro t ht
    rw [(C12_branches E.isp E.us hs.toSplOk a es hes ho.r.inc).2.2.1 t ht]
    have := (esInit_some E.isp E.us a es hes).2.2.2.1
    simp only [ha, extFunc, not_true, if_false, if_true, Option.some.injEq] at this
    rw [← this]
  refine ⟨f, p, ?_, hp, h2, hf0⟩
  unfold HM.corr2h
  rw [he]
  have : (List.range 1).mapM (fun ir => h.power2hPrim E e eb db ir) = some [p] := by
    simp [List.range_succ, hp]
  rw [this]
  exact h1

/-- C39: with an analytic profile self-convolution, the matter correlation function at the tabulated
separations is the excess `int n m^2 lam dm / rho^2` of the 1-halo term plus the 2-halo term. -/
theorem C39_matter_analytic (hs : SplLin E.isp) (ho : h.Ok) (lam : ℕ → ℕ → ℝ) (hl : h.lamH = some lam) :
    ∃ f b, h.corrMatter E = some f ∧ h.corr2hMatter E = some b ∧ ∀ i < h.nr, f (h.rt i) =
      trapzDx h.nm (Real.log 10 * h.dlog10m) (fun j => h.dndm j * h.m j ^ 3 * lam i j)
        / h.meanDensity0 ^ 2 + b (h.rt i) := by
  obtain ⟨a, h1, h2⟩ := corrES_ok (E := E) (h := h) hs ho fun i =>
    trapzDx h.nm (Real.log 10 * h.dlog10m) (fun j => h.dndm j * h.m j ^ 3 * lam i j) / h.meanDensity0 ^ 2 - 1
  obtain ⟨b, _, h3, _, _, _⟩ := corr2hMatter_ok (E := E) (h := h) hs ho
    (noExclRes E h.matterExcl h.bias) rfl (h.biasEffMatter E) h.forceUnity
  refine ⟨sumCallable a b 1, b, ?_, h3, ?_⟩
  · unfold HM.corrMatter HM.corr1hMatter sumC
    rw [hl]
    simp only
    rw [h1, show h.corr2hMatter E = some b from h3]; rfl
  · intro i hi
    simp only [sumCallable]; rw [h2 i hi]; ring

/-- C39 finding: without an analytic self-convolution the 1-halo correlation is already the transform of
the 1-halo power, but the total still adds one: the matter correlation function is too large by exactly 1
at every separation (in particular it does not vanish where both parts do). -/
theorem C39_matter_transformed_off_by_one (hs : SplLin E.isp) (ho : h.Ok) (hl : h.lamH = none) :
    ∃ f a b p, h.corrMatter E = some f ∧ h.corr1hMatter E = some a ∧ h.corr2hMatter E = some b ∧
      h.power1hMatter E = some p ∧ (∀ r, f r = a r + b r + 1) ∧
      ∀ i < h.nr, a (h.rt i) = E.hankel p (h.rt i) := by
  obtain ⟨p, hp, _⟩ := power1hMatter_ok (E := E) (h := h) hs ho
  obtain ⟨a, h1, h2⟩ := corrES_ok (E := E) (h := h) hs ho fun i => E.hankel p (h.rt i)
  obtain ⟨b, _, h3, _, _, _⟩ := corr2hMatter_ok (E := E) (h := h) hs ho
    (noExclRes E h.matterExcl h.bias) rfl (h.biasEffMatter E) h.forceUnity
  have ha : h.corr1hMatter E = some a := by
    unfold HM.corr1hMatter; rw [hl]; simp only; rw [hp]; exact h1
  refine ⟨sumCallable a b 1, a, b, p, ?_, ha, h3, hp, fun r => rfl, h2⟩
  unfold HM.corrMatter sumC
  rw [ha, show h.corr2hMatter E = some b from h3]; rfl

/-- C39: without an analytic self-convolution the total tracer 1-halo correlation is the real-space
central-satellite integral plus the transform of the satellite-satellite power. -/
theorem C39_tracer_transformed (hs : SplLin E.isp) (ho : h.Ok) (hl : h.lamT = none) :
    ∃ f p, h.corr1hTracer E = some f ∧ h.power1hSS E = some p ∧ ∀ i < h.nr, f (h.rt i) =
      h.S E (fun j => h.dndm j * 2 * h.hod.csPairs (h.m j) * h.rhoT i j) h.tracerMmin / h.meanTracerDen E ^ 2
        + E.hankel p (h.rt i) := by
  obtain ⟨p, hp, _⟩ := power1hSS_ok (E := E) (h := h) hs ho
  obtain ⟨cs, h1, h2⟩ := corrES_ok (E := E) (h := h) hs ho fun i =>
    h.S E (fun j => h.dndm j * 2 * h.hod.csPairs (h.m j) * h.rhoT i j) h.tracerMmin
      / h.meanTracerDen E ^ 2 - 1
  obtain ⟨ss, h3, h4⟩ := corrES_ok (E := E) (h := h) hs ho fun i => E.hankel p (h.rt i)
  refine ⟨sumCallable cs ss 1, p, ?_, hp, ?_⟩
  · have : h.corr1hSS E = some ss := by unfold HM.corr1hSS; rw [hl]; simp only; rw [hp]; exact h3
    unfold HM.corr1hTracer sumC
    rw [hl]; simp only
    rw [this, show h.corr1hCS E = some cs from h1]; rfl
  · intro i hi
    simp only [sumCallable]; rw [h2 i hi, h4 i hi]; ring

/-- C39: with an analytic self-convolution, if the HOD does not enforce the central condition or its
integrals are cut at `M_min`, the total tracer 1-halo correlation is the sum of the satellite-satellite
and central-satellite correlations as excesses over random, i.e. the two published parts plus 2 (each of
them is returned minus 1). -/
theorem C39_tracer_analytic_partial (hs : SplLin E.isp) (ho : h.Ok) (lam : ℕ → ℕ → ℝ)
    (hl : h.lamT = some lam) (hc : h.hod.central = false ∨ h.cut) :
    ∃ f ss cs, h.corr1hTracer E = some f ∧ h.corr1hSS E = some ss ∧ h.corr1hCS E = some cs ∧
      ∀ i < h.nr, f (h.rt i) = (ss (h.rt i) + 1) + (cs (h.rt i) + 1) := by
  obtain ⟨ss, h1, h2⟩ := corrES_ok (E := E) (h := h) hs ho fun i =>
    h.S E (fun j => lam i j * h.dndm j * h.hod.ssPairs (h.m j)) h.tracerMmin / h.meanTracerDen E ^ 2 - 1
  obtain ⟨cs, h3, h4⟩ := corrES_ok (E := E) (h := h) hs ho fun i =>
    h.S E (fun j => h.dndm j * 2 * h.hod.csPairs (h.m j) * h.rhoT i j) h.tracerMmin
      / h.meanTracerDen E ^ 2 - 1
  obtain ⟨f, h5, h6⟩ := corrES_ok (E := E) (h := h) hs ho fun i =>
    h.S E (fun j => h.dndm j * (h.hod.ssPairs (h.m j) * lam i j + 2 * h.hod.csPairs (h.m j) * h.rhoT i j)
          * (if h.hod.central then h.cenOccInt j else 1)) h.tracerMmin
        / h.meanTracerDen E ^ 2
  refine ⟨f, ss, cs, ?_, ?_, h3, ?_⟩
  · unfold HM.corr1hTracer; rw [hl]; exact h5
  · unfold HM.corr1hSS; rw [hl]; exact h1
  · intro i hi
    rw [h6 i hi, h2 i hi, h4 i hi]
    have hone : ∀ j, (if h.hod.central then h.cenOccInt j else 1) = (1:ℝ) := by
      intro j
      rcases hc with hc | hc
      · rw [hc]; simp
      · unfold HM.cenOccInt; rw [cut_true hc]; simp
    rw [show ∀ a b : ℝ, (a - 1 + 1) + (b - 1 + 1) = a + b from fun a b => by ring, ← add_div, ← S_add hs ho]
    congr 2
    ext j
    rw [hone j]; ring

/-- C39 finding: otherwise (a smooth central occupation with the central condition, such as the default
`Zheng05` with `central=True`) every pair is weighted by the central occupation once more: the total is
the integral of the pairs times `N_c(m)`, although `cs_pairs` and `ss_pairs` contain it already. -/
theorem C39_tracer_extra_central_factor (hs : SplLin E.isp) (ho : h.Ok) (lam : ℕ → ℕ → ℝ)
    (hl : h.lamT = some lam) (h1 : h.hod.central = true) (h2 : h.hod.sharpCut = false) :
    ∃ f, h.corr1hTracer E = some f ∧ ∀ i < h.nr, f (h.rt i) =
      h.S E (fun j => h.hod.cenOcc (h.m j) * (h.dndm j *
        (h.hod.ssPairs (h.m j) * lam i j + 2 * h.hod.csPairs (h.m j) * h.rhoT i j))) none
        / h.meanTracerDen E ^ 2 := by
  obtain ⟨f, h5, h6⟩ := corrES_ok (E := E) (h := h) hs ho fun i =>
    h.S E (fun j => h.dndm j * (h.hod.ssPairs (h.m j) * lam i j + 2 * h.hod.csPairs (h.m j) * h.rhoT i j)
          * (if h.hod.central then h.cenOccInt j else 1)) h.tracerMmin
        / h.meanTracerDen E ^ 2
  refine ⟨f, by unfold HM.corr1hTracer; rw [hl]; exact h5, ?_⟩
  intro i hi
  have hm : h.tracerMmin = none := by unfold HM.tracerMmin; rw [h2]; simp
  rw [h6 i hi, hm]
  congr 2
  ext j
  rw [h1, if_pos rfl]
  unfold HM.cenOccInt
  rw [h2]
  simp only [Bool.false_and, Bool.false_eq_true, if_false]
  ring

/-- C39: the total tracer correlation is the 1-halo plus the 2-halo part without offset. -/
theorem C39_tracer_total (E : Env) (h : HM) (f : ℝ → ℝ) (hf : h.corrTracer E = some f) :
    ∃ a b, h.corr1hTracer E = some a ∧ h.corr2hTracer E = some b ∧ ∀ r, f r = a r + b r := by
  unfold HM.corrTracer at hf
  cases ha : h.corr1hTracer E with
  | none => rw [ha] at hf; simp at hf
  | some a =>
    cases hb : h.corr2hTracer E with
    | none => rw [ha, hb] at hf; simp at hf
    | some b =>
      rw [ha, hb] at hf
      simp only [Option.bind_eq_bind, Option.bind_some, Option.pure_def, Option.some.injEq] at hf
      exact ⟨a, b, rfl, rfl, fun r => by rw [← hf]⟩

/-- C39 finding: the tracer-matter cross-correlation is the sum of the transforms of its 1-halo and 2-halo
powers *plus one* at every separation. -/
theorem C39_cross_off_by_one (hs : SplLin E.isp) (ho : h.Ok) :
    ∃ f a b p q, h.corrCross E = some f ∧ h.corr1hCross E = some a ∧ h.corr2hCross E = some b ∧
      h.power1hCross E = some p ∧ h.power2hCross E = some q ∧ (∀ r, f r = a r + b r + 1) ∧
      ∀ i < h.nr, f (h.rt i) = E.hankel p (h.rt i) + E.hankel q (h.rt i) + 1 := by
  obtain ⟨p, hp, _, _⟩ := mkES_ok E hs.toSplOk { n := h.nk, x := h.k, y := h.power1hCrossTab E, lower := .powerLaw, upper := .powerLaw } rfl rfl ho.k (by simp) (by simp)
  obtain ⟨q, hq, _, _⟩ := mkES_ok E hs.toSplOk { n := h.nk, x := h.k, y := h.power2hCrossTab E, lower := .powerLaw, upper := if h.filtered then .callable fun _ => 0 else .powerLaw }
    rfl rfl ho.k (by simp) (by dsimp only; split <;> simp)
  obtain ⟨a, h1, h2⟩ := corrES_ok (E := E) (h := h) hs ho fun i => E.hankel p (h.rt i)
  obtain ⟨b, h3, h4⟩ := corrES_ok (E := E) (h := h) hs ho fun i => E.hankel q (h.rt i)
  have ha : h.corr1hCross E = some a := by
    unfold HM.corr1hCross; rw [show h.power1hCross E = some p from hp]; exact h1
  have hb : h.corr2hCross E = some b := by
    unfold HM.corr2hCross; rw [show h.power2hCross E = some q from hq]; exact h3
  refine ⟨sumCallable a b 1, a, b, p, q, ?_, ha, hb, hp, hq, fun _ => rfl, ?_⟩
  · unfold HM.corrCross sumC; rw [ha, hb]; rfl
  · intro i hi
    simp only [sumCallable]; rw [h2 i hi, h4 i hi]

/-- C39 finding: the 2-halo correlation is zero below the tabulated separations for every exclusion model,
also without halo exclusion (where a power law was intended). -/
theorem C39_two_halo_zero_below_table (hs : SplLin E.isp) (ho : h.Ok) :
    ∃ f, h.corr2hTracer E = some f ∧ ∀ t < h.rt 0, f t = 0 := by
  obtain ⟨f, _, h1, _, _, h2⟩ := corr2hMatter_ok (E := E) (h := h) hs ho
    (noExclRes E (h.tracerExcl E) h.bias) rfl (h.biasEffTracer E) false
  exact ⟨f, h1, h2⟩

/-! ## C44: large-scale limit of the 2-halo terms -/

theorem power2hTab_noExcl (e : Excl) (b : ℕ → ℝ) (hb : e.bias = .d1 b) (eb : ℝ) (j : ℕ) :
    h.power2hTab E (noExclRes E e b) eb false 0 j
      = e.splineIntegrate (fun n x y a c => splIntegral E.isp n x y a c)
          (fun im => e.pint j im * b im * e.m im) ^ 2 * h.phc (h.k j) := by
  unfold HM.power2hTab noExclRes noExclIntegrate noExclDensityMod
  simp only [hb, Bool.false_eq_true, if_false, mul_one]

/-- C44: for a tracer whose integrals are cut at `M_min` (inside the grid), without exclusion, at a
wavenumber where the profile is unity (large scales) the 2-halo tracer power is exactly
`bias_effective_tracer^2` times the halo-centre power. -/
theorem C44_tracer_large_scale (hs : SplLin E.isp) (ho : h.Ok) (hc : h.cut)
    (h1 : h.m 0 < 10 ^ h.hod.mmin) (j : ℕ) (hj : j < h.nk) (hu : ∀ i < h.nm, h.ut j i = 1)
    (hd : h.meanTracerDen E ≠ 0) :
    ∃ f, h.power2hTracer E = some f ∧ f (h.k j) = h.biasEffTracer E ^ 2 * h.phc (h.k j) := by
  obtain ⟨f, hf, hfn⟩ := power2hPrim_ok (E := E) (h := h) hs ho (noExclRes E (h.tracerExcl E) h.bias)
    (h.biasEffTracer E) false 0
  refine ⟨f, hf, ?_⟩
  rw [hfn j hj, power2hTab_noExcl _ _ rfl]
  congr 2
  have hm : h.tracerMmin = some (10 ^ h.hod.mmin) := by
    unfold HM.tracerMmin; rw [cut_true hc, if_pos rfl]
  have hx : (h.tracerExcl E).xmin = some (10 ^ h.hod.mmin) := by
    unfold Excl.xmin
    rw [show (h.tracerExcl E).xminArg = some (10 ^ h.hod.mmin) from hm]
    exact if_pos h1
  unfold Excl.splineIntegrate
  rw [hx]
  change splIntegral E.isp h.nm (fun i => Real.log (h.m i)) _ _ (Real.log (h.m (h.nm - 1))) = _
  unfold HM.biasEffTracer HM.S splineIntegral
  rw [hm]
  simp only [if_true, Option.elim]
  rw [eq_div_iff hd, mul_comm, ← splIntegral_smul hs.toSplOk]
  apply splIntegral_congr hs.toSplOk
  intro i hi
  change h.meanTracerDen E * (h.dndm i * h.totOccInt i / h.meanTracerDen E * h.ut j i * h.bias i * h.m i) = _
  rw [hu i hi]
  field_simp

/-- C44: for other tracers the mass integral of the 2-halo term is Simpson's rule on the grid, while
`bias_effective_tracer` is a spline integral of the same samples: the limit holds with the Simpson value
of the bias. -/
theorem C44_tracer_large_scale_nocut_partial (hs : SplLin E.isp) (ho : h.Ok) (hc : ¬ h.cut) (j : ℕ) (hj : j < h.nk)
    (hu : ∀ i < h.nm, h.ut j i = 1) :
    ∃ f, h.power2hTracer E = some f ∧ f (h.k j) =
      (simpsonDx h.nm (Real.log (h.m 1 / h.m 0)) (fun i => h.m i * (h.dndm i * h.hod.totalOcc (h.m i) * h.bias i))
        / h.meanTracerDen E) ^ 2 * h.phc (h.k j) := by
  obtain ⟨f, hf, hfn⟩ := power2hPrim_ok (E := E) (h := h) hs ho (noExclRes E (h.tracerExcl E) h.bias)
    (h.biasEffTracer E) false 0
  refine ⟨f, hf, ?_⟩
  rw [hfn j hj, power2hTab_noExcl _ _ rfl]
  congr 2
  have hm : h.tracerMmin = none := by
    unfold HM.tracerMmin; rw [cut_false hc]; simp
  have hx : (h.tracerExcl E).xmin = none := by
    unfold Excl.xmin
    rw [show (h.tracerExcl E).xminArg = none from hm]
  unfold Excl.splineIntegrate
  rw [hx]
  change simpsonDx h.nm (Real.log (h.m 1 / h.m 0)) _ = _
  rw [div_eq_inv_mul _ (h.meanTracerDen E), ← simpsonDx_mul]
  apply simpsonDx_congr ho.nm0
  intro i hi
  change h.dndm i * h.totOccInt i / h.meanTracerDen E * h.ut j i * h.bias i * h.m i = _
  rw [hu i hi]
  unfold HM.totOccInt HM.cenOccInt Hod.totalOcc
  rw [cut_false hc]
  simp only [Bool.false_eq_true, if_false]
  ring

/-- C44: for matter with `force_unity_dm_bias`, where the profile is unity the 2-halo power is the
halo-centre power times the squared ratio of the Simpson and the spline value of the same mass integral;
hence exactly the halo-centre power (unit bias) when the two rules agree. -/
theorem C44_matter_large_scale (hs : SplLin E.isp) (ho : h.Ok) (hf1 : h.forceUnity = true) (j : ℕ)
    (hj : j < h.nk) (hu : ∀ i < h.nm, h.uh j i = 1) (hr : h.rhoGtm ≠ 0) :
    ∃ f, h.power2hMatter E = some f ∧
      f (h.k j) = (simpsonDx h.nm (Real.log (h.m 1 / h.m 0))
            (fun i => h.m i * (h.m i * h.dndm i * h.bias i))
          / h.S E (fun i => h.m i * h.dndm i * h.bias i) none) ^ 2 * h.phc (h.k j) := by
  obtain ⟨f, hf, hfn⟩ := power2hPrim_ok (E := E) (h := h) hs ho (noExclRes E h.matterExcl h.bias)
    (h.biasEffMatter E) h.forceUnity 0
  refine ⟨f, hf, ?_⟩
  rw [hfn j hj]
  unfold HM.power2hTab
  rw [hf1]
  simp only [if_true]
  have hb : h.biasEffMatter E = 1 := by unfold HM.biasEffMatter; rw [hf1]; simp
  rw [hb]
  have e1 : (noExclRes E h.matterExcl h.bias).intg 0 j
      = (h.rhoGtm⁻¹ * simpsonDx h.nm (Real.log (h.m 1 / h.m 0))
            (fun i => h.m i * (h.m i * h.dndm i * h.bias i))) ^ 2 := by
    change noExclIntegrate _ h.matterExcl 0 j = _
    unfold noExclIntegrate
    simp only [HM.matterExcl]
    congr 1
    unfold Excl.splineIntegrate Excl.xmin Excl.dlnx
    simp only
    rw [← simpsonDx_mul]
    apply simpsonDx_congr ho.nm0
    intro i hi
    rw [hu i hi]
    ring
  have e2 : splineIntegral E.isp (noExclRes E h.matterExcl h.bias).n (noExclRes E h.matterExcl h.bias).m
      (fun i => (noExclRes E h.matterExcl h.bias).density i * (noExclRes E h.matterExcl h.bias).biasLast i)
      none none true = h.rhoGtm⁻¹ * h.S E (fun i => h.m i * h.dndm i * h.bias i) none := by
    rw [← S_smul hs]
    change splineIntegral E.isp h.nm h.m (fun i => h.dndm i * h.m i / h.rhoGtm * h.bias i) none none true = _
    unfold HM.S
    congr 1; ext i; ring
  rw [e1, e2]
  change _ * 1 * _ * _ = _
  have : h.rhoGtm⁻¹ ≠ 0 := inv_ne_zero hr
  rw [mul_one, ← mul_pow, mul_one_div, mul_div_mul_left _ _ this]

/-- C44: the effective matter bias is one when forced, and otherwise the spline integral of
`m n(m) b(m)` divided by the matter density in haloes. -/
theorem C44_matter_bias (hs : SplLin E.isp) (ho : h.Ok) :
    (h.forceUnity = true → h.biasEffMatter E = 1) ∧
    (h.forceUnity = false → ∃ g : ℝ → ℝ, h.biasEffMatter E = (∫ M in h.m 0..h.m (h.nm - 1), g M) / h.rhoGtm ∧
      ∀ i < h.nm, g (h.m i) = h.m i * h.dndm i * h.bias i) := by
  refine ⟨fun hf => by unfold HM.biasEffMatter; rw [hf]; simp, fun hf => ?_⟩
  have := C13_log E.isp hs.toSplOk h.nm h.m (fun i => h.m i * h.dndm i * h.bias i)
    none none ho.m.pos ho.m.inc ho.nm0 (hs.cont _ _ _ ho.m.log_inc)
    (by simpa using ho.m.pos 0 ho.nm0) (by simp)
    (by simpa using ho.m.mono (Nat.zero_le _) (by have := ho.nm0; omega)) (by simp)
  simp only [Option.getD_none] at this
  refine ⟨fun t => E.isp h.nm (fun i => Real.log (h.m i)) (fun i => h.m i * (h.m i * h.dndm i * h.bias i))
    (Real.log t) / t, ?_, this.2⟩
  unfold HM.biasEffMatter HM.S
  rw [hf, this.1]; simp

/-- C44 finding: with exclusion or scale-dependent bias, the wavenumbers below 1e-2 are overwritten by the
linear power times the effective bias — not its square; and the overwriting needs the halo-model grid
`k_hm` to have as many points as the grid `k`, otherwise it raises. -/
theorem C44_low_k_overwrite (corr : ℝ → ℝ) (power : ℕ → ℝ) (nkhm : ℕ) (khm : ℕ → ℝ) (b : ℝ)
    (j : ℕ) (hj : j < nkhm) (hlow : khm j < 1e-2) :
    (nkhm ≠ h.nk → h.power2hFromCorr E corr power nkhm khm b = none) ∧
    (nkhm = h.nk → ∃ out, h.power2hFromCorr E corr power nkhm khm b = some out ∧ out j = b * power j ∧
      (power j ≠ 0 → (out j = b ^ 2 * power j ↔ b = 0 ∨ b = 1))) := by
  classical
  unfold HM.power2hFromCorr
  have hex : ∃ j < nkhm, khm j < 1e-2 := ⟨j, hj, hlow⟩
  constructor
  · intro hne; rw [if_pos hex, if_neg hne]
  · intro he
    rw [if_pos hex, if_pos he]
    refine ⟨_, rfl, by simp only [if_pos hlow]; ring, ?_⟩
    intro hp
    simp only [if_pos hlow]
    constructor
    · intro h1
      have h2 : power j * (b * (b - 1)) = 0 := by linear_combination -h1
      rcases mul_eq_zero.mp h2 with h3 | h3
      · exact absurd h3 hp
      · rcases mul_eq_zero.mp h3 with h4 | h4
        · left; exact h4
        · right; linarith
    · rintro (h1 | h1) <;> rw [h1] <;> ring

end
end Halomod.HaloModel
