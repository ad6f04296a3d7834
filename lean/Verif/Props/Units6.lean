import Verif.Props.Units5
import Verif.Props.CodeEnv

/-! # C78: correlation functions in other units, and the transform between spectra and correlations -/
namespace Halomod.HaloModel

open Finset Halomod.Tools Halomod.Exclusion Halomod.HOD

section
variable {E : Env} {h : HM} {μ l : ℝ} {hod' : Hod}

theorem trapz_smul' (n : ℕ) (d c : ℝ) (f : ℕ → ℝ) : trapzDx n d (fun i => c * f i) = c * trapzDx n d f := by
  unfold trapzDx
  simp only [mul_sum]
  refine sum_congr rfl fun i _ => ?_
  ring

theorem corr_units (he : EnvUnits E) (hp : h.Pos) (hl : 0 < l) (y y' : ℕ → ℝ) (hy : ∀ j, y' j = y j) :
    SameCorrelation l ((units μ l hod' h).corrES E y') (h.corrES E y) := by
  have := tab_units he { n := h.nr, x := h.rt, y := y, lower := .powerLaw, upper := .callable fun _ => 0 } hl (κ := 1) (by norm_num) hp.r y' (fun j => by rw [hy, one_mul]) rfl rfl trivial (Or.inr fun _ => rfl)
  exact InUnits.correlation this

/-- C78: the one-halo correlations computed from the profiles are the same functions of the separation in other units. -/
theorem C78_one_halo_correlation (he : EnvUnits E) (hh : HodUnits μ h.hod hod') (hp : h.Pos) (hμ : 0 < μ) (hl : 0 < l) :
    SameCorrelation l ((units μ l hod' h).corr1hCS E) (h.corr1hCS E) ∧
    (∀ lam, h.lamH = some lam → SameCorrelation l ((units μ l hod' h).corr1hMatter E) (h.corr1hMatter E)) ∧
    (∀ lam, h.lamT = some lam → SameCorrelation l ((units μ l hod' h).corr1hSS E) (h.corr1hSS E) ∧
      SameCorrelation l ((units μ l hod' h).corr1hTracer E) (h.corr1hTracer E)) := by
  have hμ0 := hμ.ne'
  have hl0 := hl.ne'
  have hd := density_units (E := E) he hh hp hμ hl
  have key (s n : ℝ) : μ * (1 / (μ * l ^ 6)) * s / (n / l ^ 3) ^ 2 = s / n ^ 2 := by
    rcases eq_or_ne n 0 with rfl | hn
    · simp
    · field_simp
  refine ⟨?_, fun lam hlam => ?_, fun lam hlam => ⟨?_, ?_⟩⟩
  · refine corr_units (h := h) he hp hl (fun i => h.S E (fun j => h.dndm j * 2 * h.hod.csPairs (h.m j) * h.rhoT i j) h.tracerMmin / h.meanTracerDen E ^ 2 - 1)
      (fun i => (units μ l hod' h).S E (fun j => h.dndm j / (μ * l ^ 3) * 2 * hod'.csPairs (μ * h.m j) * (h.rhoT i j / l ^ 3)) (units μ l hod' h).tracerMmin / (units μ l hod' h).meanTracerDen E ^ 2 - 1) fun i => ?_
    rw [hd, T_units he hh hp hμ (1 / (μ * l ^ 6)) (fun j => h.dndm j * 2 * h.hod.csPairs (h.m j) * h.rhoT i j) _ fun j => by
      rw [hh.cs _ (hp.m j)]; field_simp, key]
  · have e' : (units μ l hod' h).lamH = some fun i j => lam i j / l ^ 3 := by change h.lamH.map _ = _; rw [hlam]; rfl
    simp only [HM.corr1hMatter, hlam, e']
    refine corr_units (h := h) he hp hl (fun i => trapzDx h.nm (Real.log 10 * h.dlog10m) (fun j => h.dndm j * h.m j ^ 3 * lam i j) / h.meanDensity0 ^ 2 - 1)
      (fun i => trapzDx h.nm (Real.log 10 * h.dlog10m) (fun j => h.dndm j / (μ * l ^ 3) * (μ * h.m j) ^ 3 * (lam i j / l ^ 3)) / (μ / l ^ 3 * h.meanDensity0) ^ 2 - 1) fun i => ?_
    rw [show (fun j => h.dndm j / (μ * l ^ 3) * (μ * h.m j) ^ 3 * (lam i j / l ^ 3)) = fun j => (μ / l ^ 3) ^ 2 * (h.dndm j * h.m j ^ 3 * lam i j) from funext fun j => by field_simp,
      trapz_smul', mul_pow, mul_div_mul_left _ _ (by positivity)]
  · have e' : (units μ l hod' h).lamT = some fun i j => lam i j / l ^ 3 := by change h.lamT.map _ = _; rw [hlam]; rfl
    simp only [HM.corr1hSS, hlam, e']
    refine corr_units (h := h) he hp hl (fun i => h.S E (fun j => lam i j * h.dndm j * h.hod.ssPairs (h.m j)) h.tracerMmin / h.meanTracerDen E ^ 2 - 1)
      (fun i => (units μ l hod' h).S E (fun j => lam i j / l ^ 3 * (h.dndm j / (μ * l ^ 3)) * hod'.ssPairs (μ * h.m j)) (units μ l hod' h).tracerMmin / (units μ l hod' h).meanTracerDen E ^ 2 - 1) fun i => ?_
    rw [hd, T_units he hh hp hμ (1 / (μ * l ^ 6)) (fun j => lam i j * h.dndm j * h.hod.ssPairs (h.m j)) _ fun j => by
      rw [hh.ss _ (hp.m j)]; field_simp, key]
  · have e' : (units μ l hod' h).lamT = some fun i j => lam i j / l ^ 3 := by change h.lamT.map _ = _; rw [hlam]; rfl
    simp only [HM.corr1hTracer, hlam, e']
    refine corr_units (h := h) he hp hl
      (fun i => h.S E (fun j => h.dndm j * (h.hod.ssPairs (h.m j) * lam i j + 2 * h.hod.csPairs (h.m j) * h.rhoT i j) * (if h.hod.central then h.cenOccInt j else 1)) h.tracerMmin / h.meanTracerDen E ^ 2)
      (fun i => (units μ l hod' h).S E (fun j => h.dndm j / (μ * l ^ 3) * (hod'.ssPairs (μ * h.m j) * (lam i j / l ^ 3) + 2 * hod'.csPairs (μ * h.m j) * (h.rhoT i j / l ^ 3)) * (if hod'.central then (units μ l hod' h).cenOccInt j else 1)) (units μ l hod' h).tracerMmin / (units μ l hod' h).meanTracerDen E ^ 2) fun i => ?_
    rw [hd, T_units he hh hp hμ (1 / (μ * l ^ 6)) (fun j => h.dndm j * (h.hod.ssPairs (h.m j) * lam i j + 2 * h.hod.csPairs (h.m j) * h.rhoT i j) * (if h.hod.central then h.cenOccInt j else 1)) _ fun j => by
      rw [hh.ss _ (hp.m j), hh.cs _ (hp.m j), hh.central, units_cenOcc hh hp]; field_simp, key]

/-- C78: with any exclusion model and scale-dependent bias, the two-halo correlations of matter and of tracers are, at every tabulated separation, the numerical
transforms of one and the same spectrum, written in the two systems of units. -/
theorem C78_two_halo_correlation (he : EnvUnits E) (hh : HodUnits μ h.hod hod') (hp : h.Pos) (ho : h.Ok) (hd : 0 < h.overdensity * h.meanDensity0) (hlin : h.linPow (h.k 0) ≠ 0)
    (hμ : 0 < μ) (hl : 0 < l) (junk : Mat) (cls : ExclCls) (sd : Option (ℕ → ℝ)) :
    (∃ f g, (units μ l hod' h).corr2hTracerX E junk cls sd = some f ∧ h.corr2hTracerX E junk cls sd = some g ∧ ∀ i < h.nr, ∃ q' q : ℝ → ℝ,
      (∀ k, 0 < k → q' k = l ^ 3 * q (l * k)) ∧ f (l * h.rt i) = E.hankelFine q' (l * h.rt i) ∧ g (h.rt i) = E.hankelFine q (h.rt i)) ∧
    (∃ f g, (units μ l hod' h).corr2hMatterX E junk cls sd = some f ∧ h.corr2hMatterX E junk cls sd = some g ∧ ∀ i < h.nr, ∃ q' q : ℝ → ℝ,
      (∀ k, 0 < k → q' k = l ^ 3 * q (l * k)) ∧ f (l * h.rt i) = E.hankelFine q' (l * h.rt i) ∧ g (h.rt i) = E.hankelFine q (h.rt i)) := by
  have hb := C78_averages he hh hp hμ hl
  have main (e : Excl) (hpe : ExclPos e) (eb : ℝ) (db : Bool) : ∃ f g, (units μ l hod' h).corr2h E (exclRes E junk cls (unitsExcl μ l e) h.nr) eb db = some f ∧
      h.corr2h E (exclRes E junk cls e h.nr) eb db = some g ∧ ∀ i < h.nr, ∃ q' q : ℝ → ℝ,
        (∀ k, 0 < k → q' k = l ^ 3 * q (l * k)) ∧ f (l * h.rt i) = E.hankelFine q' (l * h.rt i) ∧ g (h.rt i) = E.hankelFine q (h.rt i) := by
    have hr : (exclRes E junk cls e h.nr).rows = 1 ∨ (exclRes E junk cls e h.nr).rows = h.nr := by
      change exclRows cls e h.nr = 1 ∨ exclRows cls e h.nr = h.nr
      cases cls <;> simp only [exclRows, or_true]
      unfold noExclRows
      cases e.bias <;> simp
    have hr' : (exclRes E junk cls (unitsExcl μ l e) h.nr).rows = (exclRes E junk cls e h.nr).rows := by
      change exclRows cls (unitsExcl μ l e) h.nr = exclRows cls e h.nr
      cases cls <;> rfl
    obtain ⟨f, f1, -, f2⟩ := corr2h_rows (h := units μ l hod' h) he.lin (units_ok ho hμ hl) (exclRes E junk cls (unitsExcl μ l e) h.nr) (by rw [hr']; exact hr) eb db
    obtain ⟨g, g1, -, g2⟩ := corr2h_rows (h := h) he.lin ho (exclRes E junk cls e h.nr) hr eb db
    refine ⟨f, g, f1, g1, fun i hi => ?_⟩
    obtain ⟨p', p1, p2⟩ := f2 i hi
    obtain ⟨p, q1, q2⟩ := g2 i hi
    rw [hr'] at p1
    refine ⟨p', p, fun k hk => ?_, p2, q2⟩
    rcases prim_units (hod' := hod') he junk cls e hpe hp hlin hμ hl eb db h.nr (if (exclRes E junk cls e h.nr).rows = 1 then 0 else i) with ⟨h1, -⟩ | ⟨a, b, h1, h2, h3⟩
    · rw [p1] at h1
      cases h1
    · rw [p1] at h1
      rw [q1] at h2
      cases h1
      cases h2
      exact h3 k hk
  constructor
  · have := main (h.tracerExclX E sd) (tracerExcl_pos hp hd sd) (h.biasEffTracer E) false
    rw [← units_tracerExcl he hh hp hμ hl sd] at this
    unfold HM.corr2hTracerX
    rw [hb.2.1]
    exact this
  · have := main (h.matterExclX sd) (matterExcl_pos hp hd sd) (h.biasEffMatter E) h.forceUnity
    rw [← units_matterExcl hμ hl sd] at this
    unfold HM.corr2hMatterX
    rw [hb.2.2.2.2.1]
    exact this

end

/-! ### the lower limit of the one-halo tracer integrals -/

section
variable {E : Env} {h : HM} {μ l : ℝ} {hod' : Hod}

theorem ss_limit (he : EnvUnits E) (hh : HodUnits μ h.hod hod') (hp : h.Pos) (hμ : 0 < μ) (hl : 0 < l) (hv' : 0 < hod'.mmin) (j : ℕ) :
    (units μ l hod' h).power1hSSTab E j =
      l ^ 3 * (h.S E (fun i => h.ut j i ^ 2 * h.dndm i * h.hod.ssPairs (h.m i)) (some (h.oneHaloMmin (hod'.mmin / μ) j)) / h.meanTracerDen E ^ 2) := by
  unfold HM.power1hSSTab HM.do1halo
  rw [density_units he hh hp hμ hl]
  change (units μ l hod' h).S E (fun i => h.ut j i ^ 2 * (h.dndm i / (μ * l ^ 3)) * hod'.ssPairs (μ * h.m i)) (some ((units μ l hod' h).oneHaloMmin hod'.mmin j)) / _ = _
  have hpos : 0 < h.oneHaloMmin (hod'.mmin / μ) j := by
    unfold HM.oneHaloMmin
    dsimp only
    split_ifs
    · exact lt_max_of_lt_left (by positivity)
    · positivity
  rw [show hod'.mmin = μ * (hod'.mmin / μ) by field_simp, one_units hμ hl, show μ * (hod'.mmin / μ) / μ = hod'.mmin / μ by field_simp]
  have := S_units (l := l) (hod' := hod') he hp hμ (1 / (μ * l ^ 3)) (fun i => h.ut j i ^ 2 * h.dndm i * h.hod.ssPairs (h.m i))
    (fun i => h.ut j i ^ 2 * (h.dndm i / (μ * l ^ 3)) * hod'.ssPairs (μ * h.m i)) (fun i => by rw [hh.ss _ (hp.m i)]; ring)
    (some (h.oneHaloMmin (hod'.mmin / μ) j)) fun w hw => by cases hw; exact hpos
  rw [Option.map_some] at this
  rw [this, sq_units hl, if_neg hμ.ne']

/-- C78 finding: the one-halo spectrum of satellite pairs is not the same in units in which the logarithm of the minimum mass, taken as a mass, lies inside the mass table
although it lay below it in the old ones: the integral starts there, and (with positive integrands) is smaller. -/
theorem C78_lower_limit_breaks (he : EnvUnits E) (hh : HodUnits μ h.hod hod') (hp : h.Pos) (ho : h.Ok) (hμ : 0 < μ) (hl : 0 < l)
    (ht : h.turnover = false) (hn : h.meanTracerDen E ≠ 0) (hv : 0 < h.hod.mmin ∧ h.hod.mmin ≤ h.m 0) (hv' : μ * h.m 0 < hod'.mmin) (hv2 : hod'.mmin ≤ μ * h.m (h.nm - 1)) (j : ℕ)
    (hf : ∀ t ∈ Set.Ioc (Real.log (h.m 0)) (Real.log (h.m (h.nm - 1))),
      0 < E.isp h.nm (fun i => Real.log (h.m i)) (fun i => h.m i * (h.ut j i ^ 2 * h.dndm i * h.hod.ssPairs (h.m i))) t) :
    (units μ l hod' h).power1hSSTab E j < l ^ 3 * h.power1hSSTab E j := by
  have hm0 := hp.m 0
  have hpos' : 0 < hod'.mmin := (mul_pos hμ hm0).trans hv'
  have hw : h.m 0 < hod'.mmin / μ := by rw [lt_div_iff₀ hμ, mul_comm]; exact hv'
  have hw2 : hod'.mmin / μ ≤ h.m (h.nm - 1) := by rw [div_le_iff₀ hμ, mul_comm]; exact hv2
  rw [ss_limit he hh hp hμ hl hpos']
  unfold HM.power1hSSTab HM.do1halo HM.oneHaloMmin
  simp only [ht, Bool.false_eq_true, if_false]
  rw [S_start he.lin ho _ _ hv.1 hv.2]
  refine mul_lt_mul_of_pos_left (div_lt_div_of_pos_right ?_ (by positivity)) (pow_pos hl 3)
  unfold HM.S splineIntegral splIntegral
  simp only [if_true, Option.elim]
  set x : ℕ → ℝ := fun i => Real.log (h.m i) with hx
  set y : ℕ → ℝ := fun i => h.m i * (h.ut j i ^ 2 * h.dndm i * h.hod.ssPairs (h.m i)) with hy
  have h1 : x 0 < Real.log (hod'.mmin / μ) := Real.log_lt_log hm0 hw
  have h2 : Real.log (hod'.mmin / μ) ≤ x (h.nm - 1) := Real.log_le_log (hm0.trans hw) hw2
  have hc : Continuous (E.isp h.nm x y) := he.lin.cont _ _ _ ho.m.log_inc
  have e (a b : ℝ) (ha : x 0 ≤ a) (hab : a ≤ b) (hb : b ≤ x (h.nm - 1)) :
      ∫ t in a..b, Set.indicator (Set.Icc (x 0) (x (h.nm - 1))) (E.isp h.nm x y) t = ∫ t in a..b, E.isp h.nm x y t := by
    refine intervalIntegral.integral_congr fun t ht => ?_
    rw [Set.uIcc_of_le hab] at ht
    exact Set.indicator_of_mem (show t ∈ Set.Icc _ _ from ⟨ha.trans ht.1, ht.2.trans hb⟩) _
  change ∫ t in Real.log (hod'.mmin / μ)..x (h.nm - 1), _ < ∫ t in x 0..x (h.nm - 1), _
  rw [e _ _ h1.le h2 le_rfl, e _ _ le_rfl (h1.le.trans h2) le_rfl,
    ← intervalIntegral.integral_add_adjacent_intervals (hc.intervalIntegrable (x 0) (Real.log (hod'.mmin / μ))) (hc.intervalIntegrable _ _), lt_add_iff_pos_left]
  exact intervalIntegral.intervalIntegral_pos_of_pos_on (hc.intervalIntegrable _ _) (fun t ht => hf t ⟨ht.1, ht.2.le.trans h2⟩) h1

end

/-! ### the transform of the code -/

theorem hSum_units {s l : ℝ} (hs : 0 < s) (hl : 0 < l) {r : ℝ} (hr : 0 < r) (chunk : ℕ) (q q' : ℝ → ℝ) (hq : ∀ k, 0 < k → q' k = l ^ 3 * q (l * k)) (j : ℕ) :
    hSum s (l * r) chunk q' j = hSum s r chunk (fun k => l ^ 3 * q k) j := by
  unfold hSum
  refine sum_congr rfl fun n hn => ?_
  rw [mem_Ico] at hn
  have hx : 0 < ogX s n := by
    have := ogX_strictMono hs (show 0 < n by omega)
    rwa [show ogX s 0 = 0 by simp [ogX]] at this
  rw [hq _ (by positivity)]
  congr 3
  have := hl.ne'
  field_simp

/-- the transform of a converted spectrum at a converted separation. -/
theorem hankel_units {s l : ℝ} (hs : 0 < s) (hl : 0 < l) {r : ℝ} (hr : 0 < r) (atol rtol : ℝ) (chunk : ℕ) (q q' : ℝ → ℝ) (hq : ∀ k, 0 < k → q' k = l ^ 3 * q (l * k)) :
    hStop s atol rtol (l * r) chunk q' = hStop s atol rtol r chunk (fun k => l ^ 3 * q k) ∧
    hankelAt s atol rtol chunk ['r'] q' (l * r) = hankelAt s atol rtol chunk ['r'] (fun k => l ^ 3 * q k) r / l ^ 3 := by
  have e := hSum_units hs hl hr chunk q q' hq
  have hst : hStop s atol rtol (l * r) chunk q' = hStop s atol rtol r chunk (fun k => l ^ 3 * q k) := by
    unfold hStop HStops
    simp only [e]
  refine ⟨hst, ?_⟩
  unfold hankelAt
  rw [hst, e]
  unfold hNorm
  rw [if_pos rfl, if_pos rfl, div_div]
  congr 1
  ring

/-- C78: the code's transform of a spectrum into a correlation function gives the same correlation in other units of length whenever its sum ends after
the same number of chunks (the node positions scale with the units). -/
theorem C78_transform {s l : ℝ} (hs : 0 < s) (hl : 0 < l) {r : ℝ} (hr : 0 < r) (atol rtol : ℝ) (chunk : ℕ) (q q' : ℝ → ℝ) (hq : ∀ k, 0 < k → q' k = l ^ 3 * q (l * k))
    (hst : hStop s atol rtol (l * r) chunk q' = hStop s atol rtol r chunk q) :
    hankelAt s atol rtol chunk ['r'] q' (l * r) = hankelAt s atol rtol chunk ['r'] q r := by
  obtain ⟨h1, h2⟩ := hankel_units hs hl hr atol rtol chunk q q' hq
  rw [h2, (C68_linear_same_nodes ['r'] q q (l ^ 3)).1 (h1.symm.trans hst), mul_div_cancel_left₀ _ (by positivity)]

/-- C78: hence the code's two-halo correlations are the same in other units at every separation where its sum ends after the same number of chunks. -/
theorem C78_code_correlation_partial {isp : Spl} {us : USpl} {h : HM} {μ l : ℝ} {hod' : Hod} (he : EnvUnits (codeEnv isp us)) (hh : HodUnits μ h.hod hod') (hp : h.Pos) (ho : h.Ok)
    (hd : 0 < h.overdensity * h.meanDensity0) (hlin : h.linPow (h.k 0) ≠ 0) (hμ : 0 < μ) (hl : 0 < l) (junk : Mat) (cls : ExclCls) (sd : Option (ℕ → ℝ)) :
    ∃ f g, (units μ l hod' h).corr2hTracerX (codeEnv isp us) junk cls sd = some f ∧ h.corr2hTracerX (codeEnv isp us) junk cls sd = some g ∧ ∀ i < h.nr, ∃ q' q : ℝ → ℝ,
      (∀ k, 0 < k → q' k = l ^ 3 * q (l * k)) ∧
      (hStop 1e-4 1e-8 1e-8 (l * h.rt i) 100 q' = hStop 1e-4 1e-8 1e-8 (h.rt i) 100 q → f (l * h.rt i) = g (h.rt i)) := by
  obtain ⟨f, g, h1, h2, h3⟩ := (C78_two_halo_correlation he hh hp ho hd hlin hμ hl junk cls sd).1
  refine ⟨f, g, h1, h2, fun i hi => ?_⟩
  obtain ⟨q', q, e1, e2, e3⟩ := h3 i hi
  refine ⟨q', q, e1, fun hst => ?_⟩
  rw [e2, e3]
  exact C78_transform (by norm_num) hl (hp.r i) _ _ _ q q' e1 hst

/-- C78 finding: which it need not do, because the sum is compared with an absolute tolerance before it is divided by the cube of the separation: at every separation there is a spectrum whose
correlation comes out different in all large enough units of length (so that few of them make an old one). -/
theorem C78_tolerance_breaks {r : ℝ} (hr : 0 < r) : ∃ q : ℝ → ℝ, ∃ l0 > 0, ∀ l, 0 < l → l < l0 → ∀ q' : ℝ → ℝ, (∀ k, 0 < k → q' k = l ^ 3 * q (l * k)) →
    hankelAt 1e-4 1e-8 1e-8 100 ['r'] q' (l * r) ≠ hankelAt 1e-4 1e-8 1e-8 100 ['r'] q r := by
  obtain ⟨n, h1, h2, hw⟩ := ogW_second
  obtain ⟨f, -, -, f1, f2⟩ := two_nodes (chunk := 100) (by norm_num) hr (by omega) (by omega) (by norm_num) hw
  obtain ⟨c0, hc0, hb⟩ := breaks_of_sums ['r'] hr f f1 (f2 2 (by norm_num)) (f2 3 (by norm_num))
  refine ⟨f, min c0 1, lt_min hc0 (by norm_num), fun l hl hlt q' hq h => ?_⟩
  have hl1 : l < 1 := hlt.trans_le (min_le_right _ _)
  have hl3 : l ^ 3 < c0 := lt_of_le_of_lt (by nlinarith [mul_pos hl hl, mul_pos (mul_pos hl hl) hl, mul_le_mul hl1.le hl1.le hl.le (by norm_num : (0:ℝ) ≤ 1)]) (hlt.trans_le (min_le_left _ _))
  rw [(hankel_units (by norm_num) hl hr _ _ 100 f q' hq).2, div_eq_iff (by positivity), mul_comm] at h
  exact hb (l ^ 3) (by positivity) hl3 h

end Halomod.HaloModel

namespace Halomod.HaloModel

open Halomod.Tools Halomod.HOD

/-- the package's splines with power laws through the first sample. -/
noncomputable def unitE : Env := { isp := cubicSpl, us := fun n _ y _ => if 0 < n then y 0 else 0, hankel := fun f r => f r }

theorem unitE_ok : EnvUnits unitE := ⟨cubicSpl_lin, cubicSpl_units, sdE_us, fun _ _ _ _ _ => rfl⟩

theorem demo_pos : demoHM.Pos where
  m i := by simp only [demoHM]; positivity
  k j := by simp only [demoHM]; positivity
  r i := by simp only [demoHM]; positivity

/-- a concrete model meets the hypotheses: ten new units of mass and a thousandth of a unit of length (as from kiloparsecs to megaparsecs) to an old one. -/
example : (units (10 ^ (1:ℝ)) 0.001 (zehavi05 { M_min := 12 + 1, M_1 := 12.851 + 1 } true) demoHM).meanTracerDen unitE = demoHM.meanTracerDen unitE / 0.001 ^ 3 ∧
    SameSpectrum 0.001 ((units (10 ^ (1:ℝ)) 0.001 (zehavi05 { M_min := 12 + 1, M_1 := 12.851 + 1 } true) demoHM).powerTracer unitE) (demoHM.powerTracer unitE) ∧
    SameCorrelation 0.001 ((units (10 ^ (1:ℝ)) 0.001 (zehavi05 { M_min := 12 + 1, M_1 := 12.851 + 1 } true) demoHM).corr1hTracer unitE) (demoHM.corr1hTracer unitE) := by
  have hh : HodUnits (10 ^ (1:ℝ)) demoHM.hod (zehavi05 { M_min := 12 + 1, M_1 := 12.851 + 1 } true) := (C78_occupations 1 true).1 { M_min := 12 }
  have hμ : (0:ℝ) < 10 ^ (1:ℝ) := by positivity
  have hm0 : (100:ℝ) ≤ 10 ^ ((11.5:ℝ) + (0:ℕ)) := by
    calc (100:ℝ) = 10 ^ (2:ℝ) := by norm_num
      _ ≤ _ := Real.rpow_le_rpow_of_exponent_le (by norm_num) (by norm_num)
  refine ⟨(C78_averages unitE_ok hh demo_pos hμ (by norm_num)).1, ?_, ?_⟩
  · refine (C78_total_power_partial unitE_ok hh demo_pos (by norm_num [demoHM]) (by norm_num [demoHM]) hμ (by norm_num)).2.2 demo_ok ⟨?_, ?_⟩ ⟨?_, ?_⟩
    · change (0:ℝ) < 12; norm_num
    · change (12:ℝ) ≤ 10 ^ ((11.5:ℝ) + (0:ℕ)); linarith
    · change (0:ℝ) < 12 + 1; norm_num
    · change (12:ℝ) + 1 ≤ 10 ^ (1:ℝ) * 10 ^ ((11.5:ℝ) + (0:ℕ)); rw [Real.rpow_one]; linarith
  · exact ((C78_one_halo_correlation unitE_ok hh demo_pos hμ (by norm_num)).2.2 _ rfl).2

/-! ### a concrete model for the lower limit -/

theorem cubicSpl_two (x y : ℕ → ℝ) (hx : x 0 < x 1) (t : ℝ) : cubicSpl 2 x y t = y 0 + (y 1 - y 0) / (x 1 - x 0) * (t - x 0) := by
  have hinc : ∀ i j, i < j → j < 2 → x i < x j := fun i j h1 h2 => by
    obtain rfl : i = 0 := by omega
    obtain rfl : j = 1 := by omega
    exact hx
  rw [cubicSpl_of_coef hinc (fun k => if k = 0 then y 0 else (y 1 - y 0) / (x 1 - x 0)) ?_ t]
  · simp [Finset.sum_range_succ, splBasis]
  · intro i hi
    have : x 1 - x 0 ≠ 0 := (sub_pos.2 hx).ne'
    interval_cases i <;> simp [Finset.sum_range_succ, splBasis]
    field_simp
    ring

theorem cubicSpl_two_pos (x y : ℕ → ℝ) (hx : x 0 < x 1) (h0 : 0 < y 0) (h1 : 0 < y 1) (t : ℝ) (ht : t ∈ Set.Icc (x 0) (x 1)) : 0 < cubicSpl 2 x y t := by
  rw [cubicSpl_two x y hx]
  have hd : 0 < x 1 - x 0 := sub_pos.2 hx
  have : y 0 + (y 1 - y 0) / (x 1 - x 0) * (t - x 0) = (y 0 * (x 1 - t) + y 1 * (t - x 0)) / (x 1 - x 0) := by field_simp; ring
  rw [this]
  apply div_pos _ hd
  rcases ht.1.eq_or_lt with e | e
  · rw [← e]; nlinarith
  · nlinarith [mul_pos h1 (sub_pos.2 e), mul_nonneg h0.le (sub_nonneg.2 ht.2)]

/-- two masses, satellites as many in every halo, a minimum mass nearly a decade above the start of the table. -/
noncomputable def limHM : HM := { demoHM with dndm := fun i => 1 / 10 ^ ((11.5:ℝ) + i), hod := zehavi05 { M_min := 12.4, alpha := 0 } false, ut := fun _ _ => 1 }

theorem lim_sat (m : ℝ) : limHM.hod.satOcc m = 1 := by
  simp [limHM, zehavi05, poisson, satelliteOccupation, zehaviSat]

theorem lim_den : limHM.meanTracerDen unitE ≠ 0 := by
  have hx : Real.log (limHM.m 0) < Real.log (limHM.m 1) := Real.log_lt_log (demo_pos.m 0) (demo_ok.m.inc 0 1 (by norm_num) (by norm_num [demoHM]))
  have hy (i : ℕ) : 0 < limHM.m i * (limHM.dndm i * limHM.totOccInt i) := by
    have h1 : 0 < limHM.m i := demo_pos.m i
    have h2 : 0 < limHM.dndm i := by simp only [limHM]; positivity
    have h3 : 0 < limHM.totOccInt i := by
      unfold HM.totOccInt
      rw [lim_sat]
      have : 0 ≤ limHM.cenOccInt i := by
        unfold HM.cenOccInt
        split_ifs
        · norm_num
        · simp only [limHM, zehavi05, poisson, zehaviCen]; split_ifs <;> norm_num
      linarith
    positivity
  unfold HM.meanTracerDen HM.S splineIntegral splIntegral
  rw [show limHM.tracerMmin = none by simp [HM.tracerMmin, limHM, zehavi05, poisson]]
  simp only [if_true, Option.elim]
  refine ne_of_gt (intervalIntegral.intervalIntegral_pos_of_pos_on ?_ (fun t ht => ?_) hx)
  · have hc : Continuous (unitE.isp 2 (fun i => Real.log (limHM.m i)) fun i => limHM.m i * (limHM.dndm i * limHM.totOccInt i)) :=
      cubicSpl_lin.cont 2 (fun i => Real.log (limHM.m i)) (fun i => limHM.m i * (limHM.dndm i * limHM.totOccInt i)) fun i j h1 h2 => by
        obtain rfl : i = 0 := by omega
        obtain rfl : j = 1 := by omega
        exact hx
    refine (hc.intervalIntegrable _ _).congr_uIoo fun t ht => ?_
    change t ∈ Set.uIoo (Real.log (limHM.m 0)) (Real.log (limHM.m 1)) at ht
    rw [Set.uIoo_of_le hx.le] at ht
    exact (Set.indicator_of_mem (show t ∈ Set.Icc _ _ from ⟨ht.1.le, ht.2.le⟩) _).symm
  · rw [Set.indicator_of_mem (show t ∈ Set.Icc _ _ from ⟨ht.1.le, ht.2.le⟩)]
    exact cubicSpl_two_pos (fun i => Real.log (limHM.m i)) (fun i => limHM.m i * (limHM.dndm i * limHM.totOccInt i)) hx (hy 0) (hy 1) t ⟨ht.1.le, ht.2.le⟩

/-- it meets the hypotheses of `C78_lower_limit_breaks`: in units of `10 ** 12` old units of mass its satellite-pair spectrum is another. -/
example : (units (10 ^ (-12:ℝ)) 1 (zehavi05 { M_min := 12.4 + -12, M_1 := 12.851 + -12, alpha := 0 } false) limHM).power1hSSTab unitE 0 < 1 ^ 3 * limHM.power1hSSTab unitE 0 := by
  have hh : HodUnits (10 ^ (-12:ℝ)) limHM.hod (zehavi05 { M_min := 12.4 + -12, M_1 := 12.851 + -12, alpha := 0 } false) := (C78_occupations (-12) false).1 { M_min := 12.4, alpha := 0 }
  have hp : limHM.Pos := ⟨demo_pos.m, demo_pos.k, demo_pos.r⟩
  have ho : limHM.Ok := ⟨demo_ok.m, demo_ok.k, demo_ok.r, demo_ok.nm0, demo_ok.nk0, demo_ok.nr0⟩
  have hx : Real.log (limHM.m 0) < Real.log (limHM.m 1) := Real.log_lt_log (demo_pos.m 0) (demo_ok.m.inc 0 1 (by norm_num) (by norm_num [demoHM]))
  have hy (i : ℕ) : 0 < limHM.m i * (limHM.ut 0 i ^ 2 * limHM.dndm i * limHM.hod.ssPairs (limHM.m i)) := by
    have h1 : 0 < limHM.m i := demo_pos.m i
    have h2 : 0 < limHM.dndm i := by simp only [limHM]; positivity
    have h3 : limHM.hod.ssPairs (limHM.m i) = 1 := by
      change limHM.hod.satOcc (limHM.m i) ^ 2 = 1
      rw [lim_sat, one_pow]
    rw [h3]
    simp only [show limHM.ut 0 i = 1 from rfl]
    positivity
  have hu : (10:ℝ) ^ (-12:ℝ) * 10 ^ ((11.5:ℝ) + (0:ℕ)) < 0.4 := by
    rw [← Real.rpow_add (by norm_num)]
    have e : ((10:ℝ) ^ ((-12:ℝ) + (11.5 + (0:ℕ)))) ^ 2 = 0.1 := by
      rw [← Real.rpow_natCast, ← Real.rpow_mul (by norm_num)]
      norm_num
    have : 0 < (10:ℝ) ^ ((-12:ℝ) + (11.5 + (0:ℕ))) := by positivity
    nlinarith
  refine C78_lower_limit_breaks unitE_ok hh hp ho (by positivity) zero_lt_one rfl lim_den ⟨?_, ?_⟩ ?_ ?_ 0 fun t ht => ?_
  · change (0:ℝ) < 12.4; norm_num
  · change (12.4:ℝ) ≤ 10 ^ ((11.5:ℝ) + (0:ℕ))
    calc (12.4:ℝ) ≤ 10 ^ (2:ℝ) := by norm_num
      _ ≤ _ := Real.rpow_le_rpow_of_exponent_le (by norm_num) (by norm_num)
  · change (10:ℝ) ^ (-12:ℝ) * 10 ^ ((11.5:ℝ) + (0:ℕ)) < 12.4 + -12
    exact hu.trans_eq (by norm_num)
  · change (12.4:ℝ) + -12 ≤ 10 ^ (-12:ℝ) * 10 ^ ((11.5:ℝ) + (1:ℕ))
    rw [← Real.rpow_add (by norm_num)]
    calc (12.4:ℝ) + -12 ≤ 10 ^ (0:ℝ) := by norm_num
      _ ≤ _ := Real.rpow_le_rpow_of_exponent_le (by norm_num) (by norm_num)
  · exact cubicSpl_two_pos (fun i => Real.log (limHM.m i)) (fun i => limHM.m i * (limHM.ut 0 i ^ 2 * limHM.dndm i * limHM.hod.ssPairs (limHM.m i))) hx (hy 0) (hy 1) t ⟨ht.1.le, ht.2⟩

end Halomod.HaloModel
