import Verif.Props.ScaleDep
import Verif.Props.CodeEnv

/-! # C76: what the halo-model quantities do when the mass function, the bias and the spectra are rescaled -/
namespace Halomod.HaloModel

open Finset Halomod.Tools Halomod.Exclusion Halomod.HOD

section
variable {E : Env} {h : HM}

/-- the halo model with the mass function multiplied by `A` (and with it the mass density in halos, its integral), the halo bias by `B`,
the power of halo centres by `P` and the linear power by `Q`. -/
def rescale (A B P Q : ℝ) (h : HM) : HM :=
  { h with dndm := fun i => A * h.dndm i, bias := fun i => B * h.bias i, phc := fun k => P * h.phc k, linPow := fun k => Q * h.linPow k, rhoGtm := A * h.rhoGtm }

/-- the same with the transform of one function scaled by a constant. -/
def scaled (c : ℝ) (f : Option (ℝ → ℝ)) : Option (ℝ → ℝ) := f.map fun f t => c * f t

theorem low_rescale (a : ESArgs) (f : ℝ → ℝ) (Q : ℝ) (hQ : Q ≠ 0) (hl : a.lower = .callable f) (hm : a.matchLower = true) (hf : f (a.x 0) ≠ 0) :
    mkES E { a with lower := .callable fun t => Q * f t } = mkES E a := by
  unfold mkES esInit
  simp only
  split_ifs with h1
  · rfl
  · have : ∀ spl : ℝ → ℝ, extFunc E.us spl (.callable fun t => Q * f t) (min a.nLow a.n) a.x a.y a.matchLower (a.x 0) =
        extFunc E.us spl a.lower (min a.nLow a.n) a.x a.y a.matchLower (a.x 0) := by
      intro spl
      rw [hl]
      unfold extFunc
      simp only [hm, not_true, if_false, hf, mul_ne_zero hQ hf]
      congr 1
      funext t
      field_simp
    rw [this]

variable {A B P Q : ℝ}

theorem S_scale (hs : SplLin E.isp) (c : ℝ) (f g : ℕ → ℝ) (a : Option ℝ) (hfg : ∀ i, g i = c * f i) : (rescale A B P Q h).S E g a = c * h.S E f a := by
  rw [show g = fun i => c * f i from funext hfg]
  exact S_smul hs c f a

theorem density_scale (hs : SplLin E.isp) : (rescale A B P Q h).meanTracerDen E = A * h.meanTracerDen E :=
  S_scale hs A _ _ _ fun i => by change A * h.dndm i * h.totOccInt i = _; ring

/-- C76: multiplying the mass function by `A` multiplies the number density of tracers by `A` and leaves the effective mass and the fractions of
satellites and centrals alone; multiplying the halo bias by `B` multiplies the effective biases by `B`, on any mass table. -/
theorem C76_averages (hs : SplLin E.isp) (hA : A ≠ 0) :
    (rescale A B P Q h).meanTracerDen E = A * h.meanTracerDen E ∧
    (rescale A B P Q h).biasEffTracer E = B * h.biasEffTracer E ∧
    (rescale A B P Q h).massEff E = h.massEff E ∧
    (rescale A B P Q h).satFrac E = h.satFrac E ∧
    (rescale A B P Q h).cenFrac E = h.cenFrac E ∧
    (rescale A B P Q h).biasEffMatter E = (if h.forceUnity then 1 else B) * h.biasEffMatter E := by
  have hd := density_scale (A := A) (B := B) (P := P) (Q := Q) (h := h) hs
  have hsat : (rescale A B P Q h).satFrac E = h.satFrac E := by
    unfold HM.satFrac
    rw [hd, S_scale hs A (fun i => h.dndm i * h.hod.satOcc (h.m i)) _ _ fun i => by change A * h.dndm i * h.hod.satOcc (h.m i) = _; ring]
    exact mul_div_mul_left _ _ hA
  refine ⟨hd, ?_, ?_, hsat, ?_, ?_⟩
  · unfold HM.biasEffTracer
    rw [hd, S_scale hs (A * B) (fun i => h.dndm i * h.totOccInt i * h.bias i) _ _ fun i => by
      change A * h.dndm i * h.totOccInt i * (B * h.bias i) = _; ring, mul_assoc, mul_div_mul_left _ _ hA, mul_div_assoc]
    rfl
  · unfold HM.massEff
    rw [hd, S_scale hs A (fun i => h.m i * h.dndm i * h.totOccInt i) _ _ fun i => by change h.m i * (A * h.dndm i) * h.totOccInt i = _; ring,
      mul_div_mul_left _ _ hA]
    rfl
  · unfold HM.cenFrac; rw [hsat]
  · unfold HM.biasEffMatter
    change (if h.forceUnity = true then 1 else _) = _
    split_ifs
    · ring
    · rw [S_scale hs (A * B) (fun i => h.m i * h.dndm i * h.bias i) _ _ fun i => by change h.m i * (A * h.dndm i) * (B * h.bias i) = _; ring]
      change A * B * _ / (A * h.rhoGtm) = _
      rw [mul_assoc, mul_div_mul_left _ _ hA, mul_div_assoc]

theorem ext_low : ExtHom h.oneHaloLower true (h.k 0) := by
  unfold HM.oneHaloLower
  split_ifs
  · exact Or.inr fun t => rfl
  · trivial

theorem tab_scale (hs : SplLin E.isp) (hus : USplOk E.us) (a : ESArgs) (y' : ℕ → ℝ) (c : ℝ) (hc : 0 < c) (hy : ∀ i, y' i = c * a.y i)
    (hl : ExtHom a.lower a.matchLower (a.x 0)) (hu : ExtHom a.upper a.matchUpper (a.x (a.n - 1))) :
    mkES E { a with y := y' } = scaled c (mkES E a) := by
  rw [show y' = fun i => c * a.y i from funext hy]
  exact mkES_smul hs hus a c hc hl hu

theorem ss_tab (hs : SplLin E.isp) (hA : A ≠ 0) (j : ℕ) : (rescale A B P Q h).power1hSSTab E j = A⁻¹ * h.power1hSSTab E j := by
  unfold HM.power1hSSTab HM.do1halo
  rw [density_scale hs, S_scale hs A (fun i => h.ut j i ^ 2 * h.dndm i * h.hod.ssPairs (h.m i)) _ _ fun i => by
    change h.ut j i ^ 2 * (A * h.dndm i) * h.hod.ssPairs (h.m i) = _; ring]
  change A * h.S E _ (some (h.oneHaloMmin h.hod.mmin j)) / _ = _
  rw [mul_pow, show A ^ 2 = A * A by ring, mul_assoc, mul_div_mul_left _ _ hA, div_mul_eq_div_div_swap, inv_mul_eq_div]

theorem cs_tab (hs : SplLin E.isp) (hA : A ≠ 0) (j : ℕ) : (rescale A B P Q h).power1hCSTab E j = A⁻¹ * h.power1hCSTab E j := by
  unfold HM.power1hCSTab HM.do1halo
  rw [density_scale hs, S_scale hs A (fun i => h.dndm i * 2 * h.hod.csPairs (h.m i) * h.ut j i) _ _ fun i => by
    change A * h.dndm i * 2 * h.hod.csPairs (h.m i) * h.ut j i = _; ring]
  change A * h.S E _ (some (h.oneHaloMmin h.hod.mmin j)) / _ = _
  rw [mul_pow, show A ^ 2 = A * A by ring, mul_assoc, mul_div_mul_left _ _ hA, div_mul_eq_div_div_swap, inv_mul_eq_div]

theorem ss_scale (hs : SplLin E.isp) (hus : USplOk E.us) (hA : 0 < A) : (rescale A B P Q h).power1hSS E = scaled A⁻¹ (h.power1hSS E) :=
  tab_scale hs hus { n := h.nk, x := h.k, y := h.power1hSSTab E, lower := h.oneHaloLower, upper := .powerLaw } _ A⁻¹ (inv_pos.2 hA)
    (fun j => ss_tab hs hA.ne' j) ext_low trivial

theorem cs_scale (hs : SplLin E.isp) (hus : USplOk E.us) (hA : 0 < A) : (rescale A B P Q h).power1hCS E = scaled A⁻¹ (h.power1hCS E) := by
  classical
  unfold HM.power1hCS
  have hpos : (∀ j < (rescale A B P Q h).nk, (rescale A B P Q h).nk ≤ j + 10 → 0 < (rescale A B P Q h).power1hCSTab E j) ↔
      ∀ j < h.nk, h.nk ≤ j + 10 → 0 < h.power1hCSTab E j := by
    change (∀ j < h.nk, h.nk ≤ j + 10 → 0 < (rescale A B P Q h).power1hCSTab E j) ↔ _
    simp only [cs_tab (A := A) (B := B) (P := P) (Q := Q) (h := h) hs hA.ne', mul_pos_iff_of_pos_left (inv_pos.2 hA)]
  simp only [hpos]
  refine tab_scale hs hus { n := h.nk, x := h.k, y := h.power1hCSTab E, lower := h.oneHaloLower, upper := if ∀ j < h.nk, h.nk ≤ j + 10 → 0 < h.power1hCSTab E j then .powerLaw else .callable fun _ => 0 } _ A⁻¹ (inv_pos.2 hA)
    (fun j => cs_tab hs hA.ne' j) ext_low ?_
  dsimp only
  split_ifs
  · trivial
  · exact Or.inr fun t => rfl

theorem sumC_scaled (c : ℝ) (f g : Option (ℝ → ℝ)) : sumC (scaled c f) (scaled c g) 0 = scaled c (sumC f g 0) := by
  cases f <;> cases g <;> simp only [sumC, scaled, Option.map_none, Option.map_some, Option.bind_eq_bind, Option.bind_none, Option.bind_some, Option.pure_def]
  congr 1
  funext t
  simp only [sumCallable]
  ring

/-- C76: multiplying the mass function by `A` divides the one-halo tracer spectra (satellite pairs, central-satellite pairs and their sum) by `A`, multiplies
the one-halo matter spectrum by `A` and leaves the one-halo cross spectrum alone, at every wavenumber, inside and beyond the table; the bias and
the spectra of halo centres do not enter. -/
theorem C76_one_halo_power (hs : SplLin E.isp) (hus : USplOk E.us) (hA : 0 < A) :
    (rescale A B P Q h).power1hSS E = scaled A⁻¹ (h.power1hSS E) ∧
    (rescale A B P Q h).power1hCS E = scaled A⁻¹ (h.power1hCS E) ∧
    (rescale A B P Q h).power1hTracer E = scaled A⁻¹ (h.power1hTracer E) ∧
    (rescale A B P Q h).power1hMatter E = scaled A (h.power1hMatter E) ∧
    (rescale A B P Q h).power1hCross E = h.power1hCross E := by
  refine ⟨ss_scale hs hus hA, cs_scale hs hus hA, ?_, ?_, ?_⟩
  · unfold HM.power1hTracer
    rw [ss_scale hs hus hA, cs_scale hs hus hA, sumC_scaled]
  · refine tab_scale hs hus { n := h.nk, x := h.k, y := h.power1hMatterTab E, lower := h.oneHaloLower, upper := .powerLaw } _ A hA (fun j => ?_) ext_low trivial
    unfold HM.power1hMatterTab HM.do1halo
    rw [S_scale hs A (fun i => h.dndm i * h.m i ^ 2 * h.uh j i ^ 2) _ _ fun i => by change A * h.dndm i * h.m i ^ 2 * h.uh j i ^ 2 = _; ring]
    exact mul_div_assoc _ _ _
  · unfold HM.power1hCross
    congr 2
    funext j
    unfold HM.power1hCrossTab
    rw [density_scale hs, S_scale hs A (fun i => h.dndm i * h.m i * h.uh j i * (h.cenOccInt i + h.hod.satOcc (h.m i) * h.ut j i)) _ _ fun i => by
      change A * h.dndm i * h.m i * h.uh j i * (h.cenOccInt i + h.hod.satOcc (h.m i) * h.ut j i) = _; ring, mul_assoc A]
    exact mul_div_mul_left _ _ hA.ne'

theorem prim_scale (hs : SplLin E.isp) (hus : USplOk E.us) (hlin : h.linPow (h.k 0) ≠ 0) (hQ : Q ≠ 0) (e e' : ExclRes) (heq : e'.isNone = e.isNone)
    (eb eb' : ℝ) (db : Bool) (ir : ℕ) (c : ℝ) (hc : 0 < c) (ht : ∀ j, (rescale A B P Q h).power2hTab E e' eb' db ir j = c * h.power2hTab E e eb db ir j) :
    (rescale A B P Q h).power2hPrim E e' eb' db ir = scaled c (h.power2hPrim E e eb db ir) := by
  unfold HM.power2hPrim
  rw [funext ht, heq]
  change mkES E { n := h.nk, x := h.k, y := fun j => c * h.power2hTab E e eb db ir j, lower := .callable fun t => Q * h.linPow t, matchLower := true, upper := if e.isNone && !h.filtered then .powerLaw else .callable fun _ => 0 } = _
  rw [low_rescale { n := h.nk, x := h.k, y := fun j => c * h.power2hTab E e eb db ir j, lower := .callable h.linPow, matchLower := true, upper := if e.isNone && !h.filtered then .powerLaw else .callable fun _ => 0 } h.linPow Q hQ rfl rfl hlin]
  exact tab_scale hs hus { n := h.nk, x := h.k, y := h.power2hTab E e eb db ir, lower := .callable h.linPow, matchLower := true, upper := if e.isNone && !h.filtered then .powerLaw else .callable fun _ => 0 } _ c hc (fun _ => rfl)
    (Or.inl ⟨rfl, hlin⟩) (by dsimp only; split_ifs <;> simp [ExtHom])

theorem row_tracer (hs : SplLin E.isp) (hA : A ≠ 0) (j : ℕ) :
    (noExclRes E ((rescale A B P Q h).tracerExcl E) (rescale A B P Q h).bias).intg 0 j = B ^ 2 * (noExclRes E (h.tracerExcl E) h.bias).intg 0 j := by
  change (Excl.splineIntegrate _ ((rescale A B P Q h).tracerExcl E) fun im => A * h.dndm im * h.totOccInt im / (rescale A B P Q h).meanTracerDen E * h.ut j im * (B * h.bias im) * h.m im) ^ 2 =
    B ^ 2 * (Excl.splineIntegrate _ (h.tracerExcl E) fun im => h.dndm im * h.totOccInt im / h.meanTracerDen E * h.ut j im * h.bias im * h.m im) ^ 2
  rw [density_scale hs, ← mul_pow, ← splineIntegrate_smul (ius_ok hs)]
  congr 1
  change Excl.splineIntegrate _ (h.tracerExcl E) _ = _
  congr 1
  funext im
  rw [mul_assoc A, mul_div_mul_left _ _ hA]
  ring

theorem row_matter (hs : SplLin E.isp) (hA : A ≠ 0) (j : ℕ) :
    (noExclRes E (rescale A B P Q h).matterExcl (rescale A B P Q h).bias).intg 0 j = B ^ 2 * (noExclRes E h.matterExcl h.bias).intg 0 j := by
  change (Excl.splineIntegrate _ (rescale A B P Q h).matterExcl fun im => A * h.dndm im * h.m im / (A * h.rhoGtm) * h.uh j im * (B * h.bias im) * h.m im) ^ 2 =
    B ^ 2 * (Excl.splineIntegrate _ h.matterExcl fun im => h.dndm im * h.m im / h.rhoGtm * h.uh j im * h.bias im * h.m im) ^ 2
  rw [← mul_pow, ← splineIntegrate_smul (ius_ok hs)]
  change (Excl.splineIntegrate (fun n x y a c => splIntegral E.isp n x y a c) h.matterExcl _) ^ 2 = _
  congr 2
  funext im
  rw [mul_assoc A, mul_div_mul_left _ _ hA]
  ring

/-- C76: without exclusion the two-halo spectra do not see the amplitude of the mass function, except the cross spectrum, which is multiplied by `A`
(its matter factor is divided by the mean matter density, not by the density in halos); a bias multiplied by `B` multiplies them by `B²`, unless the matter
bias is forced to one, when the matter spectrum does not see `B`; the power of halo centres enters linearly; the amplitude of the linear power, which only continues
the table to small wavenumbers, does not enter. -/
theorem C76_two_halo_power (hs : SplLin E.isp) (hus : USplOk E.us) (hlin : h.linPow (h.k 0) ≠ 0) (hA : 0 < A) (hB : B ≠ 0) (hP : 0 < P) (hQ : Q ≠ 0) :
    (rescale A B P Q h).power2hTracer E = scaled (B ^ 2 * P) (h.power2hTracer E) ∧
    (rescale A B P Q h).power2hMatter E = scaled ((if h.forceUnity then 1 else B ^ 2) * P) (h.power2hMatter E) ∧
    (rescale A B P Q h).power2hCross E = scaled (A * B ^ 2 * P) (h.power2hCross E) := by
  have hB2 : 0 < B ^ 2 := by positivity
  refine ⟨?_, ?_, ?_⟩
  · unfold HM.power2hTracer
    refine prim_scale hs hus hlin hQ (noExclRes E (h.tracerExcl E) h.bias) (noExclRes E ((rescale A B P Q h).tracerExcl E) (rescale A B P Q h).bias) rfl
      (h.biasEffTracer E) ((rescale A B P Q h).biasEffTracer E) false 0 _ (mul_pos hB2 hP) fun j => ?_
    unfold HM.power2hTab
    simp only [Bool.false_eq_true, if_false]
    have hr := row_tracer (A := A) (B := B) (P := P) (Q := Q) (h := h) hs hA.ne' j
    change (noExclRes E ((rescale A B P Q h).tracerExcl E) (rescale A B P Q h).bias).intg 0 j * 1 * (P * h.phc (h.k j)) =
      B ^ 2 * P * ((noExclRes E (h.tracerExcl E) h.bias).intg 0 j * 1 * h.phc (h.k j))
    rw [hr]
    generalize (noExclRes E (h.tracerExcl E) h.bias).intg 0 j = w
    ring
  · have hb := (C76_averages (A := A) (B := B) (P := P) (Q := Q) (h := h) hs hA.ne').2.2.2.2.2
    unfold HM.power2hMatter
    refine prim_scale hs hus hlin hQ (noExclRes E h.matterExcl h.bias) (noExclRes E (rescale A B P Q h).matterExcl (rescale A B P Q h).bias) rfl
      (h.biasEffMatter E) ((rescale A B P Q h).biasEffMatter E) h.forceUnity 0 _ (mul_pos (by split_ifs <;> positivity) hP) fun j => ?_
    unfold HM.power2hTab
    simp only
    rw [row_matter hs hA.ne', hb]
    have hS : splineIntegral E.isp h.nm h.m (fun i => A * h.dndm i * h.m i / (A * h.rhoGtm) * (B * h.bias i)) none none true =
        B * splineIntegral E.isp h.nm h.m (fun i => h.dndm i * h.m i / h.rhoGtm * h.bias i) none none true := by
      rw [← splineIntegral_smul hs]
      congr 1
      funext i
      rw [mul_assoc A, mul_div_mul_left _ _ hA.ne']
      ring
    by_cases hf : h.forceUnity = true
    · simp only [hf, if_true]
      change B ^ 2 * _ * 1 * (1 * h.biasEffMatter E / splineIntegral E.isp h.nm h.m (fun i => A * h.dndm i * h.m i / (A * h.rhoGtm) * (B * h.bias i)) none none true) ^ 2 * (P * h.phc (h.k j)) =
        1 * P * (_ * 1 * (h.biasEffMatter E / splineIntegral E.isp h.nm h.m (fun i => h.dndm i * h.m i / h.rhoGtm * h.bias i) none none true) ^ 2 * h.phc (h.k j))
      rw [hS]
      generalize splineIntegral E.isp h.nm h.m (fun i => h.dndm i * h.m i / h.rhoGtm * h.bias i) none none true = s
      generalize (noExclRes E h.matterExcl h.bias).intg 0 j = w
      rcases eq_or_ne s 0 with rfl | h0
      · simp
      · field_simp
    · rw [Bool.not_eq_true] at hf
      simp only [hf, Bool.false_eq_true, if_false]
      change B ^ 2 * _ * 1 * (P * h.phc (h.k j)) = B ^ 2 * P * (_ * 1 * h.phc (h.k j))
      ring
  · refine tab_scale hs hus { n := h.nk, x := h.k, y := h.power2hCrossTab E, lower := .powerLaw, upper := if h.filtered then .callable fun _ => 0 else .powerLaw } _ _
      (by positivity) (fun j => ?_) trivial (by dsimp only; split_ifs <;> simp [ExtHom])
    change (rescale A B P Q h).power2hCrossTab E j = A * B ^ 2 * P * h.power2hCrossTab E j
    unfold HM.power2hCrossTab
    rw [density_scale hs, S_scale hs (A * B) (fun i => h.dndm i * h.bias i * (h.cenOccInt i + h.hod.satOcc (h.m i) * h.ut j i)) _ _ fun i => by
        change A * h.dndm i * (B * h.bias i) * (h.cenOccInt i + h.hod.satOcc (h.m i) * h.ut j i) = _; ring,
      S_scale hs (A * B) (fun i => h.dndm i * h.bias i * h.m i * h.uh j i) _ _ fun i => by
        change A * h.dndm i * (B * h.bias i) * h.m i * h.uh j i = _; ring]
    change A * B * h.S E _ h.tracerMmin * _ * (P * h.phc (h.k j)) / (A * _ * h.meanDensity0) = _
    generalize h.S E (fun i => h.dndm i * h.bias i * (h.cenOccInt i + h.hod.satOcc (h.m i) * h.ut j i)) h.tracerMmin = s
    generalize h.S E (fun i => h.dndm i * h.bias i * h.m i * h.uh j i) none = t
    rw [mul_assoc A (h.meanTracerDen E), show A * B * s * (A * B * t) * (P * h.phc (h.k j)) = A * (A * B ^ 2 * P * (s * t * h.phc (h.k j))) by ring,
      mul_div_mul_left _ _ hA.ne', mul_div_assoc]

/-- C76: the total tracer spectrum is the one-halo part divided by `A` plus the two-halo part multiplied by `B² P`. -/
theorem C76_total_power (hs : SplLin E.isp) (hus : USplOk E.us) (hlin : h.linPow (h.k 0) ≠ 0) (hA : 0 < A) (hB : B ≠ 0) (hP : 0 < P) (hQ : Q ≠ 0)
    (a b : ℝ → ℝ) (h1 : h.power1hTracer E = some a) (h2 : h.power2hTracer E = some b) :
    (rescale A B P Q h).powerTracer E = some fun k => a k / A + B ^ 2 * P * b k := by
  unfold HM.powerTracer
  rw [(C76_one_halo_power hs hus hA).2.2.1, (C76_two_halo_power hs hus hlin hA hB hP hQ).1, h1, h2]
  simp only [scaled, Option.map_some, Option.bind_eq_bind, Option.bind_some, Option.pure_def]
  congr 1
  funext k
  rw [inv_mul_eq_div]

theorem corr_table (hs : SplOk E.isp) (ho : h.Ok) (c : ℕ → ℝ) : ∃ f, h.corrES E c = some f ∧ ∀ i < h.nr, f (h.rt i) = c i := by
  obtain ⟨f, h1, h2, -⟩ := mkES_ok E hs { n := h.nr, x := h.rt, y := c, lower := .powerLaw, upper := .callable fun _ => 0 } rfl rfl ho.r (by simp) (by simp)
  exact ⟨f, h1, h2⟩

theorem corr_scale (hs : SplOk E.isp) (ho : h.Ok) (c c' : ℕ → ℝ) (a d : ℝ) (hc : ∀ i, c' i + d = (c i + d) / a) :
    ∃ f g, (rescale A B P Q h).corrES E c' = some f ∧ h.corrES E c = some g ∧ ∀ i < h.nr, f (h.rt i) + d = (g (h.rt i) + d) / a := by
  obtain ⟨f, f1, f2⟩ := corr_table hs ho c'
  obtain ⟨g, g1, g2⟩ := corr_table hs ho c
  exact ⟨f, g, f1, g1, fun i hi => by rw [f2 i hi, g2 i hi]; exact hc i⟩

/-- C76: the one-halo correlations computed from the profiles follow: `1 + ξ` of central-satellite and of satellite pairs, and (the total has no `-1`) the total
itself, are divided by `A` at the tabulated separations. -/
theorem C76_one_halo_correlation (hs : SplLin E.isp) (ho : h.Ok) (hA : A ≠ 0) (lam : ℕ → ℕ → ℝ) (hl : h.lamT = some lam) :
    (∃ f g, (rescale A B P Q h).corr1hCS E = some f ∧ h.corr1hCS E = some g ∧ ∀ i < h.nr, f (h.rt i) + 1 = (g (h.rt i) + 1) / A) ∧
    (∃ f g, (rescale A B P Q h).corr1hSS E = some f ∧ h.corr1hSS E = some g ∧ ∀ i < h.nr, f (h.rt i) + 1 = (g (h.rt i) + 1) / A) ∧
    (∃ f g, (rescale A B P Q h).corr1hTracer E = some f ∧ h.corr1hTracer E = some g ∧ ∀ i < h.nr, f (h.rt i) = g (h.rt i) / A) := by
  have hl' : (rescale A B P Q h).lamT = some lam := hl
  have key : ∀ s d : ℝ, A * s / (A * d) ^ 2 = s / d ^ 2 / A := fun s d => by
    rw [mul_pow, show A ^ 2 = A * A by ring, mul_assoc, mul_div_mul_left _ _ hA, div_mul_eq_div_div_swap]
  refine ⟨?_, ?_, ?_⟩
  · refine corr_scale hs.toSplOk ho _ _ _ _ fun i => ?_
    rw [density_scale hs, S_scale hs A (fun j => h.dndm j * 2 * h.hod.csPairs (h.m j) * h.rhoT i j) _ _ fun j => by
      change A * h.dndm j * 2 * h.hod.csPairs (h.m j) * h.rhoT i j = _; ring, sub_add_cancel, sub_add_cancel]
    exact key _ _
  · simp only [HM.corr1hSS, hl', hl]
    refine corr_scale hs.toSplOk ho _ _ _ _ fun i => ?_
    rw [density_scale hs, S_scale hs A (fun j => lam i j * h.dndm j * h.hod.ssPairs (h.m j)) _ _ fun j => by
      change lam i j * (A * h.dndm j) * h.hod.ssPairs (h.m j) = _; ring, sub_add_cancel, sub_add_cancel]
    exact key _ _
  · simp only [HM.corr1hTracer, hl', hl]
    obtain ⟨f, g, f1, g1, h1⟩ := corr_scale (A := A) (B := B) (P := P) (Q := Q) hs.toSplOk ho
      (fun i => h.S E (fun j => h.dndm j * (h.hod.ssPairs (h.m j) * lam i j + 2 * h.hod.csPairs (h.m j) * h.rhoT i j) * (if h.hod.central then h.cenOccInt j else 1)) h.tracerMmin / h.meanTracerDen E ^ 2)
      (fun i => (rescale A B P Q h).S E (fun j => A * h.dndm j * (h.hod.ssPairs (h.m j) * lam i j + 2 * h.hod.csPairs (h.m j) * h.rhoT i j) * (if h.hod.central then h.cenOccInt j else 1)) h.tracerMmin / (rescale A B P Q h).meanTracerDen E ^ 2)
      A 0 fun i => by
        rw [density_scale hs, S_scale hs A (fun j => h.dndm j * (h.hod.ssPairs (h.m j) * lam i j + 2 * h.hod.csPairs (h.m j) * h.rhoT i j) * (if h.hod.central then h.cenOccInt j else 1)) _ _ fun j => by ring]
        rw [add_zero, add_zero]
        exact key _ _
    exact ⟨f, g, f1, g1, fun i hi => by have := h1 i hi; rw [add_zero, add_zero] at this; exact this⟩

/-- C76: the two-halo tracer correlation is multiplied by `B² P` at every tabulated separation where the transform of the spectrum is homogeneous (C68). -/
theorem C76_two_halo_correlation (hs : SplLin E.isp) (hus : USplOk E.us) (ho : h.Ok) (hlin : h.linPow (h.k 0) ≠ 0) (hA : 0 < A) (hB : B ≠ 0) (hP : 0 < P) (hQ : Q ≠ 0) :
    ∃ f g q, (rescale A B P Q h).corr2hTracer E = some f ∧ h.corr2hTracer E = some g ∧ h.power2hTracer E = some q ∧ ∀ i < h.nr,
      E.hankelFine (fun k => B ^ 2 * P * q k) (h.rt i) = B ^ 2 * P * E.hankelFine q (h.rt i) → f (h.rt i) = B ^ 2 * P * g (h.rt i) := by
  have ho' : (rescale A B P Q h).Ok := ⟨ho.m, ho.k, ho.r, ho.nm0, ho.nk0, ho.nr0⟩
  obtain ⟨f, f1, -, f2⟩ := corr2h_rows (h := rescale A B P Q h) hs ho' (noExclRes E ((rescale A B P Q h).tracerExcl E) (rescale A B P Q h).bias) (Or.inl rfl)
    ((rescale A B P Q h).biasEffTracer E) false
  obtain ⟨g, g1, -, g2⟩ := corr2h_rows (h := h) hs ho (noExclRes E (h.tracerExcl E) h.bias) (Or.inl rfl) (h.biasEffTracer E) false
  have hr : ∀ e : Excl, ∀ b, (noExclRes E e b).rows = 1 := fun _ _ => rfl
  simp only [hr, if_true] at f2 g2
  obtain ⟨q, hq, -⟩ := g2 0 ho.nr0
  refine ⟨f, g, q, f1, g1, hq, fun i hi hh => ?_⟩
  obtain ⟨q', hq', e1⟩ := g2 i hi
  obtain ⟨p, hp, e2⟩ := f2 i hi
  rw [hq] at hq'
  cases hq'
  have h2 := (C76_two_halo_power (A := A) (B := B) (P := P) (Q := Q) hs hus hlin hA hB hP hQ).1
  unfold HM.power2hTracer at h2
  rw [hq, hp] at h2
  cases h2
  exact e2.trans (hh.trans (by rw [e1]))

/-- the hypotheses are met by a concrete model; its mass function doubled and its bias tripled. -/
example : (rescale 2 3 1 1 demoHM).meanTracerDen sdE = 2 * demoHM.meanTracerDen sdE ∧
    (rescale 2 3 1 1 demoHM).power1hTracer sdE = scaled 2⁻¹ (demoHM.power1hTracer sdE) ∧
    (rescale 2 3 1 1 demoHM).power2hTracer sdE = scaled (3 ^ 2 * 1) (demoHM.power2hTracer sdE) ∧
    (rescale 2 3 1 1 demoHM).power2hCross sdE = scaled (2 * 3 ^ 2 * 1) (demoHM.power2hCross sdE) := by
  have h2 := C76_two_halo_power (A := 2) (B := 3) (P := 1) (Q := 1) (E := sdE) (h := demoHM) polySpl_lin sdE_us (by simp [demoHM]) (by norm_num) (by norm_num) (by norm_num) (by norm_num)
  exact ⟨(C76_averages polySpl_lin (by norm_num)).1, (C76_one_halo_power polySpl_lin sdE_us (by norm_num)).2.2.1, h2.1, h2.2.2⟩

end
end Halomod.HaloModel
