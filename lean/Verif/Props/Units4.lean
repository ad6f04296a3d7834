import Verif.Props.Units3

/-! # C78: spectra and correlation functions in other units of mass and length -/
namespace Halomod.HaloModel

open Finset Halomod.Tools Halomod.Exclusion Halomod.HOD

section
variable {E : Env} {h : HM} {μ l : ℝ} {hod' : Hod}

theorem SameSpectrum.sum {l : ℝ} {P' P Q' Q : Option (ℝ → ℝ)} (h1 : SameSpectrum l P' P) (h2 : SameSpectrum l Q' Q) :
    SameSpectrum l (sumC P' Q' 0) (sumC P Q 0) :=
  (h1.inUnits.sum h2.inUnits).spectrum

/-- the mean density of tracers enters squared. -/
theorem sq_units (hl : 0 < l) (s n : ℝ) : μ * (1 / (μ * l ^ 3)) * s / (n / l ^ 3) ^ 2 = if μ = 0 then 0 else l ^ 3 * (s / n ^ 2) := by
  split_ifs with h0
  · simp [h0]
  · rcases eq_or_ne n 0 with rfl | hn
    · simp
    · have := hl.ne'
      field_simp

theorem ss_units (he : EnvUnits E) (hh : HodUnits μ h.hod hod') (hp : h.Pos) (ho : h.Ok) (hμ : 0 < μ) (hl : 0 < l)
    (hv : 0 < h.hod.mmin ∧ h.hod.mmin ≤ h.m 0) (hv' : 0 < hod'.mmin ∧ hod'.mmin ≤ μ * h.m 0) (j : ℕ) :
    (units μ l hod' h).power1hSSTab E j = l ^ 3 * h.power1hSSTab E j := by
  unfold HM.power1hSSTab HM.do1halo
  rw [density_units he hh hp hμ hl]
  change (units μ l hod' h).S E (fun i => h.ut j i ^ 2 * (h.dndm i / (μ * l ^ 3)) * hod'.ssPairs (μ * h.m i)) (some ((units μ l hod' h).oneHaloMmin hod'.mmin j)) / _ = _
  rw [do1_units he hp ho hμ hl h.hod.mmin hod'.mmin hv hv' (1 / (μ * l ^ 3)) (fun i => h.ut j i ^ 2 * h.dndm i * h.hod.ssPairs (h.m i)) _ (fun i => by
    rw [hh.ss _ (hp.m i)]; ring), sq_units hl, if_neg hμ.ne']

theorem cs_units (he : EnvUnits E) (hh : HodUnits μ h.hod hod') (hp : h.Pos) (ho : h.Ok) (hμ : 0 < μ) (hl : 0 < l)
    (hv : 0 < h.hod.mmin ∧ h.hod.mmin ≤ h.m 0) (hv' : 0 < hod'.mmin ∧ hod'.mmin ≤ μ * h.m 0) (j : ℕ) :
    (units μ l hod' h).power1hCSTab E j = l ^ 3 * h.power1hCSTab E j := by
  unfold HM.power1hCSTab HM.do1halo
  rw [density_units he hh hp hμ hl]
  change (units μ l hod' h).S E (fun i => h.dndm i / (μ * l ^ 3) * 2 * hod'.csPairs (μ * h.m i) * h.ut j i) (some ((units μ l hod' h).oneHaloMmin hod'.mmin j)) / _ = _
  rw [do1_units he hp ho hμ hl h.hod.mmin hod'.mmin hv hv' (1 / (μ * l ^ 3)) (fun i => h.dndm i * 2 * h.hod.csPairs (h.m i) * h.ut j i) _ (fun i => by
    rw [hh.cs _ (hp.m i)]; ring), sq_units hl, if_neg hμ.ne']

/-- C78: the one-halo spectra of matter and of tracers with matter are the same in other units, whatever the units. -/
theorem C78_one_halo_matter (he : EnvUnits E) (hh : HodUnits μ h.hod hod') (hp : h.Pos) (hμ : 0 < μ) (hl : 0 < l) :
    SameSpectrum l ((units μ l hod' h).power1hMatter E) (h.power1hMatter E) ∧ SameSpectrum l ((units μ l hod' h).power1hCross E) (h.power1hCross E) := by
  have hμ0 := hμ.ne'
  have hl0 := hl.ne'
  constructor
  · refine low_units (h := h) he hp hl (h.power1hMatterTab E) ((units μ l hod' h).power1hMatterTab E) (fun j => ?_) .powerLaw rfl trivial h.oneHaloLower (dil_low _) ext_low
    unfold HM.power1hMatterTab HM.do1halo
    change (units μ l hod' h).S E (fun i => h.dndm i / (μ * l ^ 3) * (μ * h.m i) ^ 2 * h.uh j i ^ 2) (some ((units μ l hod' h).oneHaloMmin (μ * h.m 0) j)) / (μ / l ^ 3 * h.meanDensity0) ^ 2 = _
    rw [one_units hμ hl]
    have := S_units (l := l) (hod' := hod') he hp hμ (μ / l ^ 3) (fun i => h.dndm i * h.m i ^ 2 * h.uh j i ^ 2) (fun i => h.dndm i / (μ * l ^ 3) * (μ * h.m i) ^ 2 * h.uh j i ^ 2)
      (fun i => by field_simp) (some (h.oneHaloMmin (h.m 0) j)) fun w hw => by cases hw; exact one_pos hp j
    rw [Option.map_some] at this
    rw [this]
    rcases eq_or_ne h.meanDensity0 0 with h0 | h0
    · simp [h0]
    · field_simp
  · refine low_units (h := h) he hp hl (h.power1hCrossTab E) ((units μ l hod' h).power1hCrossTab E) (fun j => ?_) .powerLaw rfl trivial .powerLaw rfl trivial
    unfold HM.power1hCrossTab
    rw [density_units he hh hp hμ hl, T_units he hh hp hμ (1 / l ^ 3) (fun i => h.dndm i * h.m i * h.uh j i * (h.cenOccInt i + h.hod.satOcc (h.m i) * h.ut j i)) _ fun i => by
      rw [units_cenOcc hh hp]
      change h.dndm i / (μ * l ^ 3) * (μ * h.m i) * h.uh j i * (_ + hod'.satOcc (μ * h.m i) * h.ut j i) = _
      rw [hh.sat _ (hp.m i)]
      field_simp]
    change μ * (1 / l ^ 3) * _ / (h.meanTracerDen E / l ^ 3 * (μ / l ^ 3 * h.meanDensity0)) = _
    generalize h.S E _ h.tracerMmin = s
    rcases eq_or_ne h.meanDensity0 0 with h0 | h0
    · simp [h0]
    rcases eq_or_ne (h.meanTracerDen E) 0 with h1 | h1
    · simp [h1]
    field_simp

/-- C78: so are the one-halo spectra of tracers, as long as the logarithm of the minimum mass, which the code uses as the lower limit of these
integrals, stays between zero and the start of the mass table in both units. -/
theorem C78_one_halo_tracer_partial (he : EnvUnits E) (hh : HodUnits μ h.hod hod') (hp : h.Pos) (ho : h.Ok) (hμ : 0 < μ) (hl : 0 < l)
    (hv : 0 < h.hod.mmin ∧ h.hod.mmin ≤ h.m 0) (hv' : 0 < hod'.mmin ∧ hod'.mmin ≤ μ * h.m 0) :
    SameSpectrum l ((units μ l hod' h).power1hSS E) (h.power1hSS E) ∧ SameSpectrum l ((units μ l hod' h).power1hCS E) (h.power1hCS E) ∧
    SameSpectrum l ((units μ l hod' h).power1hTracer E) (h.power1hTracer E) := by
  classical
  have hss : SameSpectrum l ((units μ l hod' h).power1hSS E) (h.power1hSS E) :=
    low_units (h := h) he hp hl (h.power1hSSTab E) ((units μ l hod' h).power1hSSTab E) (ss_units he hh hp ho hμ hl hv hv') .powerLaw rfl trivial h.oneHaloLower (dil_low _) ext_low
  have hcs : SameSpectrum l ((units μ l hod' h).power1hCS E) (h.power1hCS E) := by
    unfold HM.power1hCS
    have hpos : (∀ j < (units μ l hod' h).nk, (units μ l hod' h).nk ≤ j + 10 → 0 < (units μ l hod' h).power1hCSTab E j) ↔
        ∀ j < h.nk, h.nk ≤ j + 10 → 0 < h.power1hCSTab E j := by
      change (∀ j < h.nk, h.nk ≤ j + 10 → 0 < (units μ l hod' h).power1hCSTab E j) ↔ _
      simp only [cs_units he hh hp ho hμ hl hv hv', mul_pos_iff_of_pos_left (pow_pos hl 3)]
    simp only [hpos]
    refine low_units (h := h) he hp hl (h.power1hCSTab E) ((units μ l hod' h).power1hCSTab E) (cs_units he hh hp ho hμ hl hv hv')
      (if ∀ j < h.nk, h.nk ≤ j + 10 → 0 < h.power1hCSTab E j then .powerLaw else .callable fun _ => 0) ?_ ?_ h.oneHaloLower (dil_low _) ext_low
    · split_ifs <;> rfl
    · split_ifs
      · trivial
      · exact Or.inr fun t => rfl
  exact ⟨hss, hcs, hcs.sum hss⟩

/-! ### two-halo terms, any exclusion model and scale-dependent bias -/

theorem units_matterExcl (hμ : 0 < μ) (hl : 0 < l) (sd : Option (ℕ → ℝ)) : (units μ l hod' h).matterExclX sd = unitsExcl μ l (h.matterExclX sd) := by
  have hμ0 := hμ.ne'
  have hl0 := hl.ne'
  have e1 (i : ℕ) : h.dndm i / (μ * l ^ 3) * (μ * h.m i) / (μ / l ^ 3 * h.rhoGtm) = h.dndm i * h.m i / h.rhoGtm / μ := by
    rcases eq_or_ne h.rhoGtm 0 with h0 | h0
    · simp [h0]
    · field_simp
  unfold HM.matterExclX HM.matterExcl unitsExcl
  simp only [Excl.mk.injEq]
  refine ⟨rfl, rfl, funext e1, ?_, rfl, rfl, ?_, rfl⟩
  · funext j i
    change h.dndm i / (μ * l ^ 3) * (μ * h.m i) / (μ / l ^ 3 * h.rhoGtm) * h.uh j i = _
    rw [e1]
    ring
  · change h.overdensity * (μ / l ^ 3 * h.meanDensity0) = _
    ring

theorem units_tracerExcl (he : EnvUnits E) (hh : HodUnits μ h.hod hod') (hp : h.Pos) (hμ : 0 < μ) (hl : 0 < l) (sd : Option (ℕ → ℝ)) :
    (units μ l hod' h).tracerExclX E sd = unitsExcl μ l (h.tracerExclX E sd) := by
  have hμ0 := hμ.ne'
  have hl0 := hl.ne'
  have e1 (i : ℕ) : (units μ l hod' h).dndm i * (units μ l hod' h).totOccInt i / (units μ l hod' h).meanTracerDen E = h.dndm i * h.totOccInt i / h.meanTracerDen E / μ := by
    rw [units_totOcc hh hp, density_units he hh hp hμ hl]
    change h.dndm i / (μ * l ^ 3) * _ / _ = _
    rcases eq_or_ne (h.meanTracerDen E) 0 with h0 | h0
    · simp [h0]
    · field_simp
  unfold HM.tracerExclX HM.tracerExcl unitsExcl
  simp only [Excl.mk.injEq]
  refine ⟨rfl, rfl, funext e1, ?_, rfl, rfl, ?_, units_mmin hh⟩
  · funext j i
    rw [e1]
    change _ * h.ut j i = _
    ring
  · change h.overdensity * (μ / l ^ 3 * h.meanDensity0) = _
    ring

/-- an exclusion object of positive masses and density. -/
def ExclPos (e : Excl) : Prop := (∀ i, 0 < e.m i) ∧ 0 < e.haloDensity

theorem ius_shift (he : EnvUnits E) : IusShift fun n x y a c => splIntegral E.isp n x y a c :=
  fun n x y a b d => splIntegral_shift he.spl n x y a b d

theorem tab2_units (he : EnvUnits E) (junk : Mat) (cls : ExclCls) (e : Excl) (hpe : ExclPos e) (hμ : 0 < μ) (hl : 0 < l) (eb : ℝ) (db : Bool) (nr ir j : ℕ) :
    (units μ l hod' h).power2hTab E (exclRes E junk cls (unitsExcl μ l e) nr) eb db ir j = l ^ 3 * h.power2hTab E (exclRes E junk cls e nr) eb db ir j := by
  obtain ⟨e1, e2⟩ := C78_exclusion junk cls hμ hl (ius_shift he) hpe.1 hpe.2
  have e3 : splineIntegral E.isp e.n (fun i => μ * e.m i) (fun i => e.density i / μ * (exclRes E junk cls e nr).biasLast i) none none true =
      splineIntegral E.isp e.n e.m (fun i => e.density i * (exclRes E junk cls e nr).biasLast i) none none true := by
    have := splineIntegral_units he.lin he.spl hμ e.n e.m (fun i => e.density i * (exclRes E junk cls e nr).biasLast i)
      (fun i => e.density i / μ * (exclRes E junk cls e nr).biasLast i) hpe.1 (1 / μ) (fun i => by ring) none (by simp)
    rw [Option.map_none, mul_one_div, div_self hμ.ne', one_mul] at this
    exact this
  have e4 : (exclRes E junk cls (unitsExcl μ l e) nr).biasLast = (exclRes E junk cls e nr).biasLast := rfl
  unfold HM.power2hTab
  dsimp only
  rw [e4]
  rw [show (exclRes E junk cls (unitsExcl μ l e) nr).intg = (exclRes E junk cls e nr).intg from e1, show (exclRes E junk cls (unitsExcl μ l e) nr).dmod = (exclRes E junk cls e nr).dmod from e2,
    show splineIntegral E.isp (exclRes E junk cls (unitsExcl μ l e) nr).n (exclRes E junk cls (unitsExcl μ l e) nr).m
      (fun i => (exclRes E junk cls (unitsExcl μ l e) nr).density i * (exclRes E junk cls e nr).biasLast i) none none true =
        splineIntegral E.isp (exclRes E junk cls e nr).n (exclRes E junk cls e nr).m (fun i => (exclRes E junk cls e nr).density i * (exclRes E junk cls e nr).biasLast i) none none true from e3]
  change _ * (l ^ 3 * h.phc (l * (l⁻¹ * h.k j))) = _
  rw [mul_inv_cancel_left₀ hl.ne']
  ring

/-- the two-halo spectrum of every row of an exclusion object. -/
theorem prim_units (he : EnvUnits E) (junk : Mat) (cls : ExclCls) (e : Excl) (hpe : ExclPos e) (hp : h.Pos) (hlin : h.linPow (h.k 0) ≠ 0) (hμ : 0 < μ) (hl : 0 < l)
    (eb : ℝ) (db : Bool) (nr ir : ℕ) :
    SameSpectrum l ((units μ l hod' h).power2hPrim E (exclRes E junk cls (unitsExcl μ l e) nr) eb db ir) (h.power2hPrim E (exclRes E junk cls e nr) eb db ir) := by
  refine InUnits.spectrum ?_
  set up : Ext := if (exclRes E junk cls e nr).isNone && !h.filtered then .powerLaw else .callable fun _ => 0 with hup
  have hd : dilExt l⁻¹ up = up := by rw [hup]; split_ifs <;> rfl
  have hU : ExtHom up true (h.k (h.nk - 1)) := by
    rw [hup]; split_ifs
    · trivial
    · exact Or.inr fun t => rfl
  have key := tab_units he { n := h.nk, x := h.k, y := h.power2hTab E (exclRes E junk cls e nr) eb db ir, lower := .callable h.linPow, matchLower := true, upper := up }
    (inv_pos.2 hl) (pow_pos hl 3) hp.k ((units μ l hod' h).power2hTab E (exclRes E junk cls (unitsExcl μ l e) nr) eb db ir) (fun j => tab2_units he junk cls e hpe hμ hl eb db nr ir j)
    rfl rfl (Or.inl ⟨rfl, hlin⟩) hU
  dsimp only at key
  rw [hd] at key
  unfold HM.power2hPrim
  change InUnits l⁻¹ (l ^ 3) (mkES E { n := h.nk, x := fun j => l⁻¹ * h.k j, y := (units μ l hod' h).power2hTab E (exclRes E junk cls (unitsExcl μ l e) nr) eb db ir, lower := .callable fun k => l ^ 3 * h.linPow (l * k), matchLower := true, upper := up }) _
  have hlow := low_rescale (E := E) { n := h.nk, x := fun j => l⁻¹ * h.k j, y := (units μ l hod' h).power2hTab E (exclRes E junk cls (unitsExcl μ l e) nr) eb db ir, lower := .callable fun k => h.linPow (l * k), matchLower := true, upper := up } (fun k => h.linPow (l * k)) (l ^ 3) (pow_ne_zero 3 hl.ne') rfl rfl (by
      dsimp only; rw [mul_inv_cancel_left₀ hl.ne']; exact hlin)
  dsimp only at hlow
  rw [hlow]
  unfold dilExt at key
  dsimp only at key
  rw [show (fun t => h.linPow (t / l⁻¹)) = fun k => h.linPow (l * k) from funext fun t => by rw [div_inv_eq_mul, mul_comm]] at key
  exact key

end
end Halomod.HaloModel
