import Verif.Props.Units2

/-! # C78: the halo model in other units of mass and length -/
namespace Halomod.HaloModel

open Finset Halomod.Tools Halomod.Exclusion Halomod.HOD

/-- `hod'` is the occupation `hod` with masses counted in units `μ` of which make an old one. -/
structure HodUnits (μ : ℝ) (hod hod' : Hod) : Prop where
  central : hod'.central = hod.central
  inherent : hod'.inherent = hod.inherent
  sharp : hod'.sharpCut = hod.sharpCut
  mmin : (10:ℝ) ^ hod'.mmin = μ * 10 ^ hod.mmin
  cen : ∀ m, 0 < m → hod'.cenOcc (μ * m) = hod.cenOcc m
  sat : ∀ m, 0 < m → hod'.satOcc (μ * m) = hod.satOcc m
  ss : ∀ m, 0 < m → hod'.ssPairs (μ * m) = hod.ssPairs m
  cs : ∀ m, 0 < m → hod'.csPairs (μ * m) = hod.csPairs m

/-- the halo model `h` with `μ` new units of mass and `l` new units of length to an old one: masses, number densities per mass and volume, wavenumbers,
separations, densities and spectra are converted; pure numbers (bias, normalised profile transforms, overdensity, steps in the logarithm) stay. -/
noncomputable def units (μ l : ℝ) (hod' : Hod) (h : HM) : HM :=
  { h with m := fun i => μ * h.m i, dndm := fun i => h.dndm i / (μ * l ^ 3), k := fun j => l⁻¹ * h.k j, rt := fun i => l * h.rt i, hod := hod', rhoT := fun i j => h.rhoT i j / l ^ 3, lamT := h.lamT.map fun f i j => f i j / l ^ 3, lamH := h.lamH.map fun f i j => f i j / l ^ 3, meanDensity0 := μ / l ^ 3 * h.meanDensity0, rhoGtm := μ / l ^ 3 * h.rhoGtm, phc := fun k => l ^ 3 * h.phc (l * k), linPow := fun k => l ^ 3 * h.linPow (l * k) }

/-- `P'` is the spectrum `P` in units `l` of which make an old one: `P'(k) = l³ P(l k)` at every wavenumber. -/
def SameSpectrum (l : ℝ) (P' P : Option (ℝ → ℝ)) : Prop :=
  (P' = none ∧ P = none) ∨ ∃ p' p, P' = some p' ∧ P = some p ∧ ∀ k, 0 < k → p' k = l ^ 3 * p (l * k)

/-- `X'` is the correlation function `X` in units `l` of which make an old one: `X'(r) = X(r / l)` at every separation. -/
def SameCorrelation (l : ℝ) (X' X : Option (ℝ → ℝ)) : Prop :=
  (X' = none ∧ X = none) ∨ ∃ x' x, X' = some x' ∧ X = some x ∧ ∀ r, 0 < r → x' r = x (r / l)

theorem InUnits.spectrum {l : ℝ} {P' P : Option (ℝ → ℝ)} (h : InUnits l⁻¹ (l ^ 3) P' P) : SameSpectrum l P' P := by
  rcases h with h | ⟨f', f, h1, h2, h3⟩
  · exact Or.inl h
  · exact Or.inr ⟨f', f, h1, h2, fun k hk => by rw [h3 k hk, div_inv_eq_mul, mul_comm k]⟩

theorem SameSpectrum.inUnits {l : ℝ} {P' P : Option (ℝ → ℝ)} (h : SameSpectrum l P' P) : InUnits l⁻¹ (l ^ 3) P' P := by
  rcases h with h | ⟨f', f, h1, h2, h3⟩
  · exact Or.inl h
  · exact Or.inr ⟨f', f, h1, h2, fun k hk => by rw [h3 k hk, div_inv_eq_mul, mul_comm k]⟩

theorem InUnits.correlation {l : ℝ} {P' P : Option (ℝ → ℝ)} (h : InUnits l 1 P' P) : SameCorrelation l P' P := by
  rcases h with h | ⟨f', f, h1, h2, h3⟩
  · exact Or.inl h
  · exact Or.inr ⟨f', f, h1, h2, fun k hk => by rw [h3 k hk, one_mul]⟩

theorem SameCorrelation.inUnits {l : ℝ} {P' P : Option (ℝ → ℝ)} (h : SameCorrelation l P' P) : InUnits l 1 P' P := by
  rcases h with h | ⟨f', f, h1, h2, h3⟩
  · exact Or.inl h
  · exact Or.inr ⟨f', f, h1, h2, fun k hk => by rw [h3 k hk, one_mul]⟩

/-- what is asked of the interpolations: they are linear in the ordinates and see only the shape of their abscissae. -/
structure EnvUnits (E : Env) : Prop where
  lin : SplLin E.isp
  spl : SplUnits E.isp
  us : USplOk E.us
  usShift : ∀ n x (y : ℕ → ℝ) d t, E.us n (fun i => x i + d) y (t + d) = E.us n x y t

/-- masses, wavenumbers and separations are positive (also past the end of the tables, which nothing reads). -/
structure HM.Pos (h : HM) : Prop where
  m : ∀ i, 0 < h.m i
  k : ∀ j, 0 < h.k j
  r : ∀ i, 0 < h.rt i

section
variable {E : Env} {h : HM} {μ l : ℝ} {hod' : Hod}

theorem S_units (he : EnvUnits E) (hp : h.Pos) (hμ : 0 < μ) (κ : ℝ) (f g : ℕ → ℝ) (hg : ∀ i, g i = κ * f i) (a : Option ℝ) (ha : ∀ v, a = some v → 0 < v) :
    (units μ l hod' h).S E g (a.map fun v => μ * v) = μ * κ * h.S E f a :=
  splineIntegral_units he.lin he.spl hμ h.nm h.m f g hp.m κ hg a ha

theorem units_mmin (hh : HodUnits μ h.hod hod') : (units μ l hod' h).tracerMmin = h.tracerMmin.map fun v => μ * v := by
  unfold HM.tracerMmin
  change (if hod'.sharpCut && (hod'.central || hod'.inherent) then some ((10:ℝ) ^ hod'.mmin) else none) = _
  rw [hh.central, hh.inherent, hh.sharp, hh.mmin]
  split_ifs <;> rfl

theorem mmin_pos (v : ℝ) (hv : h.tracerMmin = some v) : 0 < v := by
  unfold HM.tracerMmin at hv
  split_ifs at hv
  cases hv
  positivity

theorem units_cenOcc (hh : HodUnits μ h.hod hod') (hp : h.Pos) (i : ℕ) : (units μ l hod' h).cenOccInt i = h.cenOccInt i := by
  unfold HM.cenOccInt
  change (if hod'.sharpCut && (hod'.central || hod'.inherent) then 1 else hod'.cenOcc (μ * h.m i)) = _
  rw [hh.central, hh.inherent, hh.sharp, hh.cen _ (hp.m i)]

theorem units_totOcc (hh : HodUnits μ h.hod hod') (hp : h.Pos) (i : ℕ) : (units μ l hod' h).totOccInt i = h.totOccInt i := by
  unfold HM.totOccInt
  rw [units_cenOcc hh hp]
  change _ + hod'.satOcc (μ * h.m i) = _
  rw [hh.sat _ (hp.m i)]

/-- integrals over the tracers. -/
theorem T_units (he : EnvUnits E) (hh : HodUnits μ h.hod hod') (hp : h.Pos) (hμ : 0 < μ) (κ : ℝ) (f g : ℕ → ℝ) (hg : ∀ i, g i = κ * f i) :
    (units μ l hod' h).S E g (units μ l hod' h).tracerMmin = μ * κ * h.S E f h.tracerMmin := by
  rw [units_mmin hh]
  exact S_units he hp hμ κ f g hg _ mmin_pos

theorem density_units (he : EnvUnits E) (hh : HodUnits μ h.hod hod') (hp : h.Pos) (hμ : 0 < μ) (hl : 0 < l) :
    (units μ l hod' h).meanTracerDen E = h.meanTracerDen E / l ^ 3 := by
  unfold HM.meanTracerDen
  rw [T_units he hh hp hμ (1 / (μ * l ^ 3)) (fun i => h.dndm i * h.totOccInt i) _ fun i => by
    rw [units_totOcc hh hp]; change h.dndm i / (μ * l ^ 3) * _ = _; ring]
  have := hμ.ne'
  field_simp

/-- C78: the number density of tracers is per volume in the new units, the effective mass is a mass in them, and the effective biases and the fractions of
satellites and centrals do not depend on them. -/
theorem C78_averages (he : EnvUnits E) (hh : HodUnits μ h.hod hod') (hp : h.Pos) (hμ : 0 < μ) (hl : 0 < l) :
    (units μ l hod' h).meanTracerDen E = h.meanTracerDen E / l ^ 3 ∧
    (units μ l hod' h).biasEffTracer E = h.biasEffTracer E ∧
    (units μ l hod' h).satFrac E = h.satFrac E ∧
    (units μ l hod' h).cenFrac E = h.cenFrac E ∧
    (units μ l hod' h).biasEffMatter E = h.biasEffMatter E ∧
    (h.S E (fun i => h.m i * h.dndm i * h.totOccInt i) h.tracerMmin / h.meanTracerDen E ≠ 0 →
      (units μ l hod' h).massEff E = h.massEff E + log10 μ) := by
  have hd := density_units he hh hp hμ hl
  have hμ0 := hμ.ne'
  have hl0 : l ^ 3 ≠ 0 := by positivity
  have hratio (s n : ℝ) : μ * (1 / (μ * l ^ 3)) * s / (n / l ^ 3) = s / n := by
    rw [show μ * (1 / (μ * l ^ 3)) * s = s / l ^ 3 by field_simp, div_div_div_cancel_right₀ hl0]
  have hsat : (units μ l hod' h).satFrac E = h.satFrac E := by
    unfold HM.satFrac
    rw [hd, T_units he hh hp hμ (1 / (μ * l ^ 3)) (fun i => h.dndm i * h.hod.satOcc (h.m i)) _ fun i => by
      change h.dndm i / (μ * l ^ 3) * hod'.satOcc (μ * h.m i) = _; rw [hh.sat _ (hp.m i)]; ring]
    exact hratio _ _
  refine ⟨hd, ?_, hsat, by unfold HM.cenFrac; rw [hsat], ?_, fun h0 => ?_⟩
  · unfold HM.biasEffTracer
    rw [hd, T_units he hh hp hμ (1 / (μ * l ^ 3)) (fun i => h.dndm i * h.totOccInt i * h.bias i) _ fun i => by
      rw [units_totOcc hh hp]; change h.dndm i / (μ * l ^ 3) * _ * h.bias i = _; ring]
    exact hratio _ _
  · unfold HM.biasEffMatter
    change (if h.forceUnity = true then 1 else _) = _
    split_ifs
    · rfl
    · have := S_units (l := l) (hod' := hod') he hp hμ (1 / l ^ 3) (fun i => h.m i * h.dndm i * h.bias i) (fun i => μ * h.m i * (h.dndm i / (μ * l ^ 3)) * h.bias i)
        (fun i => by field_simp) none (by simp)
      rw [Option.map_none] at this
      change (units μ l hod' h).S E (fun i => μ * h.m i * (h.dndm i / (μ * l ^ 3)) * h.bias i) none / (μ / l ^ 3 * h.rhoGtm) = _
      rw [this, mul_one_div, mul_div_mul_left _ _ (by positivity)]
  · unfold HM.massEff
    rw [hd, T_units he hh hp hμ (1 / l ^ 3) (fun i => h.m i * h.dndm i * h.totOccInt i) _ fun i => by
      rw [units_totOcc hh hp]; change μ * h.m i * (h.dndm i / (μ * l ^ 3)) * _ = _; field_simp]
    rw [mul_one_div, div_mul_eq_mul_div, div_div_div_cancel_right₀ hl0, mul_div_assoc]
    unfold log10
    rw [Real.logb_mul hμ0 h0, add_comm]

/-! ### tables as functions -/

theorem ext_dil {c : ℝ} (hc : 0 < c) (fnc : Ext) (mt : Bool) (x : ℝ) (hx : ExtHom fnc mt x) : ExtHom (dilExt c fnc) mt (c * x) := by
  unfold ExtHom dilExt at *
  cases fnc <;> try trivial
  dsimp only at *
  rw [mul_div_cancel_left₀ _ hc.ne']
  rcases hx with h1 | h1
  · exact Or.inl h1
  · exact Or.inr fun t => h1 _

/-- an extended spline with abscissae and ordinates in other units. -/
theorem tab_units (he : EnvUnits E) (a : ESArgs) {c κ : ℝ} (hc : 0 < c) (hκ : 0 < κ) (hx : ∀ i, 0 < a.x i) (y' : ℕ → ℝ) (hy : ∀ i, y' i = κ * a.y i)
    (hlo : a.domLo = ⊥) (hhi : a.domHi = ⊤) (hl : ExtHom a.lower a.matchLower (a.x 0)) (hu : ExtHom a.upper a.matchUpper (a.x (a.n - 1))) :
    InUnits c κ (mkES E { a with x := fun i => c * a.x i, y := y', lower := dilExt c a.lower, upper := dilExt c a.upper }) (mkES E a) :=
  (mkES_dilate he.spl he.usShift a hc hx hlo hhi).smul
    (tab_scale he.lin he.us { a with x := fun i => c * a.x i, lower := dilExt c a.lower, upper := dilExt c a.upper } y' κ hκ hy (ext_dil hc _ _ _ hl) (ext_dil hc _ _ _ hu)) rfl

theorem dil_low (c : ℝ) : dilExt c h.oneHaloLower = h.oneHaloLower := by
  unfold HM.oneHaloLower
  split_ifs <;> rfl

/-- a spectrum given by its table between the extensions of the one-halo terms. -/
theorem low_units (he : EnvUnits E) (hp : h.Pos) (hl : 0 < l) (y y' : ℕ → ℝ) (hy : ∀ j, y' j = l ^ 3 * y j) (up : Ext) (hup : dilExt l⁻¹ up = up)
    (hu : ExtHom up true (h.k (h.nk - 1))) (low : Ext) (hlow : dilExt l⁻¹ low = low) (hlo : ExtHom low true (h.k 0)) :
    SameSpectrum l (mkES E { n := h.nk, x := fun j => l⁻¹ * h.k j, y := y', lower := low, upper := up })
      (mkES E { n := h.nk, x := h.k, y := y, lower := low, upper := up }) := by
  have := tab_units he { n := h.nk, x := h.k, y := y, lower := low, upper := up } (inv_pos.2 hl) (pow_pos hl 3) hp.k y' hy rfl rfl hlo hu
  dsimp only at this
  rw [hup, hlow] at this
  exact this.spectrum

/-- the lower limit of the one-halo integrals: a minimum below the table is the start of the table. -/
theorem S_start (hs : SplLin E.isp) (ho : h.Ok) (f : ℕ → ℝ) (v : ℝ) (hv : 0 < v) (hv0 : v ≤ h.m 0) : h.S E f (some v) = h.S E f none := by
  unfold HM.S splineIntegral
  simp only [if_true, Option.elim]
  exact C13_no_extrapolation _ _ _ _ _ _ (hs.cont _ _ _ ho.m.log_inc) (Real.log_le_log hv hv0) le_rfl

theorem S_max (hs : SplLin E.isp) (ho : h.Ok) (f : ℕ → ℝ) (v T : ℝ) (hv : 0 < v) (hv0 : v ≤ h.m 0) :
    h.S E f (some (max v T)) = h.S E f (some (max (h.m 0) T)) := by
  rcases le_total T (h.m 0) with h1 | h1
  · rw [max_eq_left h1, S_start hs ho f _ (lt_max_of_lt_left hv) (max_le hv0 h1), S_start hs ho f (h.m 0) (ho.m.pos 0 ho.nm0) le_rfl]
  · rw [max_eq_right h1, max_eq_right (hv0.trans h1)]

theorem one_start (hs : SplLin E.isp) (ho : h.Ok) (v : ℝ) (hv : 0 < v) (hv0 : v ≤ h.m 0) (f : ℕ → ℝ) (j : ℕ) :
    h.S E f (some (h.oneHaloMmin v j)) = h.S E f (some (h.oneHaloMmin (h.m 0) j)) := by
  unfold HM.oneHaloMmin
  dsimp only
  split_ifs
  · exact S_max hs ho f v _ hv hv0
  · rw [S_start hs ho f v hv hv0, S_start hs ho f (h.m 0) (ho.m.pos 0 ho.nm0) le_rfl]

theorem one_units (hμ : 0 < μ) (hl : 0 < l) (v : ℝ) (j : ℕ) : (units μ l hod' h).oneHaloMmin (μ * v) j = μ * h.oneHaloMmin v j := by
  unfold HM.oneHaloMmin
  change (if h.turnover then max (μ * v) (4 * Real.pi * (μ / l ^ 3 * h.meanDensity0) * h.overdensity / 3 * (Real.pi / (l⁻¹ * h.k j) / 10) ^ 3) else μ * v) = _
  rw [show 4 * Real.pi * (μ / l ^ 3 * h.meanDensity0) * h.overdensity / 3 * (Real.pi / (l⁻¹ * h.k j) / 10) ^ 3 =
    μ * (4 * Real.pi * h.meanDensity0 * h.overdensity / 3 * (Real.pi / h.k j / 10) ^ 3) by
      have := hl.ne'
      rw [show Real.pi / (l⁻¹ * h.k j) / 10 = l * (Real.pi / h.k j / 10) by rw [inv_mul_eq_div, div_div_eq_mul_div]; ring]
      field_simp, ← mul_max_of_nonneg _ _ hμ.le]
  dsimp only
  split_ifs <;> rfl

theorem units_ok (ho : h.Ok) (hμ : 0 < μ) (hl : 0 < l) : (units μ l hod' h).Ok where
  m := ⟨fun i hi => mul_pos hμ (ho.m.pos i hi), fun i j hij hj => mul_lt_mul_of_pos_left (ho.m.inc i j hij hj) hμ⟩
  k := ⟨fun i hi => mul_pos (inv_pos.2 hl) (ho.k.pos i hi), fun i j hij hj => mul_lt_mul_of_pos_left (ho.k.inc i j hij hj) (inv_pos.2 hl)⟩
  r := ⟨fun i hi => mul_pos hl (ho.r.pos i hi), fun i j hij hj => mul_lt_mul_of_pos_left (ho.r.inc i j hij hj) hl⟩
  nm0 := ho.nm0
  nk0 := ho.nk0
  nr0 := ho.nr0

theorem one_pos (hp : h.Pos) (j : ℕ) : 0 < h.oneHaloMmin (h.m 0) j := by
  unfold HM.oneHaloMmin
  dsimp only
  split_ifs
  · exact lt_max_of_lt_left (hp.m 0)
  · exact hp.m 0

/-- a one-halo integral from a minimum below the table. -/
theorem do1_units (he : EnvUnits E) (hp : h.Pos) (ho : h.Ok) (hμ : 0 < μ) (hl : 0 < l) (v v' : ℝ) (hv : 0 < v ∧ v ≤ h.m 0) (hv' : 0 < v' ∧ v' ≤ μ * h.m 0)
    (κ : ℝ) (f g : ℕ → ℝ) (hg : ∀ i, g i = κ * f i) (j : ℕ) :
    (units μ l hod' h).S E g (some ((units μ l hod' h).oneHaloMmin v' j)) = μ * κ * h.S E f (some (h.oneHaloMmin v j)) := by
  rw [one_start he.lin (units_ok ho hμ hl) v' hv'.1 hv'.2, one_start he.lin ho v hv.1 hv.2]
  change (units μ l hod' h).S E g (some ((units μ l hod' h).oneHaloMmin (μ * h.m 0) j)) = _
  rw [one_units hμ hl]
  exact S_units he hp hμ κ f g hg (some _) fun w hw => by cases hw; exact one_pos hp j

end
end Halomod.HaloModel
