import Verif.Props.Units5
import Verif.Props.Profiles
import Verif.Model.Catalogue
import Verif.Props.Concentration
import Verif.Model.Bias

/-! # C78: Leauthaud11, single profiles, sampling, concentrations and biases in other units -/
namespace Halomod.HOD

open Halomod.HaloModel

/-- moving all abscissae of the samples and the point by the same amount does not change what is interpolated. -/
def ShiftInv (interp : List (ℝ × ℝ) → ℝ → ℝ) : Prop := ∀ (T : List (ℝ × ℝ)) (s v : ℝ), interp (T.map fun p => (p.1 + s, p.2)) (v + s) = interp T v

/-- the line through the first two samples does. -/
example : ShiftInv fun T v => match T with
    | p :: q :: _ => (q.2 - p.2) / (q.1 - p.1) * (v - p.1) + p.2
    | _ => 0 := by
  intro T s v
  rcases T with _ | ⟨p, _ | ⟨q, t⟩⟩
  · rfl
  · rfl
  · simp

/-- the parameters of `Leauthaud11` in units of mass of which `10 ^ s` make an old one: the knee of its relation and its lowest mass are moved, and its two amplitudes
compensate the hard-coded mass `1e12 * 0.72`. -/
noncomputable def LeauthaudP.units (s : ℝ) (p : LeauthaudP) : LeauthaudP :=
  { p with smhm_m1_0 := p.smhm_m1_0 + s, M_min := p.M_min + s, bsat := p.bsat * (10 ^ s) ^ (1 - p.betasat), bcut := p.bcut * (10 ^ s) ^ (1 - p.betacut) }

theorem leauthaud_mean (s : ℝ) (p : LeauthaudP) (x : ℝ) : (p.units s).meanLogHaloMass x = p.meanLogHaloMass x + s := by
  simp only [LeauthaudP.meanLogHaloMass, LeauthaudP.units, LeauthaudP.evolve]
  ring

theorem leauthaud_stellar {interp : List (ℝ × ℝ) → ℝ → ℝ} (hi : ShiftInv interp) (s : ℝ) (p : LeauthaudP) (m : ℝ) (hm : 0 < m) :
    (p.units s).meanLogStellarMass interp (10 ^ s * m) = p.meanLogStellarMass interp m := by
  unfold LeauthaudP.meanLogStellarMass
  have e1 : log10 ((10:ℝ) ^ s * m) = log10 m + s := by
    have := log_shift s 0 m hm
    linarith
  rw [e1]
  generalize logStellarTable = T
  have := hi (T.map fun x => (p.meanLogHaloMass x, x)) s (log10 m)
  rw [List.map_map] at this
  rw [← this]
  congr 1
  refine List.map_congr_left fun x _ => ?_
  simp only [Function.comp, leauthaud_mean]

theorem leauthaud_scaled (s : ℝ) (p : LeauthaudP) (b beta : ℝ) : (p.units s).scaled (b * (10 ^ s) ^ (1 - beta)) beta = 10 ^ s * p.scaled b beta := by
  unfold LeauthaudP.scaled
  have e : (p.units s).sm_thresh = p.sm_thresh := rfl
  rw [e, leauthaud_mean, ten_shift]
  dsimp only
  have hμ : (0:ℝ) < 10 ^ s := by positivity
  have hX : (0:ℝ) < 10 ^ p.meanLogHaloMass p.sm_thresh := by positivity
  generalize (10:ℝ) ^ s = μ at hμ ⊢
  generalize (10:ℝ) ^ p.meanLogHaloMass p.sm_thresh = X at hX ⊢
  have hk : (0:ℝ) < 1.0e12 * 0.72 := by norm_num
  generalize (1.0e12 * 0.72 : ℝ) = k at hk ⊢
  rw [mul_div_assoc, Real.mul_rpow hμ.le (by positivity)]
  have : μ ^ (1 - beta) * μ ^ beta = μ := by rw [← Real.rpow_add hμ]; simp
  calc _ = k * b * (X / k) ^ beta * (μ ^ (1 - beta) * μ ^ beta) := by ring
    _ = _ := by rw [this]; ring

/-- C78: `Leauthaud11` in other units of mass: its hard-coded mass is compensated by its amplitudes, and the lowest mass it writes into its parameters moves along. -/
theorem C78_leauthaud (interp : List (ℝ × ℝ) → ℝ → ℝ) (hi : ShiftInv interp) (s : ℝ) (p : LeauthaudP) (central : Bool) :
    HodUnits (10 ^ s) (leauthaud11 interp p central) (leauthaud11 interp (p.units s) central) ∧
    (∀ x, (p.units s).meanLogHaloMass x = p.meanLogHaloMass x + s) ∧
    ∀ m, 0 < m → (p.units s).meanLogStellarMass interp (10 ^ s * m) = p.meanLogStellarMass interp m := by
  refine ⟨?_, leauthaud_mean s p, leauthaud_stellar hi s p⟩
  have hc : ∀ m, 0 < m → leauthaudCen interp (p.units s) (10 ^ s * m) = leauthaudCen interp p m := fun m hm => by
    unfold leauthaudCen
    rw [leauthaud_stellar hi s p m hm]
    rfl
  refine poisson_units _ _ _ rfl rfl rfl hc (fun m hm => ?_) fun _ _ => rfl
  dsimp only [leauthaudSat]
  rw [hc m hm]
  have e1 : (p.units s).scaled (p.units s).bcut (p.units s).betacut = 10 ^ s * p.scaled p.bcut p.betacut := leauthaud_scaled s p p.bcut p.betacut
  have e2 : (p.units s).scaled (p.units s).bsat (p.units s).betasat = 10 ^ s * p.scaled p.bsat p.betasat := leauthaud_scaled s p p.bsat p.betasat
  rw [e1, e2, ← mul_neg, mul_div_mul_left _ _ (by positivity), mul_div_mul_left _ _ (by positivity)]
  rfl

end Halomod.HOD

namespace Halomod.Profiles

open Halomod.Tools Halomod.Populate Halomod.HaloModel

/-- the surroundings of a profile with `μ` new units of mass and `l` new units of length to an old one: densities are converted; the concentration and the peak height
of a mass are those of the same mass. -/
noncomputable def Env.units (μ l : ℝ) (e : Env) : Env :=
  { e with meanDens := μ / l ^ 3 * e.meanDens, meanDens0 := μ / l ^ 3 * e.meanDens0, cmRel := fun m => e.cmRel (m / μ), nuFn := fun m => e.nuFn (m / μ) }

/-- what a density carries under each normalisation: a mass per volume, one per volume, or nothing. -/
noncomputable def densUnit (μ l : ℝ) : Norm → ℝ
  | .none => μ / l ^ 3
  | .m => 1 / l ^ 3
  | _ => 1

/-- what a self-convolution of a density carries: the square of a density times a volume. -/
noncomputable def lamUnit (μ l : ℝ) : Norm → ℝ
  | .none => μ ^ 2 / l ^ 3
  | .m => 1 / l ^ 3
  | _ => 1

/-- what the argument of a radial function carries: a length, or nothing. -/
def coordUnit (l : ℝ) : RCoord → ℝ
  | .r => l
  | _ => 1

/-- what the argument of a transform carries: an inverse length, or nothing. -/
noncomputable def wavenumberUnit (l : ℝ) : KCoord → ℝ
  | .k => l⁻¹
  | _ => 1

/-- what a transform carries: a mass, or nothing. -/
def transUnit (μ : ℝ) : Norm → ℝ
  | .none => μ
  | _ => 1

section
variable {e : Env} {μ l : ℝ}

theorem radius_units (he : e.Good) (hμ : 0 < μ) (hl : 0 < l) (m : ℝ) (hm : 0 ≤ m) (b : Bool) : (e.units μ l).massToRadius (μ * m) b = l * e.massToRadius m b := by
  have hd := dens_pos he b
  have hD := he.delta_pos
  have hpi := Real.pi_pos
  unfold Env.massToRadius
  have e1 : (if b then (e.units μ l).meanDens else (e.units μ l).meanDens0) = μ / l ^ 3 * (if b then e.meanDens else e.meanDens0) := by cases b <;> rfl
  have e2 : (e.units μ l).deltaHalo = e.deltaHalo := rfl
  rw [e1, e2]
  generalize (if b then e.meanDens else e.meanDens0) = d at hd ⊢
  have e3 : 3 * (μ * m) / (4 * Real.pi * e.deltaHalo * (μ / l ^ 3 * d)) = l ^ 3 * (3 * m / (4 * Real.pi * e.deltaHalo * d)) := by
    field_simp
  rw [e3, Real.mul_rpow (by positivity) (by positivity)]
  congr 1
  rw [← Real.rpow_natCast, ← Real.rpow_mul hl.le]
  norm_num

theorem mass_units (hμ : 0 < μ) (hl : 0 < l) (r : ℝ) (b : Bool) : (e.units μ l).radiusToMass (l * r) b = μ * e.radiusToMass r b := by
  unfold Env.radiusToMass
  have e1 : (if b then (e.units μ l).meanDens else (e.units μ l).meanDens0) = μ / l ^ 3 * (if b then e.meanDens else e.meanDens0) := by cases b <;> rfl
  have e2 : (e.units μ l).deltaHalo = e.deltaHalo := rfl
  rw [e1, e2]
  field_simp

theorem cm_units (s : Shape) (hμ : 0 < μ) (m : ℝ) : s.cm (e.units μ l) (μ * m) = s.cm e m := by
  simp only [Shape.cm, Env.units, mul_div_cancel_left₀ m hμ.ne']

theorem rsBase_units (he : e.Good) (hμ : 0 < μ) (hl : 0 < l) (m : ℝ) (hm : 0 ≤ m) (c : ℝ) (b : Bool) :
    (e.units μ l).rsBase (μ * m) c b = l * e.rsBase m c b := by
  unfold Env.rsBase
  rw [radius_units he hμ hl m hm b]
  simp only [Env.units, mul_div_cancel_left₀ m hμ.ne']
  ring

theorem rs_units (s : Shape) (he : e.Good) (hμ : 0 < μ) (hl : 0 < l) (m : ℝ) (hm : 0 ≤ m) (c : ℝ) : s.rs (e.units μ l) (μ * m) c = l * s.rs e m c := by
  unfold Shape.rs
  rw [rsBase_units he hμ hl m hm, mul_assoc]

theorem rVars_units (s : Shape) (he : e.Good) (hμ : 0 < μ) (hl : 0 < l) (r m : ℝ) (hm : 0 ≤ m) (c : Option ℝ) (coord : RCoord) :
    s.rVars (e.units μ l) (coordUnit l coord * r) (some (μ * m)) c coord = (s.rVars e r (some m) c coord).map fun v => (v.1, l * v.2.1, v.2.2) := by
  simp only [Shape.rVars, cm_units s hμ, rs_units s he hμ hl m hm]
  cases coord
  · simp only [coordUnit, Except.map, mul_div_mul_left _ _ hl.ne']
  · simp [coordUnit, Except.map]
  · simp [coordUnit, Except.map]
  · rfl

theorem rhoS_units (s : Shape) (c rs : ℝ) (norm : Norm) :
    s.rhoS (e.units μ l) c (l * rs) norm = (s.rhoS e c rs norm).map fun v => densUnit μ l norm * v := by
  cases norm
  · simp only [Shape.rhoS, Env.units, densUnit, Except.map]
    congr 1
    ring
  · simp only [Shape.rhoS, densUnit, Except.map]
    congr 1
    generalize s.h c = x
    generalize (1.0:ℝ) = w
    ring
  · simp only [Shape.rhoS, Env.units, densUnit, Except.map, one_mul]
  · rfl

/-- C78: a profile in other units. For every class, normalisation and coordinate: radii and scale radii are converted as lengths, masses within a radius as masses; densities
carry mass per volume, one per volume or nothing, transforms a mass or nothing, self-convolutions as the square of a density times a volume, enclosed fractions nothing;
and a call fails in both units or in none. -/
theorem C78_profiles (s : Shape) (he : e.Good) (hμ : 0 < μ) (hl : 0 < l) (m : ℝ) (hm : 0 ≤ m) :
    (∀ b, (e.units μ l).massToRadius (μ * m) b = l * e.massToRadius m b) ∧
    (∀ r b, (e.units μ l).radiusToMass (l * r) b = μ * e.radiusToMass r b) ∧
    (∀ b, s.scaleRadius (e.units μ l) (μ * m) b = (s.scaleRadius e m b).map (l * ·)) ∧
    (∀ r norm c coord, s.rho (e.units μ l) (coordUnit l coord * r) (μ * m) norm c coord = (s.rho e r m norm c coord).map (densUnit μ l norm * ·)) ∧
    (∀ r norm c coord, s.rhoInf (e.units μ l) (coordUnit l coord * r) (μ * m) norm c coord = (s.rhoInf e r m norm c coord).map (densUnit μ l norm * ·)) ∧
    (∀ k norm c coord, s.u (e.units μ l) (wavenumberUnit l coord * k) (μ * m) norm c coord = (s.u e k m norm c coord).map (transUnit μ norm * ·)) ∧
    (∀ pInf k norm c coord, s.uInf pInf (e.units μ l) (l⁻¹ * k) (μ * m) norm c coord = (s.uInf pInf e k m norm c coord).map (transUnit μ norm * ·)) ∧
    (∀ L r norm c coord, s.lam L (e.units μ l) (coordUnit l coord * r) (μ * m) norm c coord = (s.lam L e r m norm c coord).map (lamUnit μ l norm * ·)) ∧
    (∀ L r norm c coord, s.lamInf L (e.units μ l) (coordUnit l coord * r) (μ * m) norm c coord = (s.lamInf L e r m norm c coord).map (lamUnit μ l norm * ·)) ∧
    (∀ r c coord, s.cdf (e.units μ l) (coordUnit l coord * r) c (some (μ * m)) coord = s.cdf e r c (some m) coord) := by
  have hR := rVars_units s he hμ hl
  have hlam : ∀ L norm c rs x, s.lamValue L (e.units μ l) norm c (l * rs) x = (s.lamValue L e norm c rs x).map (lamUnit μ l norm * ·) := fun L norm c rs x => by
    simp only [Shape.lamValue]
    split_ifs with h
    · rw [rhoS_units s]
      rcases h with rfl | rfl
      · simp only [Shape.rhoS, Except.map, densUnit, lamUnit, bind, Except.bind, pure, Except.pure]
        congr 1
        field_simp
      · simp only [Shape.rhoS, Except.map, densUnit, lamUnit, bind, Except.bind, pure, Except.pure]
        congr 1
        generalize 1.0 / (4 * Real.pi * rs ^ 3 * s.h c) = a
        field_simp
    · rfl
  refine ⟨radius_units he hμ hl m hm, mass_units hμ hl, fun b => ?_, fun r norm c coord => ?_, fun r norm c coord => ?_, fun k norm c coord => ?_, fun pInf k norm c coord => ?_,
    fun L r norm c coord => ?_, fun L r norm c coord => ?_, fun r c coord => ?_⟩
  · simp only [Shape.scaleRadius, cm_units s hμ, rsBase_units he hμ hl m hm]
    split_ifs <;> simp only [Except.map, mul_assoc]
  · simp only [Shape.rho, hR r m hm]
    cases s.rVars e r (some m) c coord with
    | error x => rfl
    | ok v =>
      simp only [Except.map, bind, Except.bind, rhoS_units s]
      cases s.rhoS e v.1 v.2.1 norm with
      | error x => rfl
      | ok a =>
        simp only [pure, Except.pure]
        congr 1
        split_ifs
        · norm_num
        · ring
  · simp only [Shape.rhoInf, hR r m hm]
    cases s.rVars e r (some m) c coord with
    | error x => rfl
    | ok v =>
      simp only [Except.map, bind, Except.bind, rhoS_units s]
      cases s.rhoS e v.1 v.2.1 norm with
      | error x => rfl
      | ok a =>
        simp only [pure, Except.pure]
        congr 1
        ring
  · have hk : s.kVars (e.units μ l) (wavenumberUnit l coord * k) (μ * m) c coord = s.kVars e k m c coord := by
      simp only [Shape.kVars, cm_units s hμ, rs_units s he hμ hl m hm]
      cases coord
      · simp only [wavenumberUnit]
        congr 2
        field_simp
      · simp [wavenumberUnit]
      · rfl
    simp only [Shape.u, hk]
    cases s.kVars e k m c coord with
    | error x => rfl
    | ok v =>
      simp only [bind, Except.bind]
      cases norm
      · simp only [uNorm, transUnit, Except.map]
        congr 1
        ring
      · simp only [uNorm, transUnit, Except.map, one_mul]
      · rfl
      · rfl
  · have hk : s.kVars (e.units μ l) (l⁻¹ * k) (μ * m) = s.kVars e k m := by
      simp only [Shape.kVars, cm_units s hμ, rs_units s he hμ hl m hm]
      congr 2
      field_simp
    simp only [Shape.uInf, hk]
    cases s.kVars e k m with
    | error x => rfl
    | ok v =>
      simp only [bind, Except.bind]
      cases norm
      · simp only [uNorm, transUnit, Except.map]
        congr 1
        ring
      · simp only [uNorm, transUnit, Except.map, one_mul]
      · rfl
      · rfl
  · cases L with
    | none => rfl
    | some L =>
      simp only [Shape.lam, hR r m hm]
      cases s.rVars e r (some m) c coord with
      | error x => rfl
      | ok v => simp only [Except.map, bind, Except.bind, hlam]
  · simp only [Shape.lamInf, hR r m hm]
    cases s.rVars e r (some m) c coord with
    | error x => rfl
    | ok v =>
      cases L with
      | none => rfl
      | some L => simp only [Except.map, bind, Except.bind, hlam]
  · simp only [Shape.cdf, hR r m hm]
    cases s.rVars e r (some m) c coord with
    | error x => rfl
    | ok v => rfl

/-- C78 finding: the gravitational constant of `virial_velocity` is the number in SI units, whatever the units of mass and length: the velocity is only known up to the square
root of their ratio. -/
theorem C78_virial_velocity (he : e.Good) (hμ : 0 < μ) (hl : 0 < l) (m : ℝ) (hm : 0 ≤ m) :
    (e.units μ l).virialVelocity (some (μ * m)) none = (e.virialVelocity (some m) none).map (Real.sqrt (μ / l) * ·) ∧
    ∀ r, (e.units μ l).virialVelocity none (some (l * r)) = (e.virialVelocity none (some r)).map (Real.sqrt (μ / l) * ·) := by
  constructor
  · simp only [Env.virialVelocity, radius_units he hμ hl m hm, Except.map]
    congr 1
    rw [← Real.sqrt_mul (by positivity)]
    congr 1
    generalize e.massToRadius m = R
    field_simp
  · intro r
    simp only [Env.virialVelocity, mass_units hμ hl, Except.map]
    congr 1
    rw [← Real.sqrt_mul (by positivity)]
    congr 1
    generalize e.radiusToMass r = R
    field_simp

/-- C78: a position drawn in a halo is the same place in other units, for the same random numbers. -/
theorem C78_populate (s : Shape) (he : e.Good) (hμ : 0 < μ) (hl : 0 < l) (isp : Spl) (m : ℝ) (hm : 0 ≤ m) (U : ℕ → ℝ) (G : ℕ → Fin 3 → ℝ) (n : ℕ) (centre : Fin 3 → ℝ) :
    s.populateN (e.units μ l) isp U G n (μ * m) (fun j => l * centre j) = (s.populateN e isp U G n m centre).map fun p j => l * p j := by
  have hone (u : ℝ) (g : Fin 3 → ℝ) : s.populateOne (e.units μ l) isp (μ * m) none (fun j => l * centre j) u g = (s.populateOne e isp m none centre u g).map fun p j => l * p j := by
    have h0 := rVars_units s he hμ hl 0 m hm none .s
    rw [mul_zero] at h0
    simp only [Shape.populateOne, h0]
    cases s.rVars e 0 (some m) none .s with
    | error x => rfl
    | ok v =>
      have hc (x : ℝ) : s.cdf (e.units μ l) x (some v.1) (some (μ * m)) .x = s.cdf e x (some v.1) (some m) .x := by
        have h1 := rVars_units s he hμ hl x m hm (some v.1) .x
        simp only [coordUnit, one_mul] at h1
        simp only [Shape.cdf, h1]
        cases s.rVars e x (some m) (some v.1) .x with
        | error x => rfl
        | ok v => rfl
      simp only [Except.map, bind, Except.bind, pure, Except.pure, hc]
      congr 1
      funext j
      unfold place
      ring
  unfold Shape.populateN
  rw [List.map_filterMap]
  refine List.filterMap_congr fun k _ => ?_
  rw [hone]
  cases s.populateOne e isp m none centre (U k) (G k) <;> rfl

end

end Halomod.Profiles

namespace Halomod.Concentration

theorem npInterp_dilate {μ : ℝ} (hμ : 0 < μ) (T : List (ℝ × ℝ)) (v : ℝ) : npInterp (T.map fun p => (μ * p.1, p.2)) (μ * v) = npInterp T v := by
  classical
  induction T with
  | nil => rfl
  | cons p t ih =>
    cases t with
    | nil => rfl
    | cons q t =>
      simp only [List.map_cons, npInterp] at ih ⊢
      rw [ih]
      simp only [mul_lt_mul_iff_right₀ hμ, mul_right_inj' hμ.ne']
      have : (q.2 - p.2) / (μ * q.1 - μ * p.1) * (μ * v - μ * p.1) = (q.2 - p.2) / (q.1 - p.1) * (v - p.1) := by
        rw [← mul_sub, ← mul_sub]
        generalize q.1 - p.1 = a
        field_simp
      rw [this]

theorem interpFill_dilate {μ : ℝ} (hμ : 0 < μ) (T : List (ℝ × ℝ)) (lo hi v : ℝ) : interpFill (T.map fun p => (μ * p.1, p.2)) lo hi (μ * v) = interpFill T lo hi v := by
  classical
  have hs : sortSamples (T.map fun p => (μ * p.1, p.2)) = (sortSamples T).map fun p => (μ * p.1, p.2) := by
    unfold sortSamples
    rw [List.map_insertionSort (r := fun p q : ℝ × ℝ => p.1 ≤ q.1) (s := fun p q : ℝ × ℝ => p.1 ≤ q.1)]
    intro a _ b _
    dsimp only
    rw [mul_le_mul_iff_right₀ hμ]
  unfold interpFill
  simp only [List.forall_mem_map, mul_lt_mul_iff_right₀ hμ, hs, npInterp_dilate hμ]

/-- C78: the concentration of a halo is the same in other units of mass (`μ` new units to an old one): of the power-law relations when their pivot mass is converted (a given
one, or the non-linear mass), of `Maccio07`, whose pivot is hard-coded, when its amplitude compensates, of `Bullock01` when peak heights are those of the same masses, and of the
interpolating wrapper that fills gaps in a table of masses. -/
theorem C78_concentrations (μ : ℝ) (hμ : 0 < μ) :
    (∀ (p : PowerParams) (mnl : ℝ → ℝ) (m z : ℝ), bullockPower { p with ms := p.ms.map (μ * ·) } (fun z => μ * mnl z) (μ * m) z = bullockPower p mnl m z) ∧
    (∀ (mdef : String) (p : DuffyParams) (m z : ℝ), duffy08 mdef { p with ms := μ * p.ms } (μ * m) z = duffy08 mdef p m z) ∧
    (∀ c0 gamma norm m z : ℝ, 0 < m → maccio07 (c0 * μ ^ (0.109:ℝ)) gamma norm (μ * m) z = maccio07 c0 gamma norm m z) ∧
    (∀ (norm K F : ℝ) (nu D : ℝ → ℝ) (m : List ℝ) (z : ℝ), bullockCm norm K F (fun x => nu (x / μ)) D (m.map (μ * ·)) z = bullockCm norm K F nu D m z) ∧
    (∀ m c : List ℝ, interpConc (m.map (μ * ·)) c = interpConc m c) := by
  have hp (m ms a b c z : ℝ) : powerCm (μ * m) (μ * ms) a b c z = powerCm m ms a b c z := by
    unfold powerCm
    rw [mul_div_mul_left _ _ hμ.ne']
  refine ⟨fun p mnl m z => ?_, fun mdef p m z => ?_, fun c0 gamma norm m z hm => ?_, fun norm K F nu D m z => ?_, fun m c => ?_⟩
  · have ho : orElse (p.ms.map (μ * ·)) (μ * mnl z) = μ * orElse p.ms (mnl z) := by
      unfold orElse
      cases p.ms with
      | none => simp
      | some v => by_cases h : v = 0 <;> simp [h, hμ.ne']
    unfold bullockPower
    dsimp only
    rw [ho, hp]
  · unfold duffy08
    simp only [hp]
  · unfold maccio07
    rw [mul_assoc μ m, Real.mul_rpow hμ.le (by positivity)]
    have : μ ^ (0.109:ℝ) * μ ^ (-0.109:ℝ) = 1 := by rw [← Real.rpow_add hμ]; norm_num
    calc _ = norm * c0 * (m * (10:ℝ) ^ (-11:ℤ)) ^ (-0.109:ℝ) * 4 / (1 + z) ^ gamma * (μ ^ (0.109:ℝ) * μ ^ (-0.109:ℝ)) := by ring
      _ = _ := by rw [this, mul_one]
  · unfold bullockCm bullockZc
    rw [List.map_map]
    have : ((fun x => growthInv D (Real.sqrt (nu (F * x / μ)))) ∘ fun x => μ * x) = fun x => growthInv D (Real.sqrt (nu (F * x))) := by
      funext x
      simp only [Function.comp]
      rw [show F * (μ * x) / μ = F * x by field_simp]
    simp only [this]
  · classical
    unfold interpConc
    have hz : (m.map (μ * ·)).zip c = (m.zip c).map fun p => (μ * p.1, p.2) := by
      rw [List.zip_map_left]
      rfl
    have hf : ((m.map (μ * ·)).zip c).filter (fun p => 0 < p.2) = ((m.zip c).filter fun p => 0 < p.2).map fun p => (μ * p.1, p.2) := by
      rw [hz, List.filter_map]
      rfl
    simp only [hf, List.length_map, List.map_map]
    split_ifs
    · rfl
    · refine List.map_congr_left fun x _ => ?_
      simp only [Function.comp]
      rw [interpFill_dilate hμ]

/-- C78 finding: `Ludlow16Empirical` carries a mass in its fit of the variance: the same parameters give another concentration in any other unit. -/
theorem C78_empirical_hard_coded (p : EmpParams) {dc D m z μ : ℝ} (hμ : 0 < μ) (h1 : μ ≠ 1) (hdc : 0 < dc) (hD : 0 < D) (hm : 0 < m) (hz : -1 < z) (hn : 0 < p.norm)
    (h0 : 0 < p.c0_0) (hb : 0 < p.beta_0) (hg1 : 0 < p.gamma1_0) (hg2 : 0 < p.gamma2_0) (hnu : 0 < nu0 D z) : empirical p dc D (μ * m) z ≠ empirical p dc D m z := by
  rcases lt_or_gt_of_ne h1 with h | h
  · obtain ⟨c, c', e1, e2, _, e3⟩ := C30_empirical p hdc hD (mul_pos hμ hm) (mul_lt_of_lt_one_left hm h) hz hn h0 hb hg1 hg2 hnu
    rw [e1, e2]
    exact fun e => absurd (Option.some.inj e) e3.ne'
  · obtain ⟨c, c', e1, e2, _, e3⟩ := C30_empirical p hdc hD hm (lt_mul_of_one_lt_left hm h) hz hn h0 hb hg1 hg2 hnu
    rw [e1, e2]
    exact fun e => absurd (Option.some.inj e) e3.ne

/-- its hypotheses are met at the default parameters. -/
example : (0:ℝ) < 3 ∧ (0:ℝ) < ({} : EmpParams).norm ∧ 0 < ({} : EmpParams).c0_0 ∧ 0 < ({} : EmpParams).beta_0 ∧ 0 < ({} : EmpParams).gamma1_0 ∧ 0 < ({} : EmpParams).gamma2_0 ∧ 0 < nu0 1 0 :=
  ⟨by norm_num, by norm_num, by norm_num, by norm_num, by norm_num, by norm_num, C30_empirical_range one_pos le_rfl (by norm_num)⟩

end Halomod.Concentration

namespace Halomod.Bias

/-- C78: the biases written in terms of the mass are the same in other units when the non-linear mass is converted; the others see the peak height only. -/
theorem C78_biases (μ : ℝ) (hμ : 0 < μ) (p : SeljakParams) (m mstar a1 a2 Om0 n s8 h : ℝ) :
    seljak04 p (μ * m) (μ * mstar) = seljak04 p m mstar ∧
    seljak04Cosmo p a1 a2 Om0 n s8 h (μ * m) (μ * mstar) = seljak04Cosmo p a1 a2 Om0 n s8 h m mstar := by
  have e : seljak04 p (μ * m) (μ * mstar) = seljak04 p m mstar := by
    unfold seljak04
    rw [mul_div_mul_left _ _ hμ.ne']
  refine ⟨e, ?_⟩
  unfold seljak04Cosmo
  rw [e, mul_div_mul_left _ _ hμ.ne']

end Halomod.Bias

namespace Halomod.Profiles

/-- the hypotheses of the theorems about profiles are met by the fiducial surroundings in non-trivial units, at a positive mass. -/
example : fidEnv.Good ∧ (0:ℝ) < 0.7 ∧ (0:ℝ) < 1 / 0.7 ∧ (0:ℝ) ≤ 1e13 := ⟨fidEnv_good, by norm_num, by norm_num, by norm_num⟩

end Halomod.Profiles
