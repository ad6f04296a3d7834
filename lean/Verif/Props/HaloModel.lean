import Verif.Model.HaloModel
import Verif.Lemmas.SplInt
import Verif.Props.Exclusion

/-! # C36, C39, C40, C44: identities of the halo model -/
namespace Halomod.HaloModel

open Finset Halomod.Tools Halomod.HOD Halomod.Exclusion

theorem extFunc_some (us : USpl) (spl : ℝ → ℝ) (fnc : Ext) (n : ℕ) (x y : ℕ → ℝ) (mtch : Bool) (mx : ℝ)
    (hx : ∀ i < n, 0 < x i) (hf : fnc ≠ .invalid) : ∃ g, extFunc us spl fnc n x y mtch mx = some g := by
  cases fnc with
  | callable f => simp only [extFunc]; split_ifs <;> exact ⟨_, rfl⟩
  | powerLaw => simp only [extFunc]; rw [if_neg (not_not.mpr hx)]; split_ifs <;> exact ⟨_, rfl⟩
  | boundary => exact ⟨_, rfl⟩
  | none => exact ⟨_, rfl⟩
  | invalid => exact absurd rfl hf

/-- every extended spline the halo model builds exists, returns its table at the table's abscissae, and
between them is the interpolant. -/
theorem mkES_ok (E : Env) (hs : SplOk E.isp) (a : ESArgs) (hd : a.domLo = ⊥) (hu : a.domHi = ⊤)
    (hx : Grid a.n a.x) (hl : a.lower ≠ .invalid) (hup : a.upper ≠ .invalid) :
    ∃ f, mkES E a = some f ∧ (∀ j < a.n, f (a.x j) = a.y j) ∧
      ∀ t, a.x 0 ≤ t → t ≤ a.x (a.n - 1) → f t = E.isp a.n a.x a.y t := by
  obtain ⟨lf, hlf⟩ := extFunc_some E.us (E.isp a.n a.x a.y) a.lower (min a.nLow a.n) a.x a.y a.matchLower
    (a.x 0) (fun i hi => hx.pos i (lt_of_lt_of_le hi (min_le_right _ _))) hl
  obtain ⟨uf, huf⟩ := extFunc_some E.us (E.isp a.n a.x a.y) a.upper (min a.nUp a.n)
    (fun i => a.x (a.n - min a.nUp a.n + i)) (fun i => a.y (a.n - min a.nUp a.n + i)) a.matchUpper
    (a.x (a.n - 1)) (fun i hi => hx.pos _ (by have := min_le_right a.nUp a.n; omega)) hup
  have he : esInit E.isp E.us a = some
      { xmin := a.x 0, xmax := a.x (a.n - 1), spl := E.isp a.n a.x a.y, lfunc := lf, ufunc := uf } := by
    unfold esInit
    rw [if_neg (by rw [hd, hu]; simp)]
    simp only [hlf, huf]
  have hb := C12_branches E.isp E.us hs a _ he hx.inc
  exact ⟨_, by unfold mkES; rw [he]; rfl, hb.1, hb.2.1⟩

/-- what is required of a halo model's grids: positive, increasing, at least one point. -/
structure HM.Ok (h : HM) : Prop where
  m : Grid h.nm h.m
  k : Grid h.nk h.k
  r : Grid h.nr h.rt
  nm0 : 0 < h.nm
  nk0 : 0 < h.nk
  nr0 : 0 < h.nr

section
variable {E : Env} {h : HM}

theorem S_add (hs : SplLin E.isp) (ho : h.Ok) (f g : ℕ → ℝ) (a : Option ℝ) :
    h.S E (fun i => f i + g i) a = h.S E f a + h.S E g a := si_add hs ho.m f g a none

theorem S_smul (hs : SplLin E.isp) (c : ℝ) (f : ℕ → ℝ) (a : Option ℝ) :
    h.S E (fun i => c * f i) a = c * h.S E f a := si_smul hs.toSplOk c f a none

theorem S_congr (hs : SplLin E.isp) {f g : ℕ → ℝ} (a : Option ℝ) (hfg : ∀ i < h.nm, f i = g i) :
    h.S E f a = h.S E g a := si_congr hs.toSplOk a none hfg

theorem S_sum (hs : SplLin E.isp) (ho : h.Ok) (f : ℕ → ℝ) (a : Option ℝ) :
    h.S E f a = ∑ i ∈ range h.nm, f i * siW E.isp h.nm h.m a none i := si_sum hs ho.m f a none

/-- does the tracer have its mass integrals cut at `10**M_min`? (sharp cut, and satellites require the
central) -/
def HM.cut (h : HM) : Prop := h.hod.sharpCut = true ∧ (h.hod.central = true ∨ h.hod.inherent = true)

theorem cut_true (hc : h.cut) :
    (h.hod.sharpCut && (h.hod.central || h.hod.inherent)) = true := by
  obtain ⟨a, b⟩ := hc
  rcases b with b | b <;> simp [a, b]

theorem cut_false (hc : ¬ h.cut) :
    (h.hod.sharpCut && (h.hod.central || h.hod.inherent)) = false := by
  unfold HM.cut at hc
  cases h1 : h.hod.sharpCut <;> cases h2 : h.hod.central <;> cases h3 : h.hod.inherent <;> simp_all

/-! ## C36 -/

/-- C36: the mean tracer density is the integral over mass, from `10**M_min` to the largest grid mass, of
a function that at every grid mass in that range equals mass function times mean total occupation —
provided (hypothesis `hc`) the central occupation is one above `M_min`, as for `Zehavi05` and `Tinker05`. -/
theorem C36_mean_density_cut_partial (hs : SplLin E.isp) (ho : h.Ok) (hc : h.cut)
    (hone : ∀ M, (10:ℝ) ^ h.hod.mmin ≤ M → h.hod.cenOcc M = 1)
    (h1 : h.m 0 ≤ 10 ^ h.hod.mmin) (h2 : (10:ℝ) ^ h.hod.mmin ≤ h.m (h.nm - 1)) :
    ∃ g : ℝ → ℝ, h.meanTracerDen E = (∫ M in (10:ℝ) ^ h.hod.mmin..h.m (h.nm - 1), g M) ∧
      ∀ i < h.nm, (10:ℝ) ^ h.hod.mmin ≤ h.m i → g (h.m i) = h.dndm i * h.hod.totalOcc (h.m i) := by
  have hm : h.tracerMmin = some (10 ^ h.hod.mmin) := by
    unfold HM.tracerMmin; rw [cut_true hc, if_pos rfl]
  have := C13_log E.isp hs.toSplOk h.nm h.m (fun i => h.dndm i * h.totOccInt i)
    (some (10 ^ h.hod.mmin)) none ho.m.pos ho.m.inc ho.nm0 (hs.cont _ _ _ ho.m.log_inc)
    (by simp only [Option.getD_some]; positivity) (by simpa using h1) (by simpa using h2) (by simp)
  simp only [Option.getD_some, Option.getD_none] at this
  refine ⟨_, by unfold HM.meanTracerDen HM.S; rw [hm]; exact this.1, ?_⟩
  intro i hi hmi
  rw [this.2 i hi]
  unfold HM.totOccInt HM.cenOccInt Hod.totalOcc
  rw [cut_true hc, if_pos rfl, hone _ hmi]

/-- C36: for every other HOD the integral runs over the whole mass grid and its integrand equals mass
function times mean total occupation at every grid mass. -/
theorem C36_mean_density_nocut (hs : SplLin E.isp) (ho : h.Ok) (hc : ¬ h.cut) :
    ∃ g : ℝ → ℝ, h.meanTracerDen E = (∫ M in h.m 0..h.m (h.nm - 1), g M) ∧
      ∀ i < h.nm, g (h.m i) = h.dndm i * h.hod.totalOcc (h.m i) := by
  have hm : h.tracerMmin = none := by
    unfold HM.tracerMmin; rw [cut_false hc]; simp
  have := C13_log E.isp hs.toSplOk h.nm h.m (fun i => h.dndm i * h.totOccInt i)
    none none ho.m.pos ho.m.inc ho.nm0 (hs.cont _ _ _ ho.m.log_inc)
    (by simpa using ho.m.pos 0 ho.nm0) (by simp)
    (by simpa using ho.m.mono (Nat.zero_le _) (by have := ho.nm0; omega)) (by simp)
  simp only [Option.getD_none] at this
  refine ⟨_, by unfold HM.meanTracerDen HM.S; rw [hm]; exact this.1, ?_⟩
  intro i hi
  rw [this.2 i hi]
  unfold HM.totOccInt HM.cenOccInt Hod.totalOcc
  rw [cut_false hc]; simp

/-- `Zehavi05` and `Tinker05` meet the hypothesis of `C36_mean_density_cut_partial`. -/
theorem C36_zehavi_tinker_occupation (p : ZehaviP) (q : TinkerP) (c : Bool) (M : ℝ) :
    ((10:ℝ) ^ (zehavi05 p c).mmin ≤ M → (zehavi05 p c).cenOcc M = 1) ∧
    ((10:ℝ) ^ (tinker05 q c).mmin ≤ M → (tinker05 q c).cenOcc M = 1) := by
  constructor <;> intro hM <;> exact if_neg (not_lt.mpr hM)

/-- C36 finding: for a sharp-cut HOD the mass integrals use a central occupation of one at every mass.
For `Zehavi05WithMax` this counts central galaxies above `M_max`, where the HOD has none. -/
theorem C36_withmax_counts_absent_centrals (p : ZehaviMaxP) (hh : h.hod = zehavi05WithMax p true) (i : ℕ)
    (hi : (10:ℝ) ^ p.M_max < h.m i) :
    h.hod.totalOcc (h.m i) = 0 ∧ h.totOccInt i = 1 := by
  unfold Hod.totalOcc HM.totOccInt HM.cenOccInt
  rw [hh]
  have : zehaviMaxCen p.M_min p.M_max (h.m i) = 0 := if_neg (by rintro ⟨_, h2⟩; exact absurd h2 (not_le.mpr hi))
  simp [zehavi05WithMax, poisson, satelliteOccupation, this]

/-- C36 finding: for `Zehavi05Marked` the integrals count one unit of the tracer per central galaxy
instead of `10**logA`. -/
theorem C36_marked_ignores_amplitude (p : MarkedP) (hh : h.hod = zehavi05Marked p true) (i : ℕ)
    (h1 : (10:ℝ) ^ p.M_min ≤ h.m i) (h2 : h.m i ≤ 10 ^ p.M_max) :
    h.hod.totalOcc (h.m i) - h.totOccInt i = 10 ^ p.logA - 1 := by
  unfold Hod.totalOcc HM.totOccInt HM.cenOccInt
  rw [hh]
  have : zehaviMaxCen p.M_min p.M_max (h.m i) = 1 := if_pos ⟨h1, h2⟩
  simp [zehavi05Marked, poisson, this]

/-- C36 finding, consequence: with `Zehavi05WithMax` and a maximum mass below the minimum mass (no tracer
in any halo) the reported mean density is that of all haloes above `M_min`. -/
theorem C36_withmax_density (hs : SplLin E.isp) (p : ZehaviMaxP) (hh : h.hod = zehavi05WithMax p true)
    (hp : p.M_max < p.M_min) :
    (∀ M, h.hod.totalOcc M = 0) ∧ h.meanTracerDen E = h.S E h.dndm (some (10 ^ p.M_min)) := by
  have h10 : (10:ℝ) ^ p.M_max < 10 ^ p.M_min := Real.rpow_lt_rpow_of_exponent_lt (by norm_num) hp
  have h0 : ∀ M, zehaviMaxCen p.M_min p.M_max M = 0 := fun M =>
    if_neg (by rintro ⟨h1, h2⟩; exact absurd (lt_of_lt_of_le h10 (le_trans h1 h2)) (lt_irrefl _))
  constructor
  · intro M
    unfold Hod.totalOcc
    rw [hh]
    simp [zehavi05WithMax, poisson, satelliteOccupation, h0]
  · unfold HM.meanTracerDen HM.tracerMmin
    have : (h.hod.sharpCut && (h.hod.central || h.hod.inherent)) = true := by rw [hh]; rfl
    rw [this, if_pos rfl]
    have hm : h.hod.mmin = p.M_min := by rw [hh]; rfl
    rw [hm]
    apply S_congr hs
    intro i _
    unfold HM.totOccInt HM.cenOccInt
    rw [this, if_pos rfl, hh]
    simp [zehavi05WithMax, poisson, satelliteOccupation, h0]

/-- C36: satellite and central fractions add up to one, and (for a non-zero density) the central fraction
is the integral of mass function times central occupation over the same mass range, divided by the mean
density. -/
theorem C36_fractions (hs : SplLin E.isp) (ho : h.Ok) :
    h.satFrac E + h.cenFrac E = 1 ∧
    (h.meanTracerDen E ≠ 0 →
      h.cenFrac E = h.S E (fun i => h.dndm i * h.cenOccInt i) h.tracerMmin / h.meanTracerDen E) := by
  refine ⟨by unfold HM.cenFrac; ring, fun hd => ?_⟩
  have hsum : h.meanTracerDen E = h.S E (fun i => h.dndm i * h.cenOccInt i) h.tracerMmin
      + h.S E (fun i => h.dndm i * h.hod.satOcc (h.m i)) h.tracerMmin := by
    rw [← S_add hs ho]
    unfold HM.meanTracerDen HM.totOccInt
    congr 1; ext i; ring
  unfold HM.cenFrac HM.satFrac
  rw [eq_div_iff hd, sub_mul, div_mul_cancel₀ _ hd]
  linarith

/-- C36: a mass-independent halo bias is the effective bias. -/
theorem C36_constant_bias (hs : SplLin E.isp) (b : ℝ) (hb : ∀ i < h.nm, h.bias i = b)
    (hd : h.meanTracerDen E ≠ 0) : h.biasEffTracer E = b := by
  unfold HM.biasEffTracer
  rw [S_congr hs (g := fun i => b * (h.dndm i * h.totOccInt i)) _ (fun i hi => by rw [hb i hi]; ring),
    S_smul hs]
  change b * h.meanTracerDen E / h.meanTracerDen E = b
  field_simp

/-- C36: with non-negative quadrature weights (weight of the mass bin times tracers per unit mass) the
effective bias lies between the smallest and the largest halo bias, and the effective mass between the
smallest and the largest grid mass. -/
theorem C36_averages (hs : SplLin E.isp) (ho : h.Ok)
    (hw : ∀ i < h.nm, 0 ≤ h.dndm i * h.totOccInt i * siW E.isp h.nm h.m h.tracerMmin none i)
    (hd : 0 < h.meanTracerDen E) (lo hi : ℝ) (hb : ∀ i < h.nm, lo ≤ h.bias i ∧ h.bias i ≤ hi) :
    (lo ≤ h.biasEffTracer E ∧ h.biasEffTracer E ≤ hi) ∧
    (log10 (h.m 0) ≤ h.massEff E ∧ h.massEff E ≤ log10 (h.m (h.nm - 1))) := by
  have hden : h.meanTracerDen E = ∑ i ∈ range h.nm, h.dndm i * h.totOccInt i *
      siW E.isp h.nm h.m h.tracerMmin none i := S_sum hs ho _ _
  have avg : ∀ (q : ℕ → ℝ) (a b : ℝ), (∀ i < h.nm, a ≤ q i ∧ q i ≤ b) →
      a ≤ (∑ i ∈ range h.nm, q i * (h.dndm i * h.totOccInt i * siW E.isp h.nm h.m h.tracerMmin none i))
          / h.meanTracerDen E ∧
      (∑ i ∈ range h.nm, q i * (h.dndm i * h.totOccInt i * siW E.isp h.nm h.m h.tracerMmin none i))
          / h.meanTracerDen E ≤ b := by
    intro q a b hq
    rw [le_div_iff₀ hd, div_le_iff₀ hd, hden, mul_sum, mul_sum]
    exact ⟨sum_le_sum fun i hi => mul_le_mul_of_nonneg_right (hq i (mem_range.mp hi)).1
        (hw i (mem_range.mp hi)),
      sum_le_sum fun i hi => mul_le_mul_of_nonneg_right (hq i (mem_range.mp hi)).2
        (hw i (mem_range.mp hi))⟩
  constructor
  · have := avg h.bias lo hi hb
    unfold HM.biasEffTracer
    rw [S_sum hs ho, sum_congr rfl fun i _ => show _ = h.bias i * (h.dndm i * h.totOccInt i *
      siW E.isp h.nm h.m h.tracerMmin none i) by ring]
    exact this
  · have hm := avg h.m (h.m 0) (h.m (h.nm - 1)) fun i hi =>
      ⟨ho.m.mono (Nat.zero_le _) hi, ho.m.mono (by omega) (by omega)⟩
    have e : h.S E (fun i => h.m i * h.dndm i * h.totOccInt i) h.tracerMmin
        = ∑ i ∈ range h.nm, h.m i * (h.dndm i * h.totOccInt i *
            siW E.isp h.nm h.m h.tracerMmin none i) := by
      rw [S_sum hs ho]; exact sum_congr rfl fun i _ => by ring
    unfold HM.massEff log10
    rw [e]
    have h0 := ho.m.pos 0 ho.nm0
    exact ⟨Real.logb_le_logb_of_le (by norm_num) h0 hm.1,
      Real.logb_le_logb_of_le (by norm_num) (lt_of_lt_of_le h0 hm.1) hm.2⟩

/-- C36: the abundance of haloes drops out of every average: multiplying the mass function by `A` leaves
the effective bias, the effective mass and the satellite fraction as they are and multiplies the tracer
density by `A`. -/
theorem C36_abundance_scaling (hs : SplLin E.isp) (A : ℝ) (hA : A ≠ 0) :
    let h' := { h with dndm := fun i => A * h.dndm i }
    h'.meanTracerDen E = A * h.meanTracerDen E ∧ h'.biasEffTracer E = h.biasEffTracer E ∧
    h'.massEff E = h.massEff E ∧ h'.satFrac E = h.satFrac E ∧ h'.cenFrac E = h.cenFrac E := by
  intro h'
  have hd : h'.meanTracerDen E = A * h.meanTracerDen E := by
    unfold HM.meanTracerDen
    rw [← S_smul hs]
    change h.S E _ _ = h.S E _ _
    congr 1; ext i; change A * h.dndm i * h.totOccInt i = _; ring
  have hsat : h'.satFrac E = h.satFrac E := by
    unfold HM.satFrac
    rw [hd]
    have : h'.S E (fun i => h'.dndm i * h'.hod.satOcc (h'.m i)) h'.tracerMmin
        = A * h.S E (fun i => h.dndm i * h.hod.satOcc (h.m i)) h.tracerMmin := by
      rw [← S_smul hs]
      change h.S E _ _ = h.S E _ _
      congr 1; ext i; change A * h.dndm i * h.hod.satOcc (h.m i) = _; ring
    rw [this, mul_div_mul_left _ _ hA]
  refine ⟨hd, ?_, ?_, hsat, by unfold HM.cenFrac; rw [hsat]⟩
  · unfold HM.biasEffTracer
    rw [hd]
    have : h'.S E (fun i => h'.dndm i * h'.totOccInt i * h'.bias i) h'.tracerMmin
        = A * h.S E (fun i => h.dndm i * h.totOccInt i * h.bias i) h.tracerMmin := by
      rw [← S_smul hs]
      change h.S E _ _ = h.S E _ _
      congr 1; ext i; change A * h.dndm i * h.totOccInt i * h.bias i = _; ring
    rw [this, mul_div_mul_left _ _ hA]
  · unfold HM.massEff
    rw [hd]
    have : h'.S E (fun i => h'.m i * h'.dndm i * h'.totOccInt i) h'.tracerMmin
        = A * h.S E (fun i => h.m i * h.dndm i * h.totOccInt i) h.tracerMmin := by
      rw [← S_smul hs]
      change h.S E _ _ = h.S E _ _
      congr 1; ext i; change h.m i * (A * h.dndm i) * h.totOccInt i = _; ring
    rw [this, mul_div_mul_left _ _ hA]

/-- an HOD with `A` times as much tracer in every halo. -/
def scaleHod (A : ℝ) (d : Hod) : Hod :=
  { d with cenOcc := fun M => A * d.cenOcc M, satOcc := fun M => A * d.satOcc M,
           ssPairs := fun M => A ^ 2 * d.ssPairs M, csPairs := fun M => A ^ 2 * d.csPairs M }

/-- C36: the amount of tracer per halo drops out of bias, mass, fractions and 1-halo power, for HODs whose
integrals are not cut at `M_min` (for the others see `C36_marked_ignores_amplitude`). -/
theorem C36_occupation_scaling (hs : SplLin E.isp) (A : ℝ) (hA : A ≠ 0) (hc : ¬ h.cut) :
    let h' := { h with hod := scaleHod A h.hod }
    h'.meanTracerDen E = A * h.meanTracerDen E ∧ h'.biasEffTracer E = h.biasEffTracer E ∧
    h'.massEff E = h.massEff E ∧ h'.satFrac E = h.satFrac E ∧
    (∀ j, h'.power1hSSTab E j = h.power1hSSTab E j) ∧ (∀ j, h'.power1hCSTab E j = h.power1hCSTab E j) := by
  intro h'
  have hb := cut_false hc
  have hN : ∀ i, h'.totOccInt i = A * h.totOccInt i := by
    intro i
    unfold HM.totOccInt HM.cenOccInt
    rw [hb, show (h'.hod.sharpCut && (h'.hod.central || h'.hod.inherent)) = false from hb]
    simp only [Bool.false_eq_true, if_false]
    change A * h.hod.cenOcc (h.m i) + A * h.hod.satOcc (h.m i) = _
    ring
  have hd : h'.meanTracerDen E = A * h.meanTracerDen E := by
    unfold HM.meanTracerDen
    rw [← S_smul hs]
    change h.S E _ _ = h.S E _ _
    congr 1; ext i; rw [hN]; change h.dndm i * _ = _; ring
  have key : ∀ (f g : ℕ → ℝ) (c : ℝ) (x : Option ℝ), (∀ i, f i = c * g i) →
      h'.S E f x = c * h.S E g x := by
    intro f g c x hfg
    rw [← S_smul hs]
    change h.S E _ _ = h.S E _ _
    congr 1; ext i; exact hfg i
  refine ⟨hd, ?_, ?_, ?_, ?_, ?_⟩
  · unfold HM.biasEffTracer
    rw [hd, key _ (fun i => h.dndm i * h.totOccInt i * h.bias i) A _
      (fun i => by rw [hN]; change h.dndm i * _ * h.bias i = _; ring), mul_div_mul_left _ _ hA]
    rfl
  · unfold HM.massEff
    rw [hd, key _ (fun i => h.m i * h.dndm i * h.totOccInt i) A _
      (fun i => by rw [hN]; change h.m i * h.dndm i * _ = _; ring), mul_div_mul_left _ _ hA]
    rfl
  · unfold HM.satFrac
    rw [hd, key _ (fun i => h.dndm i * h.hod.satOcc (h.m i)) A _
      (fun i => by change h.dndm i * (A * h.hod.satOcc (h.m i)) = _; ring), mul_div_mul_left _ _ hA]
    rfl
  · intro j
    unfold HM.power1hSSTab HM.do1halo
    rw [hd, mul_pow, key _ (fun i => h.ut j i ^ 2 * h.dndm i * h.hod.ssPairs (h.m i)) (A ^ 2) _
      (fun i => by change h.ut j i ^ 2 * h.dndm i * (A ^ 2 * h.hod.ssPairs (h.m i)) = _; ring),
      mul_div_mul_left _ _ (pow_ne_zero 2 hA)]
    rfl
  · intro j
    unfold HM.power1hCSTab HM.do1halo
    rw [hd, mul_pow, key _ (fun i => h.dndm i * 2 * h.hod.csPairs (h.m i) * h.ut j i) (A ^ 2) _
      (fun i => by change h.dndm i * 2 * (A ^ 2 * h.hod.csPairs (h.m i)) * h.ut j i = _; ring),
      mul_div_mul_left _ _ (pow_ne_zero 2 hA)]
    rfl

end
end Halomod.HaloModel
