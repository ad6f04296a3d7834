import Verif.Model.Hod
import Verif.Spec.Counts
import Mathlib.Tactic.NormNum
import Mathlib.Tactic.Linarith
import Mathlib.Tactic.Positivity
import Mathlib.Tactic.FieldSimp

/-!
# Properties C01–C06 of `hod.py`
-/
namespace Halomod.HOD

open Halomod.Spec

/-! ## C01 central condition -/

/-- C01, any `HODPoisson` subclass whatsoever (including user plug-ins) that does not declare the
condition inherent: with `central=True` the class's own satellite function is multiplied by `nc`
exactly once; with `central=False` it is returned as it is. -/
theorem C01_poisson_satellite (d : PoissonDef) (hi : d.inherent = false) (m : ℝ) :
    (poisson d true).satOcc m = (d.cen m / d.tpc m) * d.sat m ∧
    (poisson d false).satOcc m = d.sat m ∧
    (poisson d true).nc m = d.cen m / d.tpc m ∧ (poisson d false).nc m = d.cen m / d.tpc m := by
  simp [poisson, satelliteOccupation, hi]

example : ∃ d : PoissonDef, d.inherent = false ∧ d.sat 2 ≠ 0 :=
  ⟨{ inherent := false, sharpCut := true, cen := fun _ => 1, sat := fun _ => 3, mmin := 0 },
    rfl, by norm_num⟩

/-- C01: for every HOD class of the module, an object that enforces the central condition returns no
satellites at any mass where it has no centrals. (`Spinelli19` outside its counts range divides by
zero: see `C05_spinelli_not_finite`.) -/
theorem C01_no_central_no_satellite (i : HodInst) (c : Bool) (m : ℝ)
    (_hm : ∀ p, i = .spinelli19 p → (10:ℝ) ^ p.M_min_counts ≤ m ∧ m ≤ (10:ℝ) ^ p.M_max_counts)
    (hc : (i.mk c).central = true) (h0 : (i.mk c).nc m = 0) : (i.mk c).satOcc m = 0 := by
  cases i <;> cases c <;>
    simp_all [HodInst.mk, zehavi05, zheng05, contreras13, tinker05, zehavi05WithMax,
      zehavi05Marked, continuousPowerLaw, constant, spinelli19, spinelliDef, leauthaud11, poisson, bulk,
      satelliteOccupation]
  all_goals simp_all [tinkerSat]

/-- hypotheses of `C01_no_central_no_satellite` are met: below its threshold `Zehavi05` has no
centrals, and its unmodified satellite function is not zero there. -/
example : let i := HodInst.zehavi05 {}
    (i.mk true).central = true ∧ (i.mk true).nc 1 = 0 ∧ (i.mk false).satOcc 1 ≠ 0 := by
  have h : (1:ℝ) < 10 ^ (11.6222:ℝ) := Real.one_lt_rpow (by norm_num) (by norm_num)
  refine ⟨rfl, ?_, ?_⟩
  · simp only [HodInst.mk, zehavi05, poisson, zehaviCen, h, if_true]; simp
  · simp only [HodInst.mk, zehavi05, poisson, satelliteOccupation, zehaviSat]
    simp; positivity

/-- C01: classes without a central/satellite split ignore `central=True` altogether. -/
theorem C01_bulk_ignores_central (i : HodInst)
    (h : (∃ p, i = .continuousPowerLaw p) ∨ (∃ p, i = .constant p)) (c : Bool) :
    i.mk c = i.mk false ∧ (i.mk c).central = false ∧ (∀ m, (i.mk c).cenOcc m = 0 ∧
      (i.mk c).nc m = 0 ∧ (i.mk c).ns m = 0 ∧ (i.mk c).csPairs m = 0 ∧ (i.mk c).sigmaCen m = 0) := by
  rcases h with ⟨p, rfl⟩ | ⟨p, rfl⟩ <;>
    simp [HodInst.mk, continuousPowerLaw, constant, bulk]

/-- C01: what a central=True object returns, relative to the same object with central=False, for
every class: `nc` times the satellites once for the ordinary classes, the same for `Tinker05` (which
has the condition built in) and for the bulk classes. -/
theorem C01_effect_of_flag (i : HodInst) (m : ℝ) :
    (i.mk true).cenOcc m = (i.mk false).cenOcc m ∧ (i.mk true).nc m = (i.mk false).nc m ∧
    (i.mk true).satOcc m =
      (match i with
       | .tinker05 _ | .continuousPowerLaw _ | .constant _ => (i.mk false).satOcc m
       | _ => (i.mk false).nc m * (i.mk false).satOcc m) := by
  cases i <;>
    simp [HodInst.mk, zehavi05, zheng05, contreras13, tinker05, zehavi05WithMax,
      zehavi05Marked, continuousPowerLaw, constant, spinelli19, spinelliDef, leauthaud11, poisson, bulk,
      satelliteOccupation]

/-- C01 finding: `Leauthaud11` multiplies by the central occupation inside its own satellite function
(hod.py:831) although it is not declared `central_condition_inherent` (hod.py:775), so with
`central=True` the factor is applied twice.  The "exactly once" claim is false for this class. -/
theorem C01_leauthaud_factor_twice (interp : List (ℝ × ℝ) → ℝ → ℝ) (p : LeauthaudP) :
    ∃ base : ℝ → ℝ, (∀ m, (leauthaud11 interp p false).satOcc m
        = base m * (leauthaud11 interp p false).nc m) ∧
      ∀ m, (leauthaud11 interp p true).satOcc m
        = base m * (leauthaud11 interp p true).nc m ^ 2 := by
  refine ⟨fun m => Real.exp (-(p.scaled p.bcut p.betacut) / m)
    * (m / p.scaled p.bsat p.betasat) ^ p.alphasat, ?_, ?_⟩ <;> intro m <;>
  (simp [leauthaud11, poisson, satelliteOccupation, leauthaudSat]; try ring)

/-! ## C02 moments -/

/-- C02: `ss_pairs` is the mean number of ordered pairs of Poisson satellites, weighted with the
amount of tracer per satellite, for every Poisson HOD. -/
theorem C02_ss_pairs (d : PoissonDef) (c : Bool) (m : ℝ) (ht : d.tps m ≠ 0) :
    (poisson d c).ssPairs m =
      d.tps m ^ 2 * poissonE ((poisson d c).ns m) (fun n => n * (n - 1)) := by
  rw [poissonE_pairs]
  simp only [poisson]
  field_simp

/-- C02: with unit marks `ss_pairs` is `E[N(N-1)]`, `N ~ Poisson(satellite_occupation)`. -/
theorem C02_ss_pairs_unit (d : PoissonDef) (c : Bool) (m : ℝ) :
    (poisson d c).ssPairs m = poissonE ((poisson d c).satOcc m) (fun n => n * (n - 1)) := by
  rw [poissonE_pairs]; rfl

/-- C02: without the central condition `cs_pairs` is `E[Nc Ns]` of independent centrals and
satellites (with marks). -/
theorem C02_cs_pairs_independent (d : PoissonDef) (m : ℝ) (ht : d.tpc m ≠ 0) (hs : d.tps m ≠ 0) :
    (poisson d false).csPairs m =
      d.tpc m * d.tps m * indepE ((poisson d false).nc m) ((poisson d false).ns m)
        (fun c n => c * n) := by
  have h1 : poissonE ((poisson d false).ns m) (fun n => ((1:ℕ):ℝ) * n) = (poisson d false).ns m := by
    simp [poissonE_id]
  have h0 : poissonE ((poisson d false).ns m) (fun n => ((0:ℕ):ℝ) * n) = 0 := by
    simp [poissonE_zero]
  rw [indepE, bernoulliE, h1, h0]
  simp only [poisson, satelliteOccupation]
  simp
  field_simp

/-- C02: with the central condition enforced, satellites live only in haloes with a central, with
mean `_satellite_occupation / tracer_per_satellite` there: then `satellite_occupation` is the mean
satellite amount over all haloes and `cs_pairs` is the mean of the product. -/
theorem C02_cs_pairs_conditional (d : PoissonDef) (hi : d.inherent = false) (m : ℝ)
    (ht : d.tpc m ≠ 0) (hs : d.tps m ≠ 0) :
    (poisson d true).satOcc m =
      d.tps m * condE ((poisson d true).nc m) (d.sat m / d.tps m) (fun _ n => n) ∧
    (poisson d true).csPairs m =
      d.tpc m * d.tps m * condE ((poisson d true).nc m) (d.sat m / d.tps m) (fun c n => c * n) := by
  have h1 : poissonE (d.sat m / d.tps m) (fun n => ((1:ℕ):ℝ) * n) = d.sat m / d.tps m := by
    simp [poissonE_id]
  constructor
  · rw [condE, poissonE_id]
    simp [poisson, satelliteOccupation, hi]
    field_simp
  · rw [condE, h1]
    simp [poisson, satelliteOccupation, hi]
    field_simp

/-- C02: with unit marks, `sigma_satellite` is the Poisson standard deviation. -/
theorem C02_sigma_satellite (d : PoissonDef) (c : Bool) (m : ℝ) :
    (poisson d c).sigmaSat m = Real.sqrt (poissonE ((poisson d c).satOcc m)
      (fun n => (n - (poisson d c).satOcc m) ^ 2)) := by
  rw [poissonE_var]; rfl

/-- C02: with the inherited `sigma_central`, it is the standard deviation of a 0/1 variable with mean
`central_occupation`. -/
theorem C02_sigma_central (inh sh c : Bool) (cen sat : ℝ → ℝ) (mm m : ℝ) :
    let h := poisson { inherent := inh, sharpCut := sh, cen := cen, sat := sat, mmin := mm } c
    h.sigmaCen m = Real.sqrt (bernoulliE (h.cenOcc m) (fun b => (b - h.cenOcc m) ^ 2)) := by
  simp only [poisson, bernoulliE]
  congr 1; push_cast; ring

/-- C02: totals are the sums of their parts, for every class. -/
theorem C02_totals (i : HodInst) (c : Bool) (m : ℝ) :
    (i.mk c).totalOcc m = (i.mk c).cenOcc m + (i.mk c).satOcc m ∧
    (i.mk c).totalPairs m = (i.mk c).ssPairs m + (i.mk c).csPairs m := ⟨rfl, rfl⟩

/-- C02 finding: `ss_pairs` with the central condition is *not* the mean pair count of the joint law
in which satellites appear only with a central: that would be `nc * sat'^2`, the code has
`(nc * sat')^2`; they agree exactly when the satellites vanish or `nc` is 0 or 1. -/
theorem C02_ss_pairs_conditional_iff (d : PoissonDef) (hi : d.inherent = false)
    (h1 : d.tpc = fun _ => 1) (m : ℝ) :
    (poisson d true).ssPairs m =
        condE ((poisson d true).nc m) (d.sat m) (fun _ n => n * (n - 1)) ↔
      d.sat m = 0 ∨ (poisson d true).nc m = 0 ∨ (poisson d true).nc m = 1 := by
  rw [condE, poissonE_pairs]
  simp only [poisson, satelliteOccupation, hi, h1]
  simp only [Bool.not_false, Bool.and_self, if_true, div_one, Nat.cast_zero, zero_mul, mul_zero,
    zero_add]
  constructor
  · intro h
    have : d.sat m ^ 2 * (d.cen m * (d.cen m - 1)) = 0 := by linear_combination h
    rcases mul_eq_zero.mp this with h | h
    · left; simpa using h
    · rcases mul_eq_zero.mp h with h | h
      · right; left; exact h
      · right; right; linarith
  · rintro (h | h | h) <;> rw [h] <;> ring

/-! ## C03 ranges, support, monotonicity -/

/-- C03 `Zehavi05` centrals: a step of height one exactly at `10**M_min`. -/
theorem C03_zehavi_central (p : ZehaviP) (c : Bool) (m : ℝ) :
    (10 ^ p.M_min ≤ m → (zehavi05 p c).cenOcc m = 1) ∧
    (m < 10 ^ p.M_min → (zehavi05 p c).cenOcc m = 0) ∧
    (zehavi05 p c).nc m = (zehavi05 p c).cenOcc m := by
  refine ⟨fun h => ?_, fun h => ?_, ?_⟩ <;> simp only [zehavi05, poisson, zehaviCen]
  · exact if_neg (not_lt.mpr h)
  · exact if_pos h
  · simp

theorem zehaviCen_mono (M : ℝ) : Monotone (zehaviCen M) := by
  intro a b hab
  unfold zehaviCen
  split_ifs <;> linarith

theorem zehaviCen_range (M m : ℝ) : zehaviCen M m = 0 ∨ zehaviCen M m = 1 := by
  unfold zehaviCen; split_ifs <;> simp

theorem zehaviSat_mono {M alpha a b : ℝ} (ha : 0 ≤ alpha) (h0 : 0 ≤ a) (hab : a ≤ b) :
    zehaviSat M alpha a ≤ zehaviSat M alpha b := by
  unfold zehaviSat
  have : (0:ℝ) < 10 ^ M := by positivity
  exact Real.rpow_le_rpow (by positivity) (by gcongr) ha

/-- C03 `Zehavi05`: satellites are non-negative, equal one at `10**M_1` (when there is a central
there), scale as `m**alpha`, and the total occupation never decreases with mass. -/
theorem C03_zehavi_satellite (p : ZehaviP) (ha : 0 ≤ p.alpha) (c : Bool) :
    (∀ m, 0 ≤ m → 0 ≤ (zehavi05 p c).satOcc m) ∧
    (p.M_min ≤ p.M_1 → (zehavi05 p c).satOcc (10 ^ p.M_1) = 1) ∧
    (∀ m t, 0 < m → 0 < t → (zehavi05 p false).satOcc (t * m)
        = t ^ p.alpha * (zehavi05 p false).satOcc m) ∧
    (∀ a b, 0 < a → a ≤ b → (zehavi05 p c).satOcc a ≤ (zehavi05 p c).satOcc b) ∧
    (∀ a b, 0 < a → a ≤ b → (zehavi05 p c).totalOcc a ≤ (zehavi05 p c).totalOcc b) := by
  have hpos : ∀ m, 0 ≤ m → 0 ≤ zehaviSat p.M_1 p.alpha m := fun m hm => by
    unfold zehaviSat; positivity
  have hmono : ∀ a b, 0 < a → a ≤ b → (zehavi05 p c).satOcc a ≤ (zehavi05 p c).satOcc b := by
    intro a b ha' hab
    have h1 := zehaviSat_mono (M := p.M_1) ha ha'.le hab
    cases c <;> simp only [zehavi05, poisson, satelliteOccupation]
    · simpa using h1
    · simp only [Bool.not_false, Bool.and_self, if_true, div_one]
      have h2 := zehaviCen_mono p.M_min hab
      have h3 := hpos a ha'.le
      rcases zehaviCen_range p.M_min a with h | h <;> rcases zehaviCen_range p.M_min b with h' | h'
        <;> rw [h, h'] at h2 <;> rw [h, h'] <;> simp <;> linarith [hpos b (by linarith)]
  refine ⟨fun m hm => ?_, fun h => ?_, fun m t hm ht => ?_, hmono, fun a b h0 hab => ?_⟩
  · have h1 := hpos m hm
    cases c <;> simp only [zehavi05, poisson, satelliteOccupation]
    · simpa using h1
    · rcases zehaviCen_range p.M_min m with h | h <;> rw [h] <;> simp [h1]
  · have h1 : zehaviSat p.M_1 p.alpha (10 ^ p.M_1) = 1 := by
      unfold zehaviSat
      rw [div_self (by positivity), Real.one_rpow]
    have h2 : zehaviCen p.M_min (10 ^ p.M_1) = 1 := by
      unfold zehaviCen
      exact if_neg (not_lt.mpr (Real.rpow_le_rpow_of_exponent_le (by norm_num) h))
    cases c <;> simp only [zehavi05, poisson, satelliteOccupation, h1, h2] <;> simp
  · simp only [zehavi05, poisson, satelliteOccupation, zehaviSat]
    simp only [Bool.false_and, Bool.false_eq_true, if_false]
    rw [mul_div_assoc, Real.mul_rpow ht.le (by positivity)]
  · have h1 := hmono a b h0 hab
    have h2 := zehaviCen_mono p.M_min hab
    have e : ∀ x, (zehavi05 p c).totalOcc x = zehaviCen p.M_min x + (zehavi05 p c).satOcc x :=
      fun x => rfl
    rw [e, e]; linarith

example : (0:ℝ) ≤ ({} : ZehaviP).alpha ∧ ({} : ZehaviP).M_min ≤ ({} : ZehaviP).M_1 := by
  constructor <;> norm_num

/-- C03 `Zheng05` centrals: strictly between 0 and 1, strictly increasing, exactly 1/2 at
`10**M_min`. -/
theorem C03_zheng_central (p : ZhengP) (hs : 0 < p.sig_logm) (c : Bool) :
    (∀ m, 0 < (zheng05 p c).cenOcc m ∧ (zheng05 p c).cenOcc m < 1) ∧
    (∀ a b, 0 < a → a < b → (zheng05 p c).cenOcc a < (zheng05 p c).cenOcc b) ∧
    (zheng05 p c).cenOcc (10 ^ p.M_min) = 1 / 2 ∧
    (∀ m, (zheng05 p c).nc m = (zheng05 p c).cenOcc m) := by
  refine ⟨fun m => ?_, fun a b ha hab => ?_, ?_, ?_⟩ <;> simp only [zheng05, poisson, zhengCen]
  · have h1 := erf_lt_one ((log10 m - p.M_min) / p.sig_logm)
    have h2 := neg_one_lt_erf ((log10 m - p.M_min) / p.sig_logm)
    constructor <;> linarith
  · have : (log10 a - p.M_min) / p.sig_logm < (log10 b - p.M_min) / p.sig_logm := by
      have : log10 a < log10 b := Real.logb_lt_logb (by norm_num) ha hab
      gcongr
    have := erf_strictMono this
    linarith
  · have : log10 (10 ^ p.M_min) = p.M_min := Real.logb_rpow (by norm_num) (by norm_num)
    rw [this]; simp [erf_zero]; norm_num
  · simp

/-- C03 `Zheng05` satellites: none at or below `10**M_0`, `((m-10**M_0)/10**M_1)**alpha` above,
non-negative and non-decreasing. -/
theorem C03_zheng_satellite (p : ZhengP) (ha : 0 ≤ p.alpha) (hs : 0 < p.sig_logm) :
    (∀ m c, m ≤ 10 ^ p.M_0 → (zheng05 p c).satOcc m = 0) ∧
    (∀ m, 10 ^ p.M_0 < m → (zheng05 p false).satOcc m
        = ((m - 10 ^ p.M_0) / 10 ^ p.M_1) ^ p.alpha) ∧
    (∀ m c, 0 ≤ (zheng05 p c).satOcc m) ∧
    (∀ a b c, 0 < a → a ≤ b → (zheng05 p c).satOcc a ≤ (zheng05 p c).satOcc b) ∧
    (∀ m c, (zheng05 p c).satOcc m ≤ (zheng05 p false).satOcc m) := by
  have h0 : ∀ m, 0 ≤ zhengSat p m := by
    intro m; unfold zhengSat; split_ifs with h
    · have : (0:ℝ) ≤ m - 10 ^ p.M_0 := by linarith
      positivity
    · exact le_refl _
  have hm : ∀ a b, a ≤ b → zhengSat p a ≤ zhengSat p b := by
    intro a b hab
    by_cases h : a > 10 ^ p.M_0
    · have hb : b > 10 ^ p.M_0 := by linarith
      simp only [zhengSat, h, hb, if_true]
      have : (0:ℝ) ≤ a - 10 ^ p.M_0 := by linarith
      exact Real.rpow_le_rpow (by positivity) (by gcongr) ha
    · have : zhengSat p a = 0 := by simp only [zhengSat, h, if_false]
      rw [this]; exact h0 b
  obtain ⟨hr, hmono, -, -⟩ := C03_zheng_central p hs false
  have hr : ∀ m, 0 < zhengCen p m ∧ zhengCen p m < 1 := hr
  have hmono : ∀ a b, 0 < a → a < b → zhengCen p a < zhengCen p b := hmono
  refine ⟨fun m c h => ?_, fun m h => ?_, fun m c => ?_, fun a b c ha' hab => ?_, fun m c => ?_⟩
  · have : zhengSat p m = 0 := if_neg (not_lt.mpr h)
    cases c <;> simp [zheng05, poisson, satelliteOccupation, this]
  · simp only [zheng05, poisson, satelliteOccupation, zhengSat]
    simp [h]
  · cases c <;> simp [zheng05, poisson, satelliteOccupation]
    · exact h0 m
    · exact mul_nonneg (hr m).1.le (h0 m)
  · cases c <;> simp [zheng05, poisson, satelliteOccupation]
    · exact hm a b hab
    · have h1 : zhengCen p a ≤ zhengCen p b := by
        rcases eq_or_lt_of_le hab with h | h
        · rw [h]
        · exact (hmono a b ha' h).le
      exact mul_le_mul h1 (hm a b hab) (h0 a) (hr b).1.le
  · cases c <;> simp [zheng05, poisson, satelliteOccupation]
    have := h0 m
    nlinarith [(hr m).2]

example : (0:ℝ) ≤ ({} : ZhengP).alpha ∧ 0 < ({} : ZhengP).sig_logm := by constructor <;> norm_num

/-- C03 `Zheng05.mmin`: at (and below) the advertised minimum mass the central occupation is what the
error function gives five widths out: `(1 + erf(-5))/2`. -/
theorem C03_zheng_mmin (p : ZhengP) (hs : 0 < p.sig_logm) (c : Bool) :
    (zheng05 p c).cenOcc (10 ^ (zheng05 p c).mmin) = (1 + erf (-5)) / 2 := by
  simp only [zheng05, poisson, zhengCen]
  have : log10 (10 ^ (p.M_min - 5 * p.sig_logm)) = p.M_min - 5 * p.sig_logm :=
    Real.logb_rpow (by norm_num) (by norm_num)
  rw [this]
  have : (p.M_min - 5 * p.sig_logm - p.M_min) / p.sig_logm = -5 := by field_simp; ring
  rw [this]; ring

/-- C03: the mass-bounded classes vanish outside `[10**M_min, 10**M_max]` and are what they should be
inside (bounds included). -/
theorem C03_bounded_support (p : ZehaviMaxP) (q : CplP) (c : Bool) (m : ℝ) :
    (¬ (10 ^ p.M_min ≤ m ∧ m ≤ 10 ^ p.M_max) →
        (zehavi05WithMax p c).cenOcc m = 0 ∧ (zehavi05WithMax p true).satOcc m = 0) ∧
    (10 ^ p.M_min ≤ m ∧ m ≤ 10 ^ p.M_max →
        (zehavi05WithMax p c).cenOcc m = 1 ∧
        (zehavi05WithMax p c).satOcc m = (m / 10 ^ p.M_1) ^ p.alpha) ∧
    (¬ (10 ^ q.M_min ≤ m ∧ m ≤ 10 ^ q.M_max) → (continuousPowerLaw q c).satOcc m = 0) ∧
    (10 ^ q.M_min ≤ m ∧ m ≤ 10 ^ q.M_max →
        (continuousPowerLaw q c).satOcc m = 10 ^ q.logA * (1 + (m / 10 ^ q.M_1) ^ q.alpha)) := by
  refine ⟨fun h => ?_, fun h => ?_, fun h => ?_, fun h => ?_⟩
  · have : zehaviMaxCen p.M_min p.M_max m = 0 := if_neg h
    simp [zehavi05WithMax, poisson, satelliteOccupation, this]
  · have : zehaviMaxCen p.M_min p.M_max m = 1 := if_pos h
    cases c <;> simp [zehavi05WithMax, poisson, satelliteOccupation, this, zehaviSat]
  · have : cplSat q m = 0 := if_neg h
    simp [continuousPowerLaw, bulk, satelliteOccupation, this]
  · have : cplSat q m = 10 ^ q.logA * ((m / 10 ^ q.M_1) ^ q.alpha + 1) := if_pos h
    simp [continuousPowerLaw, bulk, satelliteOccupation, this, add_comm]

/-- C03: `ContinuousPowerLaw` is the total occupation of `Zehavi05` with the same parameters
(times `10**logA`) up to the truncation mass, as its documentation says. -/
theorem C03_continuous_matches_zehavi (q : CplP) (c : Bool) (m : ℝ) (hm : m ≤ 10 ^ q.M_max) :
    (continuousPowerLaw q c).totalOcc m =
      10 ^ q.logA *
        (zehavi05 { M_min := q.M_min, M_1 := q.M_1, alpha := q.alpha } true).totalOcc m := by
  simp only [Hod.totalOcc, continuousPowerLaw, bulk, satelliteOccupation, zehavi05, poisson, cplSat,
    zehaviCen, zehaviSat]
  by_cases h : m < 10 ^ q.M_min
  · simp [h]
  · have h' : m ≥ 10 ^ q.M_min := not_lt.mp h
    simp [h, h', hm, add_comm]

/-- C03 `Constant`: `10**logA` strictly above `10**M_min`, zero at and below. -/
theorem C03_constant (p : ConstP) (c : Bool) (m : ℝ) :
    (10 ^ p.M_min < m → (constant p c).totalOcc m = 10 ^ p.logA) ∧
    (m ≤ 10 ^ p.M_min → (constant p c).totalOcc m = 0) := by
  constructor <;> intro h <;>
    simp [Hod.totalOcc, constant, bulk, satelliteOccupation, constSat, h]

/-- C03 `Contreras13`: with `0 ≤ fca`, `0 ≤ fcb`, `fca ≤ 1` the centrals lie between 0 and
`2 fca + fcb (1-fca)`; satellites are between 0 and twice the power law. -/
theorem C03_contreras_range (p : ContrerasP) (h1 : 0 ≤ p.fca) (h2 : p.fca ≤ 1) (h3 : 0 ≤ p.fcb)
    (h4 : 0 ≤ p.fs) (c : Bool) (m : ℝ) (hm : 0 < m) :
    0 ≤ (contreras13 p c).cenOcc m ∧
    (contreras13 p c).cenOcc m ≤ 2 * p.fca + p.fcb * (1 - p.fca) ∧
    0 ≤ (contreras13 p false).satOcc m ∧
    (contreras13 p false).satOcc m ≤ 2 * p.fs * (m / 10 ^ p.M_1) ^ p.alpha := by
  simp only [contreras13, poisson, satelliteOccupation, contrerasCen, contrerasSat]
  simp only [Bool.false_and, Bool.false_eq_true, if_false]
  set e1 := erf (log10 (m / 10 ^ p.M_min) / p.x / p.sig_logm)
  set e2 := erf (log10 (m / 10 ^ p.M_1) / p.delta)
  have a1 : -1 < e1 := neg_one_lt_erf _
  have a2 : e1 < 1 := erf_lt_one _
  have b1 : -1 < e2 := neg_one_lt_erf _
  have b2 : e2 < 1 := erf_lt_one _
  set g := Real.exp (-(log10 (m / 10 ^ p.M_min) ^ 2) / (2 * (p.x * p.sig_logm) ^ 2))
  have g0 : 0 < g := Real.exp_pos _
  have g1 : g ≤ 1 := by
    apply Real.exp_le_one_iff.mpr
    apply div_nonpos_of_nonpos_of_nonneg
    · have := sq_nonneg (log10 (m / 10 ^ p.M_min)); linarith
    · positivity
  set s := (m / 10 ^ p.M_1) ^ p.alpha
  have s0 : 0 ≤ s := by positivity
  have k : 0 ≤ p.fcb * (1 - p.fca) := mul_nonneg h3 (by linarith)
  refine ⟨?_, ?_, ?_, ?_⟩
  · have := mul_nonneg k g0.le
    have := mul_nonneg h1 (by linarith : 0 ≤ 1 + e1)
    linarith
  · have h5 := mul_le_mul_of_nonneg_left g1 k
    have h6 := mul_le_mul_of_nonneg_left (by linarith : 1 + e1 ≤ 2) h1
    linarith
  · exact mul_nonneg (mul_nonneg h4 (by linarith)) s0
  · apply mul_le_mul_of_nonneg_right _ s0
    have := mul_le_mul_of_nonneg_left (by linarith : 1 + e2 ≤ 2) h4
    linarith

/-- C03: the default `Contreras13`/`Geach12` parameters keep centrals in [0,1] … -/
example : 0 ≤ ({} : ContrerasP).fca ∧ ({} : ContrerasP).fca ≤ 1 ∧ 0 ≤ ({} : ContrerasP).fcb ∧
    0 ≤ ({} : ContrerasP).fs ∧
    2 * ({} : ContrerasP).fca + ({} : ContrerasP).fcb * (1 - ({} : ContrerasP).fca) = 1 := by
  norm_num

/-- C03 finding: … but legal parameters (`fca = 1`) make the mean number of centrals exceed one, for
which `sigma_central` is the square root of a negative number. -/
theorem C03_contreras_exceeds_one :
    ∃ (p : ContrerasP) (m : ℝ), 0 < m ∧ 0 ≤ p.fca ∧ p.fca ≤ 1 ∧ 0 < p.sig_logm ∧
      1 < (contreras13 p false).cenOcc m ∧
      (contreras13 p false).cenOcc m * (1 - (contreras13 p false).cenOcc m) < 0 := by
  refine ⟨{ fca := 1 }, 10 ^ (13 : ℝ), by positivity, by norm_num, by norm_num, by norm_num, ?_⟩
  have h : (0:ℝ) < log10 (10 ^ (13:ℝ) / 10 ^ (11.6222:ℝ)) := by
    apply Real.logb_pos (by norm_num)
    rw [one_lt_div (by positivity)]
    exact Real.rpow_lt_rpow_of_exponent_lt (by norm_num) (by norm_num)
  have he : 0 < erf (log10 (10 ^ (13:ℝ) / 10 ^ (11.6222:ℝ)) / 1 / 0.26) := by
    rw [← erf_zero]; exact erf_strictMono (by positivity)
  simp only [contreras13, poisson, contrerasCen]
  norm_num at he ⊢
  constructor
  · linarith
  · nlinarith

/-! ## C04 marks -/

/-- C04: a mark `10**logA` scales occupations by `A`, pair counts by `A²`, and leaves the numbers of
centrals and satellites unchanged. -/
theorem C04_marked_scaling (p : MarkedP) (c : Bool) (m : ℝ) :
    let A : ℝ := 10 ^ p.logA
    let h := zehavi05Marked p c
    let h0 := zehavi05WithMax p.toZehaviMaxP c
    h.nc m = h0.nc m ∧ h.ns m = h0.ns m ∧
    h.cenOcc m = A * h0.cenOcc m ∧ h.satOcc m = A * h0.satOcc m ∧
    h.totalOcc m = A * h0.totalOcc m ∧
    h.ssPairs m = A ^ 2 * h0.ssPairs m ∧ h.csPairs m = A ^ 2 * h0.csPairs m ∧
    h.totalPairs m = A ^ 2 * h0.totalPairs m ∧
    h.sigmaCen m = A * h0.sigmaCen m ∧ h.mmin = h0.mmin := by
  have hA : (10:ℝ) ^ p.logA ≠ 0 := by positivity
  have hA' : (0:ℝ) < 10 ^ p.logA := by positivity
  have h01 : zehaviMaxCen p.M_min p.M_max m = 0 ∨ zehaviMaxCen p.M_min p.M_max m = 1 := by
    unfold zehaviMaxCen; split_ifs <;> simp
  rcases h01 with h | h <;> cases c <;>
    simp [zehavi05Marked, zehavi05WithMax, poisson, satelliteOccupation, Hod.totalOcc,
      Hod.totalPairs, h, hA] <;>
    refine ⟨?_, ?_⟩ <;> (try refine ⟨?_, ?_, ?_, ?_⟩) <;> ring

/-- C04 (full statement, false): "every scatter scales with the mark". The satellite scatter of the
code is `sqrt(A s)` (hod.py:265-267) instead of `A sqrt(s)`. -/
theorem C04_sigma_satellite_not_scaling :
    ¬ ∀ (p : MarkedP) (c : Bool) (m : ℝ), 0 < m →
      (zehavi05Marked p c).sigmaSat m =
        10 ^ p.logA * (zehavi05WithMax p.toZehaviMaxP c).sigmaSat m := by
  intro h
  have := h { logA := 2, M_1 := 0, alpha := 0 } false 1 one_pos
  simp [zehavi05Marked, zehavi05WithMax, poisson, satelliteOccupation, zehaviSat] at this
  have h2 : (Real.sqrt ((10:ℝ) ^ 2)) = 10 := Real.sqrt_sq (by norm_num)
  norm_num at this

/-- C04 partial: what the satellite scatter does satisfy. Missing: scaling with the first power of
the mark. -/
theorem C04_sigma_satellite_partial (p : MarkedP) (c : Bool) (m : ℝ) :
    (zehavi05Marked p c).sigmaSat m =
      Real.sqrt (10 ^ p.logA) * (zehavi05WithMax p.toZehaviMaxP c).sigmaSat m := by
  have hA : (10:ℝ) ^ p.logA ≠ 0 := by positivity
  have := (C04_marked_scaling p c m).2.2.2.1
  simp only [zehavi05Marked, zehavi05WithMax, poisson] at this ⊢
  rw [this, Real.sqrt_mul (by positivity)]

/-! ## C06 Leauthaud11 -/

/-- C06: the stellar-to-halo mass relation is strictly increasing (so its inverse, used for the
centrals, is well defined). -/
theorem C06_shmr_strictMono (p : LeauthaudP)
    (hb : 0 < p.evolve p.smhm_beta_0 p.smhm_beta_a)
    (hd : 0 ≤ p.evolve p.smhm_delta_0 p.smhm_delta_a)
    (hg : 0 ≤ p.evolve p.smhm_gamma_0 p.smhm_gamma_a) :
    StrictMono p.meanLogHaloMass := by
  intro s t hst
  simp only [LeauthaudP.meanLogHaloMass]
  set m0 := p.evolve p.smhm_m0_0 p.smhm_m0_a
  set b := p.evolve p.smhm_beta_0 p.smhm_beta_a
  set d := p.evolve p.smhm_delta_0 p.smhm_delta_a
  set g := p.evolve p.smhm_gamma_0 p.smhm_gamma_a
  have h0 : (0:ℝ) < 10 ^ m0 := by positivity
  have hq : (10:ℝ) ^ s / 10 ^ m0 < 10 ^ t / 10 ^ m0 := by
    have : (10:ℝ) ^ s < 10 ^ t := Real.rpow_lt_rpow_of_exponent_lt (by norm_num) hst
    gcongr
  set q := (10:ℝ) ^ s / 10 ^ m0 with hqdef
  set r := (10:ℝ) ^ t / 10 ^ m0 with hrdef
  have q0 : 0 < q := by positivity
  have r0 : 0 < r := by positivity
  have hl : log10 q < log10 r := Real.logb_lt_logb (by norm_num) q0 hq
  have hn : q ^ d ≤ r ^ d := Real.rpow_le_rpow q0.le hq.le hd
  have hde : r ^ (-g) ≤ q ^ (-g) :=
    Real.rpow_le_rpow_of_nonpos q0 hq.le (by linarith)
  have hrg : 0 < r ^ (-g) := by positivity
  have hfrac : q ^ d / (1 + q ^ (-g)) ≤ r ^ d / (1 + r ^ (-g)) := by
    apply div_le_div₀ (by positivity) hn (by positivity)
    linarith
  have := mul_lt_mul_of_pos_left hl hb
  linarith

example : let p : LeauthaudP := {}
    0 < p.evolve p.smhm_beta_0 p.smhm_beta_a ∧ 0 ≤ p.evolve p.smhm_delta_0 p.smhm_delta_a ∧
    0 ≤ p.evolve p.smhm_gamma_0 p.smhm_gamma_a := by
  simp only [LeauthaudP.evolve]; norm_num

/-- C06: at the characteristic stellar mass the halo mass is the characteristic halo mass
(the two constant terms cancel). -/
theorem C06_shmr_knee (p : LeauthaudP) :
    p.meanLogHaloMass (p.evolve p.smhm_m0_0 p.smhm_m0_a) = p.evolve p.smhm_m1_0 p.smhm_m1_a := by
  simp only [LeauthaudP.meanLogHaloMass]
  rw [div_self (by positivity)]
  simp [log10]; norm_num

/-- The calls of a history that evaluate an occupation. -/
def LCall.isOcc : LCall → Bool
  | .centralOcc _ | .satelliteOcc _ => true
  | _ => false

/-- State after a history of calls. -/
noncomputable def leauthaudRun (interp : List (ℝ × ℝ) → ℝ → ℝ) (c : Bool) (p : LeauthaudP)
    (h : List LCall) : LeauthaudP :=
  h.foldl (fun p call => (leauthaudStep interp c p call).2) p

theorem leauthaudRun_eq (interp : List (ℝ × ℝ) → ℝ → ℝ) (c : Bool) (p : LeauthaudP)
    (h : List LCall) : leauthaudRun interp c p h =
      if h.any LCall.isOcc then { p with M_min := p.meanLogHaloMass p.sm_thresh } else p := by
  induction h generalizing p with
  | nil => rfl
  | cons a t ih =>
    have : leauthaudRun interp c p (a :: t)
        = leauthaudRun interp c (leauthaudStep interp c p a).2 t := rfl
    rw [this, ih]
    have e : ∀ p : LeauthaudP, ({ p with M_min := p.meanLogHaloMass p.sm_thresh } :
        LeauthaudP).meanLogHaloMass p.sm_thresh = p.meanLogHaloMass p.sm_thresh := fun p => rfl
    cases a <;> simp only [leauthaudStep, LCall.isOcc, List.any_cons, Bool.true_or, Bool.false_or,
      if_true, e, ite_self]

/-- C06: whatever was called before on the instance, occupation and mass-relation calls return what a
fresh instance returns. (Missing for the full claim: `mmin`, next theorem.) -/
theorem C06_history_independent_partial (interp : List (ℝ × ℝ) → ℝ → ℝ) (c : Bool) (p : LeauthaudP)
    (h : List LCall) (q : LCall) (hq : q ≠ .mmin) :
    (leauthaudStep interp c (leauthaudRun interp c p h) q).1 = (leauthaudStep interp c p q).1 := by
  rw [leauthaudRun_eq]
  split_ifs
  · cases q <;> simp_all [leauthaudStep] <;> rfl
  · rfl

/-- C06: the value of `mmin` after a history: the user's `M_min` until the first occupation call, the
mass relation's value ever after. -/
theorem C06_mmin_history (interp : List (ℝ × ℝ) → ℝ → ℝ) (c : Bool) (p : LeauthaudP)
    (h : List LCall) :
    (leauthaudStep interp c (leauthaudRun interp c p h) .mmin).1 =
      if h.any LCall.isOcc then p.meanLogHaloMass p.sm_thresh else p.M_min := by
  rw [leauthaudRun_eq]; split_ifs <;> rfl

/-- C06 finding: full history independence is false — merely evaluating the central occupation
changes `mmin`, hence the mass range the halo model uses later. -/
theorem C06_mmin_depends_on_history (interp : List (ℝ × ℝ) → ℝ → ℝ) (c : Bool) :
    ∃ (p : LeauthaudP) (h : List LCall),
      (leauthaudStep interp c (leauthaudRun interp c p h) .mmin).1
        ≠ (leauthaudStep interp c p .mmin).1 := by
  refine ⟨{ sm_thresh := 10.72 }, [.centralOcc 1], ?_⟩
  rw [C06_mmin_history]
  have hk := C06_shmr_knee { sm_thresh := 10.72 }
  simp only [LeauthaudP.evolve] at hk
  norm_num at hk
  simp only [List.any_cons, LCall.isOcc, Bool.true_or, if_true, leauthaudStep]
  norm_num
  rw [hk]; norm_num

end Halomod.HOD
