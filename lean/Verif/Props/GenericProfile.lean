import Verif.Model.GenericProfile
import Verif.Props.IntegrateCorr
import Verif.Props.HaloModel4
import Verif.Lemmas.Converge4
import Mathlib.MeasureTheory.Integral.IntervalIntegral.Basic
import Mathlib.Analysis.SpecialFunctions.Integrals.Basic

/-!
# C60: profiles without closed forms are normalised and transformed numerically

What the numerical fallbacks `Profile._h` and `Profile._p` compute, compared with the integrals the user asked
for.
-/
namespace Halomod.Profiles

open MeasureTheory Finset
open Halomod.HaloModel (linspace)
open Halomod.Tools (Spl)

/-! ### the normalisation -/

/-- At even entries the cumulative rule is the composite Simpson rule. -/
theorem cumSimpson_even (n : ℕ) (dx : ℝ) (y : ℕ → ℝ) (b : ℕ) (hb : 2 * b < n) :
    cumSimpson n dx y (2 * b) = basicSimpson b dx y := by
  induction b with
  | zero => simp [cumSimpson, basicSimpson]
  | succ b ih =>
    have ih' := ih (by omega)
    unfold cumSimpson at ih' ⊢
    rw [show 2 * (b + 1) = 2 * b + 1 + 1 by ring, sum_range_succ, sum_range_succ, ih']
    have h1 : cumSub n dx y (2 * b) = dx / 3 * (5 * y (2 * b) / 4 + 2 * y (2 * b + 1) - y (2 * b + 2) / 4) := by
      unfold cumSub; rw [if_pos ⟨by omega, by omega⟩]
    have h2 : cumSub n dx y (2 * b + 1) = dx / 3 * (5 * y (2 * b + 2) / 4 + 2 * y (2 * b + 1) - y (2 * b) / 4) := by
      unfold cumSub; rw [if_neg (by omega)]; rfl
    rw [h1, h2]
    unfold basicSimpson
    rw [sum_range_succ, mul_add]
    ring

/-- The last entry is `scipy.integrate.simpson` of the same samples, whatever the parity. -/
theorem cumSimpson_last (n : ℕ) (dx : ℝ) (y : ℕ → ℝ) (hn : 3 ≤ n) (hdx : dx ≠ 0) :
    cumSimpson n dx y (n - 1) = simpsonDx n dx y := by
  unfold simpsonDx
  by_cases h : n % 2 = 0
  · rw [if_pos h, if_neg (by omega)]
    have h3 : n - 1 = 2 * ((n - 2) / 2) + 1 := by omega
    rw [h3]
    unfold cumSimpson
    rw [sum_range_succ]
    have he := cumSimpson_even n dx y ((n - 2) / 2) (by omega)
    unfold cumSimpson at he
    rw [he]
    congr 1
    unfold cumSub
    rw [if_neg (by omega), show 2 * ((n - 2) / 2) + 1 = n - 1 by omega, show 2 * ((n - 2) / 2) - 1 = n - 3 by omega,
      show 2 * ((n - 2) / 2) = n - 2 by omega]
    field_simp
    ring
  · rw [if_neg h, show n - 1 = 2 * ((n - 1) / 2) by omega, cumSimpson_even n dx y _ (by omega)]
    congr 1
    omega

/-- Simpson's rule on a function monotone on the interval: error at most the step times the rise. -/
theorem basicSimpson_mono (f : ℝ → ℝ) (a h : ℝ) (hh : 0 < h) (b : ℕ)
    (hf : MonotoneOn f (Set.Icc a (a + (2 * b : ℕ) * h))) :
    |basicSimpson b h (fun i => f (a + i * h)) - ∫ t in a..(a + (2 * b : ℕ) * h), f t|
      ≤ 2 * h * (f (a + (2 * b : ℕ) * h) - f a) := by
  induction b with
  | zero => simp [basicSimpson]
  | succ b ih =>
    have hle : a + ((2 * b : ℕ) : ℝ) * h ≤ a + ((2 * (b + 1) : ℕ) : ℝ) * h := by push_cast; nlinarith
    have h0 : a ≤ a + ((2 * b : ℕ) : ℝ) * h := by
      have : (0:ℝ) ≤ ((2 * b : ℕ) : ℝ) * h := by positivity
      linarith
    have hfl : MonotoneOn f (Set.Icc a (a + ((2 * b : ℕ) : ℝ) * h)) := hf.mono (Set.Icc_subset_Icc_right hle)
    have hfr : MonotoneOn f (Set.Icc (a + ((2 * b : ℕ) : ℝ) * h) (a + ((2 * (b + 1) : ℕ) : ℝ) * h)) :=
      hf.mono (Set.Icc_subset_Icc_left h0)
    have i1 : IntervalIntegrable f volume a (a + ((2 * b : ℕ) : ℝ) * h) :=
      MonotoneOn.intervalIntegrable (by rwa [Set.uIcc_of_le h0])
    have i2 : IntervalIntegrable f volume (a + ((2 * b : ℕ) : ℝ) * h) (a + ((2 * (b + 1) : ℕ) : ℝ) * h) :=
      MonotoneOn.intervalIntegrable (by rwa [Set.uIcc_of_le hle])
    have ih' := ih hfl
    rw [← intervalIntegral.integral_add_adjacent_intervals i1 i2]
    have hS : basicSimpson (b + 1) h (fun i => f (a + i * h)) = basicSimpson b h (fun i => f (a + i * h)) +
        h / 3 * (f (a + (2 * b : ℕ) * h) + 4 * f (a + (2 * b + 1 : ℕ) * h) + f (a + (2 * b + 2 : ℕ) * h)) := by
      unfold basicSimpson; rw [sum_range_succ, mul_add]
    rw [hS]
    have m1 : a + ((2 * b + 1 : ℕ) : ℝ) * h ∈ Set.Icc (a + ((2 * b : ℕ) : ℝ) * h) (a + ((2 * (b + 1) : ℕ) : ℝ) * h) :=
      ⟨by push_cast; nlinarith, by push_cast; nlinarith⟩
    have el : a + ((2 * b : ℕ) : ℝ) * h ∈ Set.Icc (a + ((2 * b : ℕ) : ℝ) * h) (a + ((2 * (b + 1) : ℕ) : ℝ) * h) := ⟨le_rfl, hle⟩
    have er : a + ((2 * (b + 1) : ℕ) : ℝ) * h ∈ Set.Icc (a + ((2 * b : ℕ) : ℝ) * h) (a + ((2 * (b + 1) : ℕ) : ℝ) * h) := ⟨hle, le_rfl⟩
    have hA := hfr el m1 m1.1
    have hB := hfr m1 er m1.2
    have hp := avg_err f (a + (2 * b : ℕ) * h) (a + (2 * (b + 1) : ℕ) * h)
      ((f (a + (2 * b : ℕ) * h) + 4 * f (a + (2 * b + 1 : ℕ) * h) + f (a + (2 * (b + 1) : ℕ) * h)) / 6)
      (f (a + (2 * (b + 1) : ℕ) * h) - f (a + (2 * b : ℕ) * h)) hle i2 (by
        intro t ht
        have e1 := hfr el ht ht.1
        have e2 := hfr ht er ht.2
        rw [abs_le]
        constructor <;> linarith)
    have hlen : a + ((2 * (b + 1) : ℕ) : ℝ) * h - (a + (2 * b : ℕ) * h) = 2 * h := by push_cast; ring
    rw [hlen] at hp
    have e22 : ((2 * b + 2 : ℕ) : ℝ) = ((2 * (b + 1) : ℕ) : ℝ) := by push_cast; ring
    rw [e22]
    generalize f (a + ((2 * (b + 1) : ℕ) : ℝ) * h) = F2 at *
    generalize f (a + ((2 * b : ℕ) : ℝ) * h) = F0 at *
    generalize f (a + ((2 * b + 1 : ℕ) : ℝ) * h) = F1 at *
    rw [abs_le] at *
    constructor <;> linarith [ih'.1, ih'.2, hp.1, hp.2]

/-- `scipy.integrate.simpson` with an even number of samples of a monotone function. -/
theorem simpson_mono (f : ℝ → ℝ) (a h : ℝ) (hh : 0 < h) (n : ℕ) (hn : 4 ≤ n) (he : n % 2 = 0)
    (hf : MonotoneOn f (Set.Icc a (a + (n - 1 : ℕ) * h))) :
    |simpsonDx n h (fun i => f (a + i * h)) - ∫ t in a..(a + (n - 1 : ℕ) * h), f t|
      ≤ 3 * h * (f (a + (n - 1 : ℕ) * h) - f a) := by
  obtain ⟨b, rfl⟩ : ∃ b, n = 2 * b + 4 := ⟨(n - 4) / 2, by omega⟩
  have hlast : (2 * b + 4 - 1 : ℕ) = 2 * (b + 1) + 1 := by omega
  unfold simpsonDx
  rw [if_pos he, if_neg (by omega), hlast, show (2 * b + 4 - 2) / 2 = b + 1 by omega,
    show 2 * b + 4 - 2 = 2 * (b + 1) by omega, show 2 * b + 4 - 3 = 2 * b + 1 by omega]
  rw [hlast] at hf
  have h0 : a ≤ a + ((2 * (b + 1) : ℕ) : ℝ) * h := by
    have : (0:ℝ) ≤ ((2 * (b + 1) : ℕ) : ℝ) * h := by positivity
    linarith
  have hle : a + ((2 * (b + 1) : ℕ) : ℝ) * h ≤ a + ((2 * (b + 1) + 1 : ℕ) : ℝ) * h := by push_cast; nlinarith
  have hll : a + ((2 * b + 1 : ℕ) : ℝ) * h ≤ a + ((2 * (b + 1) : ℕ) : ℝ) * h := by push_cast; nlinarith
  have hl0 : a ≤ a + ((2 * b + 1 : ℕ) : ℝ) * h := by
    have : (0:ℝ) ≤ ((2 * b + 1 : ℕ) : ℝ) * h := by positivity
    linarith
  have hfl := hf.mono (Set.Icc_subset_Icc_right hle)
  have hfr : MonotoneOn f (Set.Icc (a + ((2 * (b + 1) : ℕ) : ℝ) * h) (a + ((2 * (b + 1) + 1 : ℕ) : ℝ) * h)) :=
    hf.mono (Set.Icc_subset_Icc_left h0)
  have i1 : IntervalIntegrable f volume a (a + ((2 * (b + 1) : ℕ) : ℝ) * h) :=
    MonotoneOn.intervalIntegrable (by rwa [Set.uIcc_of_le h0])
  have i2 : IntervalIntegrable f volume (a + ((2 * (b + 1) : ℕ) : ℝ) * h) (a + ((2 * (b + 1) + 1 : ℕ) : ℝ) * h) :=
    MonotoneOn.intervalIntegrable (by rwa [Set.uIcc_of_le hle])
  rw [← intervalIntegral.integral_add_adjacent_intervals i1 i2]
  have hb := basicSimpson_mono f a h hh (b + 1) hfl
  have m0 := hf ⟨le_rfl, h0.trans hle⟩ ⟨hl0, hll.trans hle⟩ hl0
  have m1 := hf ⟨hl0, hll.trans hle⟩ ⟨h0, hle⟩ hll
  have m2 := hf ⟨h0, hle⟩ ⟨h0.trans hle, le_rfl⟩ hle
  have hp := avg_err f (a + ((2 * (b + 1) : ℕ) : ℝ) * h) (a + ((2 * (b + 1) + 1 : ℕ) : ℝ) * h)
    (f (a + ((2 * (b + 1) : ℕ) : ℝ) * h))
    (f (a + ((2 * (b + 1) + 1 : ℕ) : ℝ) * h) - f (a + ((2 * (b + 1) : ℕ) : ℝ) * h)) hle i2 (by
      intro t ht
      have e1 := hfr ⟨le_rfl, hle⟩ ht ht.1
      have e2 := hfr ht ⟨hle, le_rfl⟩ ht.2
      rw [abs_le]
      constructor <;> linarith)
  have hlen : a + ((2 * (b + 1) + 1 : ℕ) : ℝ) * h - (a + ((2 * (b + 1) : ℕ) : ℝ) * h) = h := by push_cast; ring
  rw [hlen] at hp
  have e1 : (2 * h ^ 2 + 3 * h * h) / (6 * (h + h)) = 5 / 12 * h := by field_simp; ring
  have e2 : (h ^ 2 + 3 * h * h) / (6 * h) = 2 / 3 * h := by field_simp; ring
  have e3 : h ^ 3 / (6 * h * (h + h)) = 1 / 12 * h := by field_simp; ring
  dsimp only
  rw [e1, e2, e3]
  generalize f (a + ((2 * (b + 1) + 1 : ℕ) : ℝ) * h) = F3 at *
  generalize f (a + ((2 * (b + 1) : ℕ) : ℝ) * h) = F2 at *
  generalize f (a + ((2 * b + 1 : ℕ) : ℝ) * h) = F1 at *
  rw [abs_le] at *
  have p1 := mul_nonneg hh.le (sub_nonneg.mpr m0)
  have p2 := mul_nonneg hh.le (sub_nonneg.mpr m1)
  have p3 := mul_nonneg hh.le (sub_nonneg.mpr m2)
  constructor <;> linarith [hb.1, hb.2, hp.1, hp.2]

/-- the samples of the numerical normalisation -/
theorem hGrid_eq (c : ℝ) (i : ℕ) : hGrid c i = 1e-6 + i * hStep c := by
  unfold hGrid hStep
  rw [Halomod.HaloModel.linspace_eq _ _ (by norm_num)]
  norm_num

theorem hTable_last (f : ℝ → ℝ) (c : ℝ) (hc : 1e-6 < c) :
    hTable f c 1999 = simpsonDx 2000 (hStep c) (fun i => f (1e-6 + i * hStep c) * (1e-6 + i * hStep c) ^ 2) := by
  have hs : hStep c ≠ 0 := by
    unfold hStep
    have : 0 < c - 1e-6 := by linarith
    positivity
  unfold hTable
  rw [show (1999 : ℕ) = 2000 - 1 by norm_num, cumSimpson_last 2000 _ _ (by norm_num) hs]
  simp only [hGrid_eq]

/-- C60: the numerical normalisation of a profile whose `f(x) x²` is a difference of two increasing functions
`p - q` (every function of bounded variation) is the integral from `10⁻⁶` to the concentration, to within three
steps of the 2000-point grid times the variation. -/
theorem C60_norm_variation (isp : Spl) (f cm p q : ℝ → ℝ) (c : ℝ) (hc : 1e-6 < c)
    (hp : MonotoneOn p (Set.Icc 1e-6 c)) (hq : MonotoneOn q (Set.Icc 1e-6 c))
    (hpq : ∀ x ∈ Set.Icc (1e-6 : ℝ) c, f x * x ^ 2 = p x - q x) :
    ∃ v, genericH isp f cm (some (.scalar c)) none = .ok (.scalar v) ∧
      |v - ∫ x in (1e-6 : ℝ)..c, f x * x ^ 2| ≤ 3 * ((c - 1e-6) / 1999) * ((p c - p 1e-6) + (q c - q 1e-6)) := by
  refine ⟨hTable f c 1999, rfl, ?_⟩
  rw [hTable_last f c hc]
  have hs : 0 < hStep c := by
    unfold hStep
    have : 0 < c - 1e-6 := by linarith
    positivity
  have hend : (1e-6 : ℝ) + ((2000 - 1 : ℕ) : ℝ) * hStep c = c := by
    unfold hStep; norm_num; ring
  have hmem : ∀ i : ℕ, i < 2000 → (1e-6 : ℝ) + i * hStep c ∈ Set.Icc (1e-6 : ℝ) c := by
    intro i hi
    have h0 : (0 : ℝ) ≤ i * hStep c := by positivity
    have h1 : (i : ℝ) * hStep c ≤ ((2000 - 1 : ℕ) : ℝ) * hStep c :=
      mul_le_mul_of_nonneg_right (by exact_mod_cast (by omega : i ≤ 2000 - 1)) hs.le
    refine ⟨by linarith, ?_⟩
    calc (1e-6 : ℝ) + i * hStep c ≤ 1e-6 + ((2000 - 1 : ℕ) : ℝ) * hStep c := by gcongr
      _ = c := hend
  have hP := simpson_mono p 1e-6 (hStep c) hs 2000 (by norm_num) (by norm_num) (by rwa [hend])
  have hQ := simpson_mono q 1e-6 (hStep c) hs 2000 (by norm_num) (by norm_num) (by rwa [hend])
  rw [hend] at hP hQ
  have hsub : simpsonDx 2000 (hStep c) (fun i => f (1e-6 + i * hStep c) * (1e-6 + i * hStep c) ^ 2) =
      simpsonDx 2000 (hStep c) (fun i => p (1e-6 + i * hStep c)) - simpsonDx 2000 (hStep c) (fun i => q (1e-6 + i * hStep c)) := by
    have h1 : simpsonDx 2000 (hStep c) (fun i => f (1e-6 + i * hStep c) * (1e-6 + i * hStep c) ^ 2) =
        simpsonDx 2000 (hStep c) (fun i => p (1e-6 + i * hStep c) + (-1) * q (1e-6 + i * hStep c)) :=
      simpsonDx_congr (by norm_num) fun i hi => by rw [hpq _ (hmem i hi)]; ring
    rw [h1, simpsonDx_add, simpsonDx_mul]
    ring
  have ip : IntervalIntegrable p volume 1e-6 c := MonotoneOn.intervalIntegrable (by rwa [Set.uIcc_of_le hc.le])
  have iq : IntervalIntegrable q volume 1e-6 c := MonotoneOn.intervalIntegrable (by rwa [Set.uIcc_of_le hc.le])
  have hint : ∫ x in (1e-6 : ℝ)..c, f x * x ^ 2 = (∫ x in (1e-6 : ℝ)..c, p x) - ∫ x in (1e-6 : ℝ)..c, q x := by
    rw [← intervalIntegral.integral_sub ip iq]
    apply intervalIntegral.integral_congr
    intro x hx
    rw [Set.uIcc_of_le hc.le] at hx
    exact hpq x hx
  rw [hsub, hint]
  change |_| ≤ 3 * hStep c * _
  rw [abs_le] at *
  constructor <;> linarith [hP.1, hP.2, hQ.1, hQ.2]

/-- C60: the same for a profile whose `f(x) x²` rises up to some `x = p` and falls afterwards — the case of
cuspy profiles. -/
theorem C60_norm_unimodal (isp : Spl) (f cm : ℝ → ℝ) (p c : ℝ) (h0 : 1e-6 ≤ p) (hpc : p ≤ c) (hc : 1e-6 < c)
    (hup : MonotoneOn (fun x => f x * x ^ 2) (Set.Icc 0 p)) (hdown : AntitoneOn (fun x => f x * x ^ 2) (Set.Icc p c))
    (hnn : ∀ x, 0 ≤ x → x ≤ c → 0 ≤ f x * x ^ 2) :
    ∃ v, genericH isp f cm (some (.scalar c)) none = .ok (.scalar v) ∧
      |v - ∫ x in (0 : ℝ)..c, f x * x ^ 2| ≤ (6 * ((c - 1e-6) / 1999) + 1e-6) * (f p * p ^ 2) := by
  set g : ℝ → ℝ := fun x => f x * x ^ 2 with hg
  have hgp : 0 ≤ g p := hnn p (by linarith) hpc
  have hP : MonotoneOn (fun x => g (min x p)) (Set.Icc 1e-6 c) := by
    intro x hx y hy hxy
    have hx1 : (0:ℝ) ≤ min x p := le_min (by linarith [hx.1]) (by linarith)
    have hy1 : (0:ℝ) ≤ min y p := le_min (by linarith [hy.1]) (by linarith)
    exact hup ⟨hx1, min_le_right _ _⟩ ⟨hy1, min_le_right _ _⟩ (min_le_min_right p hxy)
  have hQ : MonotoneOn (fun x => g p - g (max x p)) (Set.Icc 1e-6 c) := by
    intro x hx y hy hxy
    have := hdown ⟨le_max_right x p, max_le hx.2 hpc⟩ ⟨le_max_right y p, max_le hy.2 hpc⟩ (max_le_max_right p hxy)
    dsimp only at this ⊢
    linarith
  obtain ⟨v, hv, hb⟩ := C60_norm_variation isp f cm _ _ c hc hP hQ (by
    intro x _
    rcases le_total x p with h | h
    · rw [min_eq_left h, max_eq_right h]; simp [hg]
    · rw [min_eq_right h, max_eq_left h]; simp [hg])
  refine ⟨v, hv, ?_⟩
  rw [min_eq_left h0, max_eq_right h0, min_eq_right hpc, max_eq_left hpc] at hb
  have i1 : IntervalIntegrable g volume 0 1e-6 :=
    MonotoneOn.intervalIntegrable (by rw [Set.uIcc_of_le (by norm_num)]; exact hup.mono (Set.Icc_subset_Icc_right h0))
  have i2 : IntervalIntegrable g volume 1e-6 p :=
    MonotoneOn.intervalIntegrable (by rw [Set.uIcc_of_le h0]; exact hup.mono (Set.Icc_subset_Icc_left (by norm_num)))
  have i3 : IntervalIntegrable g volume p c := AntitoneOn.intervalIntegrable (by rwa [Set.uIcc_of_le hpc])
  have hsplit : ∫ x in (0 : ℝ)..c, g x = (∫ x in (0 : ℝ)..1e-6, g x) + ∫ x in (1e-6 : ℝ)..c, g x :=
    (intervalIntegral.integral_add_adjacent_intervals i1 (i2.trans i3)).symm
  have hlow : 0 ≤ ∫ x in (0 : ℝ)..1e-6, g x :=
    intervalIntegral.integral_nonneg (by norm_num) fun x hx => hnn x hx.1 (by linarith [hx.2])
  have hhigh : ∫ x in (0 : ℝ)..1e-6, g x ≤ 1e-6 * g p := by
    have := intervalIntegral.integral_mono_on (μ := volume) (a := 0) (b := 1e-6) (by norm_num) i1 (intervalIntegrable_const (c := g p))
      fun x hx => hup ⟨hx.1, hx.2.trans h0⟩ ⟨by linarith, le_rfl⟩ (hx.2.trans h0)
    rw [intervalIntegral.integral_const] at this
    simpa using this
  have ha : 0 ≤ g 1e-6 := hnn _ (by norm_num) hc.le
  have hcc : 0 ≤ g c := hnn _ (by linarith) le_rfl
  have hd : 0 ≤ 3 * ((c - 1e-6) / 1999) := by
    have : 0 < c - 1e-6 := by linarith
    positivity
  have hb2 : 3 * ((c - 1e-6) / 1999) * (g p - g 1e-6 + (g p - g c - (g p - g p))) ≤ 6 * ((c - 1e-6) / 1999) * g p := by
    have : g p - g 1e-6 + (g p - g c - (g p - g p)) ≤ 2 * g p := by linarith
    have := mul_le_mul_of_nonneg_left this hd
    linarith
  change |v - ∫ x in (0 : ℝ)..c, g x| ≤ (6 * ((c - 1e-6) / 1999) + 1e-6) * g p
  change |v - ∫ x in (1e-6 : ℝ)..c, g x| ≤ _ at hb
  rw [hsplit]
  have hb3 := hb.trans hb2
  rw [abs_le] at *
  constructor <;> linarith [hb3.1, hb3.2]

/-- exponent of the generalised NFW integrand -/
noncomputable def gnfwLog (α x : ℝ) : ℝ := (2 - α) * Real.log x - (3 - α) * Real.log (1 + x)

theorem gnfw_exp (α : ℝ) {x : ℝ} (hx : 0 < x) : gnfwF α x * x ^ 2 = Real.exp (gnfwLog α x) := by
  have h1 : 0 < 1 + x := by linarith
  have hxa : 0 < x ^ α := Real.rpow_pos_of_pos hx _
  have hxb : 0 < (1 + x) ^ (3 - α) := Real.rpow_pos_of_pos h1 _
  unfold gnfwF gnfwLog
  have e1 : Real.exp ((2 - α) * Real.log x) = x ^ 2 / x ^ α := by
    rw [mul_comm, ← Real.rpow_def_of_pos hx, Real.rpow_sub hx]
    norm_num
  have e2 : Real.exp ((3 - α) * Real.log (1 + x)) = (1 + x) ^ (3 - α) := by
    rw [mul_comm, ← Real.rpow_def_of_pos h1]
  rw [Real.exp_sub, e1, e2]
  field_simp
  norm_num

theorem gnfwLog_deriv (α : ℝ) {x : ℝ} (hx : 0 < x) :
    HasDerivAt (gnfwLog α) ((2 - α) * x⁻¹ - (3 - α) * (1 / (1 + x))) x := by
  have h1 : 0 < 1 + x := by linarith
  have a := (Real.hasDerivAt_log hx.ne').const_mul (2 - α)
  have b := (((hasDerivAt_id x).const_add 1).log h1.ne').const_mul (3 - α)
  exact a.sub b

theorem gnfwLog_deriv_eq (α : ℝ) {x : ℝ} (hx : 0 < x) :
    (2 - α) * x⁻¹ - (3 - α) * (1 / (1 + x)) = (2 - α - x) / (x * (1 + x)) := by
  have h1 : 0 < 1 + x := by linarith
  field_simp
  ring

theorem gnfw_up (α p : ℝ) (hp : p ≤ 2 - α) : MonotoneOn (fun x => gnfwF α x * x ^ 2) (Set.Icc 0 p) := by
  have hl : MonotoneOn (gnfwLog α) (Set.Ioc 0 p) := by
    apply monotoneOn_of_deriv_nonneg (convex_Ioc 0 p)
    · intro x hx
      exact (gnfwLog_deriv α hx.1).continuousAt.continuousWithinAt
    · intro x hx
      rw [interior_Ioc] at hx
      exact (gnfwLog_deriv α hx.1).differentiableAt.differentiableWithinAt
    · intro x hx
      rw [interior_Ioc] at hx
      rw [(gnfwLog_deriv α hx.1).deriv, gnfwLog_deriv_eq α hx.1]
      have h1 := hx.1
      exact div_nonneg (by linarith [hx.2]) (by positivity)
  intro x hx y hy hxy
  dsimp only
  rcases hx.1.eq_or_lt with h | h
  · rcases hy.1.eq_or_lt with h' | h'
    · rw [← h, ← h']
    · rw [← h, gnfw_exp α h']
      simp only [ne_eq, OfNat.ofNat_ne_zero, not_false_eq_true, zero_pow, mul_zero]
      exact (Real.exp_pos _).le
  · have h' := h.trans_le hxy
    rw [gnfw_exp α h, gnfw_exp α h']
    exact Real.exp_le_exp.mpr (hl ⟨h, hx.2⟩ ⟨h', hy.2⟩ hxy)

theorem gnfw_down (α p c : ℝ) (h0 : 0 < p) (hp : 2 - α ≤ p) : AntitoneOn (fun x => gnfwF α x * x ^ 2) (Set.Icc p c) := by
  have hl : AntitoneOn (gnfwLog α) (Set.Icc p c) := by
    apply antitoneOn_of_deriv_nonpos (convex_Icc p c)
    · intro x hx
      exact (gnfwLog_deriv α (h0.trans_le hx.1)).continuousAt.continuousWithinAt
    · intro x hx
      rw [interior_Icc] at hx
      exact (gnfwLog_deriv α (h0.trans hx.1)).differentiableAt.differentiableWithinAt
    · intro x hx
      rw [interior_Icc] at hx
      have h1 := h0.trans hx.1
      rw [(gnfwLog_deriv α h1).deriv, gnfwLog_deriv_eq α h1]
      exact div_nonpos_of_nonpos_of_nonneg (by linarith [hx.1]) (by positivity)
  intro x hx y hy hxy
  dsimp only
  rw [gnfw_exp α (h0.trans_le hx.1), gnfw_exp α (h0.trans_le hy.1)]
  exact Real.exp_le_exp.mpr (hl hx hy hxy)

theorem gnfw_le_one (α : ℝ) (hα : α ≤ 2) {x : ℝ} (hx : 0 < x) : gnfwF α x * x ^ 2 ≤ 1 := by
  rw [gnfw_exp α hx, Real.exp_le_one_iff]
  unfold gnfwLog
  have h1 : Real.log x ≤ Real.log (1 + x) := Real.log_le_log hx (by linarith)
  have h2 : 0 ≤ Real.log (1 + x) := Real.log_nonneg (by linarith)
  nlinarith [mul_le_mul_of_nonneg_left h1 (sub_nonneg.mpr hα)]

/-- C60: the normalisation of the generalised NFW profile with inner slope `alpha` below 2: within
`6 (c - 10⁻⁶)/1999 + 10⁻⁶` of `∫₀ᶜ f x²` for every concentration. -/
theorem C60_norm_gnfw (isp : Spl) (cm : ℝ → ℝ) (α c : ℝ) (hα : α ≤ 2 - 1e-6) (hc : 1e-6 < c) :
    ∃ v, genericH isp (gnfwF α) cm (some (.scalar c)) none = .ok (.scalar v) ∧
      |v - ∫ x in (0 : ℝ)..c, gnfwF α x * x ^ 2| ≤ 6 * ((c - 1e-6) / 1999) + 1e-6 := by
  set p : ℝ := min (2 - α) c with hp
  have hp0 : 1e-6 ≤ p := le_min (by linarith) hc.le
  have hpos : 0 < p := by linarith
  have hdown : AntitoneOn (fun x => gnfwF α x * x ^ 2) (Set.Icc p c) := by
    rcases le_total (2 - α) c with h | h
    · exact gnfw_down α p c hpos (by rw [hp, min_eq_left h])
    · rw [hp, min_eq_right h, Set.Icc_self]
      exact Set.subsingleton_singleton.antitoneOn _
  obtain ⟨v, hv, hb⟩ := C60_norm_unimodal isp (gnfwF α) cm p c hp0 (min_le_right _ _) hc (gnfw_up α p (min_le_left _ _)) hdown
    (by
      intro x hx _
      rcases hx.eq_or_lt with h | h
      · rw [← h]; simp
      · rw [gnfw_exp α h]; exact (Real.exp_pos _).le)
  refine ⟨v, hv, hb.trans ?_⟩
  have h1 := gnfw_le_one α (by linarith) hpos
  have h2 : 0 ≤ 6 * ((c - 1e-6) / 1999) + 1e-6 := by
    have : 0 < c - 1e-6 := by linarith
    positivity
  nlinarith

/-- C60: the normalisation is positive where the profile is. -/
theorem C60_norm_pos (isp : Spl) (f cm : ℝ → ℝ) (c : ℝ) (hc : 1e-6 < c) (hf : ∀ x, 0 < x → 0 < f x) :
    ∃ v, genericH isp f cm (some (.scalar c)) none = .ok (.scalar v) ∧ 0 < v := by
  refine ⟨hTable f c 1999, rfl, ?_⟩
  rw [hTable_last f c hc]
  have hs : 0 < hStep c := by
    unfold hStep
    have : 0 < c - 1e-6 := by linarith
    positivity
  set y : ℕ → ℝ := fun i => f (1e-6 + i * hStep c) * (1e-6 + i * hStep c) ^ 2 with hydef
  have hy : ∀ i : ℕ, 0 < y i := by
    intro i
    have : (0:ℝ) < 1e-6 + i * hStep c := by positivity
    exact mul_pos (hf _ this) (by positivity)
  clear_value y
  unfold simpsonDx
  rw [if_pos (by norm_num), if_neg (by norm_num)]
  have hb : basicSimpson ((2000 - 2) / 2) (hStep c) y = basicSimpson 998 (hStep c) y
      + hStep c / 3 * (y 1996 + 4 * y 1997 + y 1998) := by
    unfold basicSimpson
    rw [show (2000 - 2) / 2 = 998 + 1 by norm_num, sum_range_succ, mul_add]
  have hb0 : 0 ≤ basicSimpson 998 (hStep c) y := basicSimpson_nonneg hs.le fun i _ => (hy i).le
  have hd : hStep c ≠ 0 := hs.ne'
  have e1 : (2 * hStep c ^ 2 + 3 * hStep c * hStep c) / (6 * (hStep c + hStep c)) = 5 / 12 * hStep c := by field_simp; ring
  have e2 : (hStep c ^ 2 + 3 * hStep c * hStep c) / (6 * hStep c) = 2 / 3 * hStep c := by field_simp; ring
  have e3 : hStep c ^ 3 / (6 * hStep c * (hStep c + hStep c)) = 1 / 12 * hStep c := by field_simp; ring
  rw [hb, e1, e2, e3, show 2000 - 1 = 1999 by norm_num, show 2000 - 2 = 1998 by norm_num, show 2000 - 3 = 1997 by norm_num]
  have p1 := mul_pos hs (hy 1996)
  have p2 := mul_pos hs (hy 1997)
  have p3 := mul_pos hs (hy 1998)
  have p4 := mul_pos hs (hy 1999)
  linarith

/-- C60: which argument counts: the mass if it is given (the concentration is then ignored), and an error if
neither is given. -/
theorem C60_norm_arguments (isp : Spl) (f cm : ℝ → ℝ) (c : Option SA) (m : SA) :
    genericH isp f cm c (some m) = genericH isp f cm (some (m.map cm)) none ∧
    genericH isp f cm none none = .error .valueError := by
  constructor
  · cases c <;> rfl
  · rfl

/-- C60: in an array of concentrations the halo with the largest one gets the value it has on its own, to the
last digit; the others are read off a spline through the same cumulative integral. -/
theorem C60_norm_array {isp : Spl} (hi : Tools.SplOk isp) (f cm : ℝ → ℝ) (l : List ℝ) (i : ℕ) (h : i < l.length)
    (hmax : ∀ x ∈ l, x ≤ l[i]) (hc : 1e-6 < l[i]) :
    ∃ w, genericH isp f cm (some (.arr l)) none = .ok (.arr w) ∧ ∃ hw : i < w.length,
      genericH isp f cm (some (.scalar l[i])) none = .ok (.scalar w[i]) := by
  have hm : l.max? = some l[i] := by
    rw [List.max?_eq_some_iff]
    exact ⟨List.getElem_mem h, fun x hx => hmax x hx⟩
  refine ⟨l.map (isp 2000 (hGrid l[i]) (hTable f l[i])), ?_, by simpa using h, ?_⟩
  · simp only [genericH, SA.max, hm, Option.getD_some]
  · simp only [genericH, SA.max, List.getElem_map, Option.getD_some]
    have hlast : hGrid l[i] 1999 = l[i] := (Halomod.HaloModel.linspace_ends _ _ (by norm_num)).2
    have := hi.interp 2000 (hGrid l[i]) (hTable f l[i])
      (fun a b hab _ => Halomod.HaloModel.linspace_lt _ _ hc (by norm_num) hab) 1999 (by norm_num)
    rw [hlast] at this
    rw [this]

/-! ### the Fourier transform -/

/-- what the user asked for: `∫₀ᶜ x f(x) sin(κx)/κ dx`, the formula of the docstring -/
noncomputable def Spec.fourier (f : ℝ → ℝ) (κ c : ℝ) : ℝ := ∫ x in (0 : ℝ)..c, x * Real.sin (κ * x) / κ * f x

/-- The loop over haloes gives every halo its own integral, whatever order they come in and however `argsort`
breaks ties. -/
theorem pColumn_eq {nc : ℕ} (g : ℝ → ℝ) (c : Fin nc → ℝ) (σ : Fin nc → Fin nc) (hσ : Function.Injective σ) (hc : ∀ j, 0 ≤ c j)
    (hi : ∀ b, 0 ≤ b → IntervalIntegrable g volume 0 b) (i : ℕ) (hin : i ≤ nc) :
    ∀ j : Fin nc, (j : ℕ) < i → pColumn (fun g a b => ∫ x in a..b, g x) g c σ i (σ j) = ∫ x in (0 : ℝ)..c (σ j), g x := by
  induction i with
  | zero => intro j hj; omega
  | succ i ih =>
    intro j hj
    have hlt : i < nc := by omega
    simp only [pColumn, dif_pos hlt]
    by_cases hji : (j : ℕ) = i
    · have hj' : j = ⟨i, hlt⟩ := Fin.ext hji
      rw [hj', Function.update_self]
      by_cases h0 : i = 0
      · rw [if_pos h0, if_pos h0]
      · rw [if_neg h0, if_neg h0, ih (by omega) ⟨i - 1, by omega⟩ (by simp only; omega)]
        exact intervalIntegral.integral_add_adjacent_intervals (hi _ (hc _)) ((hi _ (hc _)).symm.trans (hi _ (hc _)))
    · rw [Function.update_of_ne]
      · exact ih (by omega) j (by omega)
      · intro h
        exact hji (by rw [hσ h])

/-- `np.argsort`: a permutation that sorts (ties in any order). -/
structure IsArgsort {nc : ℕ} (c : Fin nc → ℝ) (σ : Fin nc → Fin nc) : Prop where
  inj : Function.Injective σ
  sorted : Monotone (c ∘ σ)

theorem pKK_lt {nk nc : ℕ} {K : Fin nk → Fin nc → ℝ} (hK : ∀ i j, 0 < K i j) {i i' : Fin nk} {j j' : Fin nc}
    (h : K i j < K i' j') : 0 < (⨅ p : Fin nk × Fin nc, K p.1 p.2) ∧
      (⨅ p : Fin nk × Fin nc, K p.1 p.2) < (⨆ p : Fin nk × Fin nc, K p.1 p.2) := by
  have : Nonempty (Fin nk × Fin nc) := ⟨(i, j)⟩
  obtain ⟨p, hp⟩ := exists_eq_ciInf_of_finite (f := fun p : Fin nk × Fin nc => K p.1 p.2)
  refine ⟨hp ▸ hK _ _, ?_⟩
  calc (⨅ p : Fin nk × Fin nc, K p.1 p.2) ≤ K i j := ciInf_le (Set.finite_range _).bddBelow (i, j)
    _ < K i' j' := h
    _ ≤ _ := le_ciSup (f := fun p : Fin nk × Fin nc => K p.1 p.2) (Set.finite_range _).bddAbove (i', j')

/-- C60: the numerical transform.  For every set of haloes in any order (equal concentrations allowed) and
every array of positive wavenumbers that are not all equal, the call succeeds, and the value for halo `j` is the
interpolation, between the 100 logarithmic wavenumbers from the smallest to the largest requested one, of the
integrals of the docstring with that halo's own concentration. -/
theorem C60_transform {nk nc : ℕ} (isp : Spl) (f : ℝ → ℝ) (K : Fin nk → Fin nc → ℝ) (c : Fin nc → ℝ)
    (σ : Fin nc → Fin nc) (hσ : IsArgsort c σ) (hc : ∀ j, 0 ≤ c j) (hK : ∀ i j, 0 < K i j) {i0 i1 : Fin nk} {j0 j1 : Fin nc}
    (hne : K i0 j0 ≠ K i1 j1) (hf : ∀ κ b, 0 ≤ b → IntervalIntegrable (fun x => x * f x * Real.sin (κ * x) / κ) volume 0 b) :
    ∃ out, genericP (fun g a b => ∫ x in a..b, g x) isp f K c σ = .ok out ∧
      ∀ i j, out i j = isp 100 (pKK K) (fun q => Spec.fourier f (pKK K q) (c j)) (K i j) := by
  classical
  have hlt : 0 < (⨅ p : Fin nk × Fin nc, K p.1 p.2) ∧
      (⨅ p : Fin nk × Fin nc, K p.1 p.2) < (⨆ p : Fin nk × Fin nc, K p.1 p.2) := by
    rcases lt_or_gt_of_ne hne with h | h
    · exact pKK_lt hK h
    · exact pKK_lt hK h
  have hk : ¬ (nk = 0 ∨ nc = 0) := by
    rintro (h | h)
    · exact (h ▸ i0).elim0
    · exact (h ▸ j0).elim0
  have hinc : ∀ q, q + 1 < 100 → pKK K q < pKK K (q + 1) := fun q _ =>
    IntegrateCorr.logspace_lt _ _ hlt.1 hlt.2 (by norm_num) (Nat.lt_succ_self q)
  refine ⟨_, by unfold genericP; rw [if_neg hk, if_neg (not_not.mpr hinc)], ?_⟩
  intro i j
  dsimp only
  congr 1
  funext q
  obtain ⟨j', rfl⟩ := Finite.surjective_of_injective hσ.inj j
  rw [pColumn_eq (pIntegrand f (pKK K q)) c σ hσ.inj hc (fun b hb => hf _ b hb) nc le_rfl j' j'.2]
  unfold Spec.fourier pIntegrand
  exact intervalIntegral.integral_congr fun x _ => by ring

/-- C60: at the smallest and the largest requested wavenumber (and at any other that falls on the grid) the
value is the integral itself. -/
theorem C60_transform_exact {nk nc : ℕ} (isp : Spl) (hi : Tools.SplOk isp) (f : ℝ → ℝ) (K : Fin nk → Fin nc → ℝ) (c : Fin nc → ℝ)
    (σ : Fin nc → Fin nc) (hσ : IsArgsort c σ) (hc : ∀ j, 0 ≤ c j) (hK : ∀ i j, 0 < K i j) {i0 i1 : Fin nk} {j0 j1 : Fin nc}
    (hne : K i0 j0 ≠ K i1 j1) (hf : ∀ κ b, 0 ≤ b → IntervalIntegrable (fun x => x * f x * Real.sin (κ * x) / κ) volume 0 b) :
    ∃ out, genericP (fun g a b => ∫ x in a..b, g x) isp f K c σ = .ok out ∧
      (∀ i j q, q < 100 → K i j = pKK K q → out i j = Spec.fourier f (K i j) (c j)) ∧
      (∀ i j, (∀ i' j', K i j ≤ K i' j') → out i j = Spec.fourier f (K i j) (c j)) ∧
      (∀ i j, (∀ i' j', K i' j' ≤ K i j) → out i j = Spec.fourier f (K i j) (c j)) := by
  have hlt : 0 < (⨅ p : Fin nk × Fin nc, K p.1 p.2) ∧
      (⨅ p : Fin nk × Fin nc, K p.1 p.2) < (⨆ p : Fin nk × Fin nc, K p.1 p.2) := by
    rcases lt_or_gt_of_ne hne with h | h
    · exact pKK_lt hK h
    · exact pKK_lt hK h
  obtain ⟨out, ho, hv⟩ := C60_transform isp f K c σ hσ hc hK hne hf
  have hnode : ∀ i j q, q < 100 → K i j = pKK K q → out i j = Spec.fourier f (K i j) (c j) := by
    intro i j q hq h
    rw [hv, h]
    exact hi.interp 100 (pKK K) _ (fun a b hab _ => IntegrateCorr.logspace_lt _ _ hlt.1 hlt.2 (by norm_num) hab) q hq
  have hends := IntegrateCorr.logspace_ends _ _ hlt.1 (hlt.1.trans hlt.2) (n := 100) (by norm_num)
  refine ⟨out, ho, hnode, fun i j h => hnode i j 0 (by norm_num) ?_, fun i j h => hnode i j 99 (by norm_num) ?_⟩
  · have : Nonempty (Fin nk × Fin nc) := ⟨(i, j)⟩
    refine le_antisymm ?_ ?_
    · exact (le_ciInf fun p : Fin nk × Fin nc => h p.1 p.2).trans hends.1.ge
    · exact hends.1.le.trans (ciInf_le (f := fun p : Fin nk × Fin nc => K p.1 p.2) (Set.finite_range _).bddBelow (i, j))
  · have : Nonempty (Fin nk × Fin nc) := ⟨(i, j)⟩
    refine le_antisymm ?_ ?_
    · exact (le_ciSup (f := fun p : Fin nk × Fin nc => K p.1 p.2) (Set.finite_range _).bddAbove (i, j)).trans hends.2.ge
    · exact hends.2.le.trans (ciSup_le fun p : Fin nk × Fin nc => h p.1 p.2)

/-- C60: reordering the haloes reorders the results and changes nothing else. -/
theorem C60_transform_order {nk nc : ℕ} (isp : Spl) (f : ℝ → ℝ) (K : Fin nk → Fin nc → ℝ) (c : Fin nc → ℝ)
    (π : Equiv.Perm (Fin nc)) (σ τ : Fin nc → Fin nc) (hσ : IsArgsort c σ) (hτ : IsArgsort (c ∘ π) τ) (hc : ∀ j, 0 ≤ c j)
    (hK : ∀ i j, 0 < K i j) {i0 i1 : Fin nk} {j0 j1 : Fin nc} (hne : K i0 j0 ≠ K i1 j1)
    (hf : ∀ κ b, 0 ≤ b → IntervalIntegrable (fun x => x * f x * Real.sin (κ * x) / κ) volume 0 b) :
    ∃ out out', genericP (fun g a b => ∫ x in a..b, g x) isp f K c σ = .ok out ∧
      genericP (fun g a b => ∫ x in a..b, g x) isp f (fun i j => K i (π j)) (c ∘ π) τ = .ok out' ∧
      ∀ i j, out' i j = out i (π j) := by
  obtain ⟨out, ho, hv⟩ := C60_transform isp f K c σ hσ hc hK hne hf
  obtain ⟨out', ho', hv'⟩ := C60_transform isp f (fun i j => K i (π j)) (c ∘ π) τ hτ (fun j => hc _) (fun i j => hK _ _)
    (i0 := i0) (i1 := i1) (j0 := π.symm j0) (j1 := π.symm j1) (by simpa using hne) hf
  have e1 : (⨅ p : Fin nk × Fin nc, K p.1 (π p.2)) = ⨅ p : Fin nk × Fin nc, K p.1 p.2 :=
    (Equiv.prodCongr (Equiv.refl _) π).iInf_congr fun p => rfl
  have e2 : (⨆ p : Fin nk × Fin nc, K p.1 (π p.2)) = ⨆ p : Fin nk × Fin nc, K p.1 p.2 :=
    (Equiv.prodCongr (Equiv.refl _) π).iSup_congr fun p => rfl
  have hkk : pKK (fun i j => K i (π j)) = pKK K := by
    funext q
    unfold pKK
    rw [e1, e2]
  refine ⟨out, out', ho, ho', fun i j => ?_⟩
  rw [hv, hv', hkk]
  rfl

/-- C60, finding: if all requested wavenumbers are equal — in particular for a single wavenumber and a single
halo, the only one-dimensional input the shape checks let through (`C26_generic_shape`) — the call raises
ValueError, because the 100 grid points coincide. -/
theorem C60_single_wavenumber {nk nc : ℕ} (quad : (ℝ → ℝ) → ℝ → ℝ → ℝ) (isp : Spl) (f : ℝ → ℝ) (K : Fin nk → Fin nc → ℝ) (c : Fin nc → ℝ)
    (σ : Fin nc → Fin nc) (κ : ℝ) (h : ∀ i j, K i j = κ) : genericP quad isp f K c σ = .error .valueError := by
  classical
  unfold genericP
  by_cases hk : nk = 0 ∨ nc = 0
  · rw [if_pos hk]
  · rw [if_neg hk, if_pos]
    intro hinc
    have hlt := hinc 0 (by norm_num)
    rw [not_or] at hk
    have : Nonempty (Fin nk × Fin nc) := ⟨(⟨0, Nat.pos_of_ne_zero hk.1⟩, ⟨0, Nat.pos_of_ne_zero hk.2⟩)⟩
    have e1 : (⨅ p : Fin nk × Fin nc, K p.1 p.2) = κ := by simp [h]
    have e2 : (⨆ p : Fin nk × Fin nc, K p.1 p.2) = κ := by simp [h]
    unfold pKK at hlt
    rw [e1, e2] at hlt
    unfold IntegrateCorr.logspace at hlt
    rw [Halomod.HaloModel.linspace_eq _ _ (by norm_num), Halomod.HaloModel.linspace_eq _ _ (by norm_num)] at hlt
    simp at hlt

/-- C60: at the wavenumbers it is integrated at, the transform of a non-negative profile is never larger than
its normalisation integral. -/
theorem C60_transform_bounded (f : ℝ → ℝ) (κ c : ℝ) (hκ : 0 < κ) (hc : 0 ≤ c) (hf : ∀ x, 0 ≤ x → 0 ≤ f x)
    (h1 : IntervalIntegrable (fun x => x * Real.sin (κ * x) / κ * f x) volume 0 c)
    (h2 : IntervalIntegrable (fun x => f x * x ^ 2) volume 0 c) :
    |Spec.fourier f κ c| ≤ ∫ x in (0 : ℝ)..c, f x * x ^ 2 := by
  unfold Spec.fourier
  have hpt : ∀ x ∈ Set.Icc (0 : ℝ) c, |x * Real.sin (κ * x) / κ * f x| ≤ f x * x ^ 2 := by
    intro x hx
    have hs : |Real.sin (κ * x)| ≤ κ * x := by
      have := Real.abs_sin_le_abs (x := κ * x)
      rwa [abs_of_nonneg (mul_nonneg hκ.le hx.1)] at this
    rw [abs_mul, abs_div, abs_mul, abs_of_nonneg hx.1, abs_of_pos hκ, abs_of_nonneg (hf x hx.1)]
    have : x * |Real.sin (κ * x)| / κ ≤ x ^ 2 := by
      rw [div_le_iff₀ hκ]
      nlinarith [mul_le_mul_of_nonneg_left hs hx.1]
    calc _ ≤ x ^ 2 * f x := mul_le_mul_of_nonneg_right this (hf x hx.1)
      _ = _ := by ring
  exact (intervalIntegral.abs_integral_le_integral_abs hc).trans (intervalIntegral.integral_mono_on hc h1.abs h2 hpt)

open Classical in
/-- C60, finding: the break points handed to the integrator for one halo are zeros of the integrand strictly
inside its interval — all of them except the last zero below the largest concentration, which
`np.arange(c.max() // (π/k))` leaves out. -/
theorem C60_break_points (k cmax c0 c1 t : ℝ) (hk : 0 < k) (h0 : 0 ≤ c0) :
    (t ∈ pPoints k cmax c0 c1 ↔ c0 < t ∧ t < c1 ∧ Real.sin (k * t) = 0 ∧ t + Real.pi / k ≤ cmax) := by
  have hpk : 0 < Real.pi / k := div_pos Real.pi_pos hk
  unfold pPoints pZeros
  rw [List.mem_filter]
  simp only [List.mem_map, List.mem_range, decide_eq_true_eq]
  constructor
  · rintro ⟨⟨i, hi, rfl⟩, ha, hb⟩
    refine ⟨ha, hb, ?_, ?_⟩
    · rw [show k * (Real.pi / k * (i : ℝ)) = (i : ℝ) * Real.pi by field_simp]
      exact Real.sin_nat_mul_pi i
    · have := (Nat.le_floor_iff' (Nat.succ_ne_zero i)).mp (Nat.succ_le_of_lt hi)
      rw [le_div_iff₀ hpk] at this
      push_cast at this
      linarith
  · rintro ⟨ha, hb, hs, hle⟩
    refine ⟨?_, ha, hb⟩
    obtain ⟨n, hn⟩ := Real.sin_eq_zero_iff.mp hs
    have ht : t = Real.pi / k * n := by field_simp; linarith
    have htp : 0 < t := h0.trans_lt ha
    have hnp : (0 : ℝ) < n := by
      rw [ht] at htp
      exact (mul_pos_iff_of_pos_left hpk).mp htp
    have hnz : 0 < n := by exact_mod_cast hnp
    obtain ⟨i, rfl⟩ := Int.eq_ofNat_of_zero_le hnz.le
    refine ⟨i, ?_, by rw [ht]; push_cast; rfl⟩
    refine Nat.lt_of_succ_le ((Nat.le_floor_iff' (Nat.succ_ne_zero i)).mpr ?_)
    rw [le_div_iff₀ hpk]
    rw [ht] at hle
    push_cast at hle ⊢
    linarith

theorem gnfw_integrable (α : ℝ) (hα : α < 2) (b : ℝ) (hb : 0 ≤ b) :
    IntervalIntegrable (fun x => gnfwF α x * x ^ 2) volume 0 b := by
  have hp : 0 < 2 - α := by linarith
  have h1 : IntervalIntegrable (fun x => gnfwF α x * x ^ 2) volume 0 (2 - α) :=
    MonotoneOn.intervalIntegrable (by rw [Set.uIcc_of_le hp.le]; exact gnfw_up α _ le_rfl)
  rcases le_total b (2 - α) with h | h
  · exact h1.mono_set (by rw [Set.uIcc_of_le hb, Set.uIcc_of_le hp.le]; exact Set.Icc_subset_Icc_right h)
  · exact h1.trans (AntitoneOn.intervalIntegrable (by rw [Set.uIcc_of_le h]; exact gnfw_down α _ b hp le_rfl))

/-- the integrand of the transform of the generalised NFW profile is integrable -/
theorem gnfw_pIntegrand (α : ℝ) (hα : α < 2) (κ b : ℝ) (hb : 0 ≤ b) :
    IntervalIntegrable (fun x => x * gnfwF α x * Real.sin (κ * x) / κ) volume 0 b := by
  have hg := gnfw_integrable α hα b hb
  refine hg.mono_fun ?_ ?_
  · have hm : Measurable (gnfwF α) := by
      unfold gnfwF
      fun_prop
    exact (((measurable_id.mul hm).mul (Real.measurable_sin.comp (measurable_id.const_mul κ))).div_const κ).aestronglyMeasurable
  · filter_upwards [MeasureTheory.ae_restrict_mem measurableSet_uIoc] with x hx
    rw [Set.uIoc_of_le hb] at hx
    have hx0 := hx.1
    have hf : 0 ≤ gnfwF α x := by
      unfold gnfwF
      have h1 : 0 < 1 + x := by linarith
      positivity
    rw [Real.norm_eq_abs, Real.norm_eq_abs, abs_of_nonneg (mul_nonneg hf (by positivity))]
    rcases eq_or_ne κ 0 with h | h
    · rw [h, div_zero, abs_zero]; positivity
    · have hs : |Real.sin (κ * x)| ≤ |κ| * x := by
        have := Real.abs_sin_le_abs (x := κ * x)
        rwa [abs_mul, abs_of_pos hx0] at this
      rw [abs_div, abs_mul, abs_mul, abs_of_pos hx0, abs_of_nonneg hf, div_le_iff₀ (abs_pos.mpr h)]
      calc x * gnfwF α x * |Real.sin (κ * x)| ≤ x * gnfwF α x * (|κ| * x) := by gcongr
        _ = gnfwF α x * x ^ 2 * |κ| := by ring

/-- C60 for the generalised NFW profile, in full: inner slope below 2, any haloes in any order, any positive
wavenumbers that are not all equal; at the smallest and the largest wavenumber the returned transform is the
Fourier integral, and it does not exceed the exact normalisation. -/
theorem C60_gnfw {nk nc : ℕ} (isp : Spl) (hi : Tools.SplOk isp) (α : ℝ) (hα : α < 2) (K : Fin nk → Fin nc → ℝ) (c : Fin nc → ℝ)
    (σ : Fin nc → Fin nc) (hσ : IsArgsort c σ) (hc : ∀ j, 0 ≤ c j) (hK : ∀ i j, 0 < K i j) {i0 i1 : Fin nk} {j0 j1 : Fin nc}
    (hne : K i0 j0 ≠ K i1 j1) :
    ∃ out, genericP (fun g a b => ∫ x in a..b, g x) isp (gnfwF α) K c σ = .ok out ∧
      ∀ i j, ((∀ i' j', K i j ≤ K i' j') ∨ (∀ i' j', K i' j' ≤ K i j)) →
        out i j = Spec.fourier (gnfwF α) (K i j) (c j) ∧ |out i j| ≤ ∫ x in (0 : ℝ)..c j, gnfwF α x * x ^ 2 := by
  obtain ⟨out, ho, _, hmin, hmax⟩ := C60_transform_exact isp hi (gnfwF α) K c σ hσ hc hK hne (gnfw_pIntegrand α hα)
  refine ⟨out, ho, fun i j h => ?_⟩
  have he : out i j = Spec.fourier (gnfwF α) (K i j) (c j) := h.elim (hmin i j) (hmax i j)
  refine ⟨he, ?_⟩
  rw [he]
  refine C60_transform_bounded _ _ _ (hK i j) (hc j) ?_ ?_ (gnfw_integrable α hα _ (hc j))
  · intro x hx
    unfold gnfwF
    have h1 : 0 < 1 + x := by linarith
    positivity
  · have := gnfw_pIntegrand α hα (K i j) (c j) (hc j)
    exact this.congr (fun x _ => by ring)

/-- C60: given masses, the normalisation is that of their concentrations, one value per mass; whatever is passed for `c` is then ignored; with neither,
the call is refused. -/
theorem C60_norm_mass (isp : Spl) (f cm : ℝ → ℝ) (c : Option SA) :
    (∀ m : ℝ, genericH isp f cm c (some (.scalar m)) = genericH isp f cm (some (.scalar (cm m))) none) ∧
    (∀ m : List ℝ, genericH isp f cm c (some (.arr m)) = genericH isp f cm (some (.arr (m.map cm))) none) ∧
    genericH isp f cm none none = .error .valueError ∧
    (∀ m v, genericH isp f cm c (some (.scalar m)) = .ok v → ∃ w, v = .scalar w) ∧
    ∀ (m : List ℝ) v, genericH isp f cm c (some (.arr m)) = .ok v → ∃ w : List ℝ, v = .arr w ∧ w.length = m.length := by
  refine ⟨fun m => by cases c <;> rfl, fun m => by cases c <;> rfl, rfl, fun m v hv => ?_, fun m v hv => ?_⟩
  · have : genericH isp f cm c (some (.scalar m)) = .ok (.scalar (hTable f (cm m) 1999)) := by cases c <;> rfl
    rw [this] at hv
    cases hv
    exact ⟨_, rfl⟩
  · have : genericH isp f cm c (some (.arr m)) = match (m.map cm).max? with
        | none => .error .valueError
        | some cmax => .ok (.arr ((m.map cm).map (isp 2000 (hGrid cmax) (hTable f cmax)))) := by
      cases c <;> rfl
    rw [this] at hv
    cases hm : (m.map cm).max? with
    | none => rw [hm] at hv; cases hv
    | some x =>
      rw [hm] at hv
      cases hv
      exact ⟨_, rfl, by simp⟩

/-- C60: outputs drop the axes of length one: several wavenumbers and several haloes give a matrix, a single one of
either gives a vector, and exactly the one-element evaluations give a number. -/
theorem C60_output_shape (a b : ℕ) :
    (a ≠ 1 → b ≠ 1 → reduceShape (kShape false [a] [b]) = [a, b]) ∧
    (a ≠ 1 → reduceShape (kShape false [a] []) = [a] ∧ reduceShape (kShape false [a] [1]) = [a]) ∧
    (b ≠ 1 → reduceShape (kShape false [] [b]) = [b] ∧ reduceShape (kShape false [1] [b]) = [b]) ∧
    ∀ s, reduceShape s = [] ↔ ∀ x ∈ s, x = 1 := by
  refine ⟨?_, ?_, ?_, ?_⟩
  · intro ha hb; simp [reduceShape, kShape, ha, hb]
  · intro ha; simp [reduceShape, kShape, ha]
  · intro hb; simp [reduceShape, kShape, hb]
  · intro s; simp [reduceShape, List.filter_eq_nil_iff]

/-! ### the hypotheses are met -/

/-- three haloes, two of equal concentration, not in order -/
theorem demo_argsort : IsArgsort ![(5:ℝ), 3, 3] ![1, 2, 0] where
  inj := by decide
  sorted := by
    intro a b h
    fin_cases a <;> fin_cases b <;> simp at h ⊢ <;> norm_num

example : ∃ out, genericP (fun g a b => ∫ x in a..b, g x) Tools.polySpl (gnfwF 1.5) (fun (i : Fin 2) (_ : Fin 3) => ((i : ℕ) : ℝ) + 1)
    ![5, 3, 3] ![1, 2, 0] = .ok out ∧ out 0 1 = Spec.fourier (gnfwF 1.5) 1 3 := by
  obtain ⟨out, ho, h⟩ := C60_gnfw (nk := 2) (nc := 3) Tools.polySpl Tools.polySpl_ok 1.5 (by norm_num)
    (fun i _ => ((i : ℕ) : ℝ) + 1) _ _ demo_argsort (by intro j; fin_cases j <;> simp) (fun i j => by positivity)
    (i0 := 0) (i1 := 1) (j0 := 0) (j1 := 0) (by simp)
  refine ⟨out, ho, ?_⟩
  have := (h 0 1 (Or.inl fun i' _ => by simp)).1
  simpa using this

example (isp : Spl) (cm : ℝ → ℝ) : ∃ v, genericH isp (gnfwF 1) cm (some (.scalar 10)) none = .ok (.scalar v) ∧
    |v - ∫ x in (0 : ℝ)..10, gnfwF 1 x * x ^ 2| ≤ 0.0301 := by
  obtain ⟨v, hv, h⟩ := C60_norm_gnfw isp cm 1 10 (by norm_num) (by norm_num)
  exact ⟨v, hv, h.trans (by norm_num)⟩

end Halomod.Profiles
