import Verif.Model.IntegrateCorr
import Verif.Props.HaloModel4
import Mathlib.Analysis.SpecialFunctions.Integrals.Basic

/-! # C42: projected and angular correlations -/
namespace Halomod.IntegrateCorr

open Finset Halomod.Tools Halomod.HaloModel MeasureTheory

/-! ## projected correlation -/

theorem slopeCut_smul (r xi : ℕ → ℝ) {c : ℝ} (hc : 0 < c) (i : ℕ) :
    slopeCut r (fun j => c * xi j) i = slopeCut r xi i := by
  unfold slopeCut
  simp only [mul_pos_iff_of_pos_left hc, mul_eq_zero, hc.ne', false_or]
  split_ifs with h
  · rw [Real.log_mul hc.ne' h.1.ne', Real.log_mul hc.ne' h.2.ne', add_sub_add_left_eq_sub]
  · rfl
  · rfl

theorem aAt_smul (n : ℕ) (r xi : ℕ → ℝ) {c : ℝ} (hc : 0 < c) (i : ℕ) :
    aAt n r (fun j => c * xi j) i = aAt n r xi i := by
  induction i with
  | zero => unfold aAt; rw [slopeCut_smul r xi hc]
  | succ i ih => unfold aAt; rw [ih, slopeCut_smul r xi hc]

theorem projAt_smul (fit : ℝ → ℝ) (a rlim rp c : ℝ) :
    projAt (fun t => c * fit t) a rlim rp = c * projAt fit a rlim rp := by
  unfold projAt
  rw [← mul_assoc, ← simpsonX_mul]
  congr 2
  funext t
  ring

theorem projAt_add (f g : ℝ → ℝ) (a rlim rp : ℝ) : projAt (fun t => f t + g t) a rlim rp = projAt f a rlim rp + projAt g a rlim rp := by
  unfold projAt
  rw [← add_mul, ← simpsonX_add]
  congr 2
  funext t
  ring

/-- C42: the projected correlation of `c` times a correlation is `c` times its projected correlation, for
every positive `c`, every grid and every output radius. -/
theorem C42_projected_homogeneous (isp : Spl) (hisp : SplOk isp) (n : ℕ) (r xi : ℕ → ℝ) (rl : ℝ) (rpOut : ℕ → ℝ)
    (c : ℝ) (hc : 0 < c) (i : ℕ) :
    projectedCorr isp n r (fun j => c * xi j) rl rpOut i = (projectedCorr isp n r xi rl rpOut i).map (c * ·) := by
  unfold projectedCorr
  rw [aAt_smul n r xi hc]
  have : isp n r (fun j => c * xi j) = fun t => c * isp n r xi t := funext fun t => hisp.smul n r xi c t
  rw [this]
  simp only [projAt_smul]
  split_ifs
  · rw [Option.map_map]; rfl
  · rfl

/-- C42: a single separation makes every call fail. -/
theorem C42_projected_single (isp : Spl) (r xi : ℕ → ℝ) (rl : ℝ) (rpOut : ℕ → ℝ) (i : ℕ) :
    projectedCorr isp 1 r xi rl rpOut i = none := by simp [projectedCorr]

theorem slopeCut_ge (r xi : ℕ → ℝ) (i : ℕ) (a : ℝ) (h : slopeCut r xi i = some a) : 1.3 ≤ a := by
  unfold slopeCut at h
  split_ifs at h
  · exact (Option.some.inj h) ▸ le_max_left _ _
  · exact (Option.some.inj h) ▸ le_rfl

theorem zero_ne_cut : (some 0 : Option ℝ) ≠ some 1.3 := fun h => absurd (Option.some.inj h) (by norm_num)

theorem aAt_ge (n : ℕ) (hn : 2 ≤ n) (r xi : ℕ → ℝ) (i : ℕ) (a : ℝ) (h : aAt n r xi i = some a) : 1.3 ≤ a := by
  induction i with
  | zero =>
    unfold aAt at h
    rw [if_pos ⟨zero_ne_cut, by omega⟩] at h
    exact slopeCut_ge r xi 0 a h
  | succ i ih =>
    unfold aAt at h
    split_ifs at h
    · exact slopeCut_ge r xi _ a h
    · exact ih h

/-- C42 finding: when the correlation is positive at one separation of the input grid and exactly zero at the next (as it is beyond the largest
tabulated separation), the projected correlation at that position is not a number, although both values are finite. -/
theorem C42_projected_drop_to_zero (isp : Spl) (n : ℕ) (r xi : ℕ → ℝ) (rl : ℝ) (rpOut : ℕ → ℝ) (i : ℕ) (hi : i < n - 1)
    (hp : 0 < xi i) (hz : xi (i + 1) = 0) (hb : ∀ j < i, slopeCut r xi j ≠ some 1.3) : projectedCorr isp n r xi rl rpOut i = none := by
  have hsl : slopeCut r xi i = none := by
    unfold slopeCut
    rw [if_neg (by rw [hz]; simp), if_pos ⟨hp, hz⟩]
  have key : ∀ k, k < n - 1 → (∀ j < k, slopeCut r xi j ≠ some 1.3) → aAt n r xi k = slopeCut r xi k := by
    intro k
    induction k with
    | zero => intro hk _; unfold aAt; rw [if_pos ⟨zero_ne_cut, hk⟩]
    | succ k ih =>
      intro hk hne
      have e := ih (by omega) fun j hj => hne j (by omega)
      unfold aAt
      rw [if_pos ⟨by rw [e]; exact hne k (by omega), hk⟩]
  unfold projectedCorr
  rw [key i hi hb, hsl]
  split_ifs <;> rfl

/-- C42: the sampling offset of the projection integral is positive for every slope above 1. -/
theorem getTheta_pos (a : ℝ) (ha : 1 < a) : 0 < getTheta a := by
  unfold getTheta
  set s := Real.sqrt (5 - 8 * a + 4 * a ^ 2) with hs
  have hs2 : 2 * (a - 1) ≤ s := by
    apply Real.le_sqrt_of_sq_le
    nlinarith
  have hs0 : 0 ≤ s := Real.sqrt_nonneg _
  have hq : 0 < a ^ 2 - 3 * a + 3 := by nlinarith [sq_nonneg (a - 3 / 2)]
  have h1 : 0 < 7 - 2 * a ^ 3 + 3 * s + a ^ 2 * (9 + s) - a * (13 + 3 * s) := by
    have := mul_le_mul_of_nonneg_right hs2 hq.le
    nlinarith [sq_nonneg (a - 1 / 2)]
  have h2 : 0 < (1 + s) / (a - 1) := div_pos (by linarith) (by linarith)
  have h3 : 0 < (a - 1) ^ 2 * (-1 + 2 * a + s) := mul_pos (by nlinarith) (by linarith)
  positivity

theorem logspace_ends (a b : ℝ) (ha : 0 < a) (hb : 0 < b) {n : ℕ} (hn : 1 < n) :
    logspace a b n 0 = a ∧ logspace a b n (n - 1) = b := by
  unfold logspace
  rw [(linspace_ends _ _ hn).1, (linspace_ends _ _ hn).2, Real.exp_log ha, Real.exp_log hb]
  exact ⟨rfl, rfl⟩

theorem logspace_lt (a b : ℝ) (ha : 0 < a) (hab : a < b) {n : ℕ} (hn : 1 < n) {i j : ℕ} (hij : i < j) :
    logspace a b n i < logspace a b n j :=
  Real.exp_lt_exp.mpr (linspace_lt _ _ (Real.log_lt_log ha hab) hn hij)

theorem getTheta_grid (a ρ : ℝ) (ha : 1 < a) (hρ : 0 < ρ) : 0 < getTheta a * 0.01 ^ 2 * ρ := by
  have := getTheta_pos a ha
  positivity

/-- C42: the integral along the line of sight only samples the correlation at separations larger than the
projected one and never beyond the limit; the separations increase and end exactly at the limit. -/
theorem C42_projected_samples (n : ℕ) (hn : 2 ≤ n) (r xi : ℕ → ℝ) (rl ρ : ℝ) (i : ℕ) (hρ : 0 < ρ) (a : ℝ) (haa : aAt n r xi i = some a)
    (hlim : getTheta a * 0.01 ^ 2 * ρ < rl - ρ) :
    (∀ t < 1000, ρ < yGrid a rl ρ t + ρ ∧ yGrid a rl ρ t + ρ ≤ rl) ∧
    (∀ s t, s < t → yGrid a rl ρ s < yGrid a rl ρ t) ∧
    yGrid a rl ρ 999 + ρ = rl := by
  have ha : 1 < a := lt_of_lt_of_le (by norm_num) (aAt_ge n hn r xi i a haa)
  have h0 := getTheta_grid _ ρ ha hρ
  have hend := (logspace_ends _ _ h0 (h0.trans hlim) (n := 1000) (by norm_num)).2
  have hinc : ∀ s t, s < t → yGrid a rl ρ s < yGrid a rl ρ t :=
    fun s t hst => logspace_lt _ _ h0 hlim (by norm_num) hst
  have he : yGrid a rl ρ 999 = rl - ρ := hend
  refine ⟨fun t ht => ⟨?_, ?_⟩, hinc, by rw [he]; ring⟩
  · have : 0 < yGrid a rl ρ t := Real.exp_pos _
    linarith
  · rcases Nat.lt_or_ge t 999 with h | h
    · have := hinc t 999 h; linarith
    · rw [show t = 999 by omega, he]; linarith

/-- C42 finding: the logarithmic slope that sets the inner cut of output number `i` is taken at the
separation number `i` of the *input grid* (comment: "log slope at rp") — whatever the projected radius is —
and once it has been cut at 1.3 it stays there for all later radii. -/
theorem C42_slope_rule (n : ℕ) (hn : 2 ≤ n) (r xi : ℕ → ℝ) (i : ℕ) :
    (aAt n r xi i = some 1.3 → ∀ j, i ≤ j → aAt n r xi j = some 1.3) ∧
    (i < n - 1 → (∀ j < i, slopeCut r xi j ≠ some 1.3) → aAt n r xi i = slopeCut r xi i) ∧
    (∀ j, n - 2 ≤ j → aAt n r xi j = aAt n r xi (n - 2)) := by
  have hstep : ∀ k, aAt n r xi (k + 1) =
      if aAt n r xi k ≠ some 1.3 ∧ k + 1 < n - 1 then slopeCut r xi (k + 1) else aAt n r xi k := fun k => rfl
  refine ⟨?_, ?_, ?_⟩
  · intro h j hj
    induction j, hj using Nat.le_induction with
    | base => exact h
    | succ k _ ih => rw [hstep, if_neg (by rw [ih]; simp)]; exact ih
  · intro hi hne
    induction i with
    | zero => unfold aAt; rw [if_pos ⟨zero_ne_cut, by omega⟩]
    | succ k ih =>
      have hk := ih (by omega) (fun j hj => hne j (by omega))
      rw [hstep, if_pos ⟨by rw [hk]; exact hne k (by omega), hi⟩]
  · intro j hj
    induction j, hj using Nat.le_induction with
    | base => rfl
    | succ k hk ih => rw [hstep, if_neg (by omega)]; exact ih

/-- the correlation falls off no faster than `r^-1.3` between the first two separations. -/
def Flat (r xi : ℕ → ℝ) : Prop :=
  0 < xi 0 ∧ 0 < xi 1 ∧ Real.log (xi 0) - 1.3 * (Real.log (r 1) - Real.log (r 0)) ≤ Real.log (xi 1)

theorem flat_slope (r xi : ℕ → ℝ) (hr : Real.log (r 0) < Real.log (r 1)) (h : Flat r xi) :
    slopeCut r xi 0 = some 1.3 := by
  unfold slopeCut
  rw [if_pos ⟨h.1, h.2.1⟩]
  refine congrArg some (max_eq_left ?_)
  rw [neg_le, le_div_iff₀ (by simpa using hr)]
  have := h.2.2
  simp only [Nat.zero_add]
  linarith

theorem flat_add (r x y : ℕ → ℝ) (hx : Flat r x) (hy : Flat r y) : Flat r (fun i => x i + y i) := by
  have key : ∀ z : ℕ → ℝ, Flat r z → z 0 * Real.exp (-(1.3 * (Real.log (r 1) - Real.log (r 0)))) ≤ z 1 := by
    intro z hz
    have := Real.exp_le_exp.mpr hz.2.2
    rw [Real.exp_log hz.2.1, sub_eq_add_neg, Real.exp_add, Real.exp_log hz.1] at this
    exact this
  refine ⟨add_pos hx.1 hy.1, add_pos hx.2.1 hy.2.1, ?_⟩
  have hs := add_le_add (key x hx) (key y hy)
  rw [← add_mul] at hs
  have h0 : 0 < x 0 + y 0 := add_pos hx.1 hy.1
  have := Real.log_le_log (mul_pos h0 (Real.exp_pos _)) hs
  rw [Real.log_mul h0.ne' (Real.exp_pos _).ne', Real.log_exp] at this
  simp only at this ⊢
  linarith

/-- C42, additivity.  Partial: the inner cut depends on the slope of the correlation, so the projection of a
sum is the sum of the projections only when the slopes do not matter; it is proved for correlations that fall
off no faster than `r^-1.3` between the first two separations (the cut then is 1.3 throughout). -/
theorem C42_projected_additive_partial (isp : Spl)
    (hadd : ∀ n x (y z : ℕ → ℝ) t, isp n x (fun i => y i + z i) t = isp n x y t + isp n x z t)
    (n : ℕ) (hn : 2 ≤ n) (r x y : ℕ → ℝ) (hr : Real.log (r 0) < Real.log (r 1)) (hx : Flat r x) (hy : Flat r y)
    (rl : ℝ) (rpOut : ℕ → ℝ) (i : ℕ) :
    ∃ a b, projectedCorr isp n r x rl rpOut i = some a ∧ projectedCorr isp n r y rl rpOut i = some b ∧
      projectedCorr isp n r (fun j => x j + y j) rl rpOut i = some (a + b) := by
  have h13 : ∀ z, Flat r z → aAt n r z i = some 1.3 := by
    intro z hz
    apply (C42_slope_rule n hn r z 0).1 _ i (Nat.zero_le i)
    rw [(C42_slope_rule n hn r z 0).2.1 (by omega) (by omega)]
    exact flat_slope r z hr hz
  refine ⟨projAt (isp n r x) 1.3 rl (rpOut i), projAt (isp n r y) 1.3 rl (rpOut i), ?_, ?_, ?_⟩
  · unfold projectedCorr; rw [if_pos (by omega), h13 x hx]; rfl
  · unfold projectedCorr; rw [if_pos (by omega), h13 y hy]; rfl
  · unfold projectedCorr
    rw [if_pos (by omega), h13 _ (flat_add r x y hx hy)]
    rw [Option.map_some, show isp n r (fun j => x j + y j) = fun t => isp n r x t + isp n r y t from funext fun t => hadd n r x y t, projAt_add]

/-- C42: the default line-of-sight limit is beyond every projected radius and at least 80; and the
separation grid runs from the smallest projected radius to the limit. -/
theorem C42_limits (rpm : ℝ) (hrp : 0 < rpm) (rmin : ℝ) (h0 : 0 < rmin) (hle : rmin ≤ rpm) {rnum : ℕ} (hn : 1 < rnum) :
    rpm < rlim none rpm ∧ 80 ≤ rlim none rpm ∧ projR rmin (rlim none rpm) rnum 0 = rmin ∧
    projR rmin (rlim none rpm) rnum (rnum - 1) = rlim none rpm ∧
    (∀ i j, i < j → projR rmin (rlim none rpm) rnum i < projR rmin (rlim none rpm) rnum j) ∧
    rlim (some 0) rpm = rlim none rpm ∧ ∀ x ≠ 0, rlim (some x) rpm = x := by
  have h1 : rpm < rlim none rpm := by
    have : 5 * rpm ≤ rlim none rpm := le_max_right _ _
    linarith
  refine ⟨h1, le_max_left _ _, (logspace_ends _ _ h0 (hrp.trans h1) hn).1, (logspace_ends _ _ h0 (hrp.trans h1) hn).2,
    fun i j hij => logspace_lt _ _ h0 (lt_of_le_of_lt hle h1) hn hij, ?_, ?_⟩
  · simp [rlim]
  · intro x hx; simp [rlim, hx]

/-! ## redshift distributions -/

/-- C42: the flat distribution vanishes outside its range, is non-negative, and integrates to one over every
interval containing the range. -/
theorem C42_flat (zmin zmax : ℝ) (h : zmin < zmax) :
    (∀ z, z < zmin ∨ zmax < z → flatZ zmin zmax z = 0) ∧ (∀ z, 0 ≤ flatZ zmin zmax z) ∧
    ∀ a b, a ≤ zmin → zmax ≤ b → ∫ z in a..b, flatZ zmin zmax z = 1 := by
  have hd : 0 < zmax - zmin := by linarith
  refine ⟨?_, ?_, ?_⟩
  · intro z hz
    unfold flatZ
    rw [if_neg]
    rintro ⟨h1, h2⟩
    rcases hz with h | h <;> linarith
  · intro z
    unfold flatZ
    split_ifs <;> positivity
  · intro a b ha hb
    have e : flatZ zmin zmax = (Set.Icc zmin zmax).indicator (fun _ => 1 / (zmax - zmin)) := by
      funext z
      unfold flatZ Set.indicator
      by_cases hz : zmin ≤ z ∧ z ≤ zmax
      · rw [if_pos hz, if_pos (show z ∈ Set.Icc zmin zmax from hz)]
      · rw [if_neg hz, if_neg (show z ∉ Set.Icc zmin zmax from hz)]
    rw [e, intervalIntegral.integral_of_le (by linarith), ← integral_Icc_eq_integral_Ioc,
      setIntegral_indicator measurableSet_Icc, Set.inter_eq_right.mpr (Set.Icc_subset_Icc ha hb)]
    simp only [integral_const, smul_eq_mul]
    rw [measureReal_def, Measure.restrict_apply MeasurableSet.univ, Set.univ_inter, Real.volume_Icc,
      ENNReal.toReal_ofReal hd.le]
    field_simp

theorem simpsonBlock_const (h0 h1 c : ℝ) (e0 : h0 ≠ 0) (e1 : h1 ≠ 0) :
    simpsonBlock h0 h1 c c c = (h0 + h1) * c := by
  unfold simpsonBlock
  field_simp
  ring

/-- Simpson's rule with abscissae integrates constants exactly. -/
theorem simpsonX_const (n : ℕ) (hn : 0 < n) (x : ℕ → ℝ) (hx : ∀ i j, i < j → j < n → x i < x j) (c : ℝ) :
    simpsonX n x (fun _ => c) = (x (n - 1) - x 0) * c := by
  have hb : ∀ b, 2 * b < n → basicSimpsonX b x (fun _ => c) = (x (2 * b) - x 0) * c := by
    intro b
    induction b with
    | zero => intro _; simp [basicSimpsonX]
    | succ b ih =>
      intro hlt
      have e1 := hx (2 * b) (2 * b + 1) (by omega) (by omega)
      have e2 := hx (2 * b + 1) (2 * b + 2) (by omega) (by omega)
      unfold basicSimpsonX at ih ⊢
      rw [sum_range_succ, ih (by omega), simpsonBlock_const _ _ _ (by linarith) (by linarith),
        show 2 * (b + 1) = 2 * b + 2 by ring]
      ring
  unfold simpsonX
  split_ifs with h1 h2
  · subst h2; norm_num; ring
  · have e1 := hx (n - 2) (n - 1) (by omega) (by omega)
    have e2 := hx (n - 3) (n - 2) (by omega) (by omega)
    rw [hb ((n - 2) / 2) (by omega), show 2 * ((n - 2) / 2) = n - 2 by omega]
    simp only
    set h0 := x (n - 2) - x (n - 3) with hh0
    set g0 := x (n - 1) - x (n - 2) with hg0
    have p0 : h0 ≠ 0 := by rw [hh0]; linarith
    have p1 : g0 ≠ 0 := by rw [hg0]; linarith
    have p2 : g0 + h0 ≠ 0 := by rw [hg0, hh0]; linarith
    have p3 : h0 + g0 ≠ 0 := by rw [add_comm]; exact p2
    have hsum : x (n - 1) - x 0 = (x (n - 2) - x 0) + g0 := by rw [hg0]; ring
    rw [hsum]
    field_simp
    ring
  · rw [hb ((n - 1) / 2) (by omega), show 2 * ((n - 1) / 2) = n - 1 by omega]

/-- C42: on the redshift grid the flat distribution passes the normalisation check exactly, for every number
of redshifts. -/
theorem C42_flat_checked (zmin zmax : ℝ) (h : zmin < zmax) {n : ℕ} (hn : 1 < n) :
    integ ⟨flatZ zmin zmax, none⟩ n (zGrid zmin zmax n) = 1 ∧
    checkP ⟨flatZ zmin zmax, none⟩ n (zGrid zmin zmax n) = ⟨flatZ zmin zmax, none⟩ := by
  have hg : ∀ i j, i < j → j < n → zGrid zmin zmax n i < zGrid zmin zmax n j :=
    fun i j hij _ => linspace_lt _ _ h hn hij
  have h0 := (linspace_ends zmin zmax hn).1
  have h1 := (linspace_ends zmin zmax hn).2
  have hf : ∀ i < n, flatZ zmin zmax (zGrid zmin zmax n i) = 1 / (zmax - zmin) := by
    intro i hi
    unfold flatZ
    rw [if_pos]
    constructor
    · rcases Nat.eq_zero_or_pos i with e | e
      · rw [e]; exact h0.ge
      · have := hg 0 i e hi
        rw [show zGrid zmin zmax n 0 = zmin from h0] at this
        exact this.le
    · rcases Nat.lt_or_ge i (n - 1) with e | e
      · have := hg i (n - 1) e (by omega)
        rw [show zGrid zmin zmax n (n - 1) = zmax from h1] at this
        exact this.le
      · rw [show i = n - 1 by omega]; exact h1.le
  have hI : integ ⟨flatZ zmin zmax, none⟩ n (zGrid zmin zmax n) = 1 := by
    unfold integ
    simp only
    rw [simpsonX_congr (by omega) hf, simpsonX_const n (by omega) _ hg]
    change (linspace zmin zmax n (n - 1) - linspace zmin zmax n 0) * _ = 1
    rw [h0, h1]
    have : zmax - zmin ≠ 0 := by linarith
    field_simp
  refine ⟨hI, ?_⟩
  unfold checkP
  rw [if_pos]
  rw [hI]
  norm_num [close1]

/-- C42: after the check a distribution (without an `integral` method, of non-zero integral) integrates, by
the same rule, to one within the tolerance — and exactly to one if it was rescaled.
Partial: a distribution within one per cent of normalised is left as it is. -/
theorem C42_check_partial (p : Dist) (n : ℕ) (z : ℕ → ℝ) (hp : p.integral = none) (h0 : integ p n z ≠ 0) :
    |integ (checkP p n z) n z - 1| ≤ 0.01 + 1e-8 ∧
    (¬ close1 (integ p n z) → integ (checkP p n z) n z = 1) := by
  have hS : integ p n z = simpsonX n z (fun i => p.f (z i)) := by unfold integ; rw [hp]
  have key : ¬ close1 (integ p n z) → integ (checkP p n z) n z = 1 := by
    intro hc
    unfold checkP
    rw [if_neg hc]
    change simpsonX n z (fun i => p.f (z i) / integ p n z) = 1
    have : (fun i => p.f (z i) / integ p n z) = fun i => (integ p n z)⁻¹ * p.f (z i) := by
      funext i; rw [div_eq_inv_mul]
    rw [this, simpsonX_mul, ← hS, inv_mul_cancel₀ h0]
  refine ⟨?_, key⟩
  by_cases hc : close1 (integ p n z)
  · have e : checkP p n z = p := by unfold checkP; rw [if_pos hc]
    rw [e]
    unfold close1 at hc
    norm_num at hc ⊢
    linarith
  · rw [key hc]; norm_num

/-- C42: the same for a distribution that brings its own `integral` method (a spline): after the check its
true integral over the grid's range is one within the tolerance. -/
theorem C42_check_method_partial (f : ℝ → ℝ) (n : ℕ) (z : ℕ → ℝ) (h0 : (∫ t in z 0..z (n - 1), f t) ≠ 0) :
    |(∫ t in z 0..z (n - 1), (checkP ⟨f, some fun a b => ∫ t in a..b, f t⟩ n z).f t) - 1| ≤ 0.01 + 1e-8 := by
  unfold checkP
  split_ifs with hc
  · simp only [integ] at hc ⊢
    unfold close1 at hc
    norm_num at hc ⊢
    linarith
  · simp only [integ]
    have : (fun t => f t / ∫ t in z 0..z (n - 1), f t) = fun t => f t * (∫ t in z 0..z (n - 1), f t)⁻¹ := by
      funext t; rw [div_eq_mul_inv]
    rw [this, intervalIntegral.integral_mul_const, mul_inv_cancel₀ h0]
    norm_num

/-! ## angular correlation -/

/-- C42: the angular correlation does not depend on the order of the two distributions, and the second
defaults to the first. -/
theorem C42_angular_symmetric (C : Cosmo) (A : AngArgs) (xi : ℝ → ℝ) (p1 p2 : Dist) (theta : ℝ) :
    angular C A xi p1 (some p2) theta = angular C A xi p2 (some p1) theta ∧
    angular C A xi p1 none theta = angular C A xi p1 (some p1) theta := by
  constructor
  · unfold angular
    simp only
    congr 2
    funext i
    congr 1
    funext j
    congr 1
    split_ifs <;> ring
  · rfl

/-- C42: it is linear in the 3D correlation. -/
theorem C42_angular_linear (C : Cosmo) (A : AngArgs) (xi xi' : ℝ → ℝ) (a b : ℝ) (p1 : Dist) (p2 : Option Dist)
    (theta : ℝ) :
    angular C A (fun r => a * xi r + b * xi' r) p1 p2 theta =
      a * angular C A xi p1 p2 theta + b * angular C A xi' p1 p2 theta := by
  unfold angular
  simp only
  set x := xGrid C A.pOfZ A.zmin A.zmax A.znum
  set u := uGrid A.logu_min A.logu_max A.unum
  have : ∀ f : ℕ → ℝ, (fun i => simpsonX A.unum u (fun j => (a * xi (Real.sqrt (theta ^ 2 * x i ^ 2 + u j ^ 2))
      + b * xi' (Real.sqrt (theta ^ 2 * x i ^ 2 + u j ^ 2))) * f i)) =
      fun i => a * simpsonX A.unum u (fun j => xi (Real.sqrt (theta ^ 2 * x i ^ 2 + u j ^ 2)) * f i)
        + b * simpsonX A.unum u (fun j => xi' (Real.sqrt (theta ^ 2 * x i ^ 2 + u j ^ 2)) * f i) := by
    intro f
    funext i
    rw [← simpsonX_mul, ← simpsonX_mul, ← simpsonX_add]
    congr 1
    funext j
    ring
  rw [this, simpsonX_add, simpsonX_mul, simpsonX_mul]
  ring

theorem integ_smul (f : ℝ → ℝ) (c : ℝ) (n : ℕ) (z : ℕ → ℝ) :
    integ ⟨fun t => c * f t, none⟩ n z = c * integ ⟨f, none⟩ n z := by
  unfold integ; simp only; rw [simpsonX_mul]

/-- C42: a distribution and a multiple of it give the same angular correlation when neither is within the
tolerance of being normalised (so that both are rescaled).
Partial: see `C42_rescale_within_tolerance` for the excluded case. -/
theorem C42_rescale_partial (C : Cosmo) (A : AngArgs) (xi : ℝ → ℝ) (f : ℝ → ℝ) (c : ℝ) (hc : c ≠ 0)
    (p2 : Option Dist) (theta : ℝ) (hA : A.check = true)
    (h1 : ¬ close1 (integ ⟨f, none⟩ A.znum (A.grid C))) (h2 : ¬ close1 (c * integ ⟨f, none⟩ A.znum (A.grid C))) :
    angular C A xi ⟨fun t => c * f t, none⟩ p2 theta = angular C A xi ⟨f, none⟩ p2 theta := by
  have e : (checkP ⟨fun t => c * f t, none⟩ A.znum (A.grid C)) = checkP ⟨f, none⟩ A.znum (A.grid C) := by
    unfold checkP
    rw [integ_smul, if_neg h2, if_neg h1]
    congr 1
    funext t
    rw [mul_div_mul_left _ _ hc]
  unfold angular
  simp only [hA, if_true, e]

/-- C42 finding: multiplying an exactly normalised distribution by up to one per cent is not undone: the
angular auto-correlation is multiplied by the square of the factor. -/
theorem C42_rescale_within_tolerance (C : Cosmo) (A : AngArgs) (xi : ℝ → ℝ) (f : ℝ → ℝ) (c : ℝ) (hc : |c - 1| ≤ 0.01)
    (theta : ℝ) (hA : A.check = true) (h1 : integ ⟨f, none⟩ A.znum (A.grid C) = 1) :
    angular C A xi ⟨fun t => c * f t, none⟩ none theta = c ^ 2 * angular C A xi ⟨f, none⟩ none theta := by
  have e1 : (checkP ⟨fun t => c * f t, none⟩ A.znum (A.grid C)) = ⟨fun t => c * f t, none⟩ := by
    unfold checkP
    rw [integ_smul, h1, if_pos]
    unfold close1
    rw [mul_one]
    norm_num at hc ⊢
    linarith
  have e2 : (checkP ⟨f, none⟩ A.znum (A.grid C)) = ⟨f, none⟩ := by
    unfold checkP
    rw [h1, if_pos]
    norm_num [close1]
  unfold angular
  simp only [hA, if_true, e1, e2]
  rw [mul_left_comm]
  congr 1
  rw [← simpsonX_mul]
  congr 1
  funext i
  rw [← simpsonX_mul]
  congr 1
  funext j
  split_ifs <;> ring

/-- C42: the angular correlation only samples separations between `10**logu_min` and the largest separation
`sqrt(u_max^2 + theta^2 x_max^2)`. -/
theorem C42_angular_samples (C : Cosmo) (A : AngArgs) (theta X : ℝ) (hu : A.logu_min < A.logu_max) (hn : 1 < A.unum)
    (hX : ∀ i < A.znum, |xGrid C A.pOfZ A.zmin A.zmax A.znum i| ≤ X) (i j : ℕ) (hi : i < A.znum) (hj : j < A.unum) :
    10 ^ A.logu_min ≤ Real.sqrt (theta ^ 2 * xGrid C A.pOfZ A.zmin A.zmax A.znum i ^ 2 +
      uGrid A.logu_min A.logu_max A.unum j ^ 2) ∧
    Real.sqrt (theta ^ 2 * xGrid C A.pOfZ A.zmin A.zmax A.znum i ^ 2 + uGrid A.logu_min A.logu_max A.unum j ^ 2)
      ≤ angRmax A.logu_max theta X := by
  have hu0 : 10 ^ A.logu_min ≤ uGrid A.logu_min A.logu_max A.unum j := by
    unfold uGrid
    apply Real.rpow_le_rpow_of_exponent_le (by norm_num)
    rcases Nat.eq_zero_or_pos j with e | e
    · rw [e]; exact (linspace_ends _ _ hn).1.ge
    · have := linspace_lt A.logu_min A.logu_max hu hn e
      rw [(linspace_ends _ _ hn).1] at this
      exact this.le
  have hu1 : uGrid A.logu_min A.logu_max A.unum j ≤ 10 ^ A.logu_max := by
    unfold uGrid
    apply Real.rpow_le_rpow_of_exponent_le (by norm_num)
    rcases Nat.lt_or_ge j (A.unum - 1) with e | e
    · have := linspace_lt A.logu_min A.logu_max hu hn e
      rw [(linspace_ends _ _ hn).2] at this
      exact this.le
    · rw [show j = A.unum - 1 by omega]; exact (linspace_ends _ _ hn).2.le
  have hpos : (0:ℝ) < 10 ^ A.logu_min := by positivity
  constructor
  · apply Real.le_sqrt_of_sq_le
    have : (10 ^ A.logu_min) ^ 2 ≤ uGrid A.logu_min A.logu_max A.unum j ^ 2 := pow_le_pow_left₀ hpos.le hu0 2
    nlinarith [mul_nonneg (sq_nonneg theta) (sq_nonneg (xGrid C A.pOfZ A.zmin A.zmax A.znum i))]
  · unfold angRmax
    apply Real.sqrt_le_sqrt
    have h1 : uGrid A.logu_min A.logu_max A.unum j ^ 2 ≤ (10 ^ A.logu_max) ^ 2 :=
      pow_le_pow_left₀ (hpos.le.trans hu0) hu1 2
    have h2 : xGrid C A.pOfZ A.zmin A.zmax A.znum i ^ 2 ≤ X ^ 2 := sq_le_sq' (by
      have := (abs_le.mp (hX i hi)).1; linarith) (abs_le.mp (hX i hi)).2
    have := mul_le_mul_of_nonneg_left h2 (sq_nonneg theta)
    linarith

/-- C42 finding: `xvec`, documented in Mpc/h, lacks the factor `h` of the distances the projection uses; for
`h < 1` the smallest separation sampled at the smallest angle is below the start of the model's `r`. -/
theorem C42_xvec_lacks_h (C : Cosmo) (zmin zmax logMin th : ℝ) (znum : ℕ) (i : ℕ) (h0 : 0 < C.h) (h1 : C.h < 1)
    (hth : 0 < th) (hx : 0 < xvec C zmin zmax znum i) :
    xGrid C true zmin zmax znum i = C.h * xvec C zmin zmax znum i ∧
    Real.sqrt (th ^ 2 * xGrid C true zmin zmax znum i ^ 2 + (10 ^ logMin) ^ 2)
      < angRmin logMin th (xvec C zmin zmax znum i) := by
  have e : xGrid C true zmin zmax znum i = C.h * xvec C zmin zmax znum i := by
    unfold xGrid xvec; simp only [if_true]; ring
  refine ⟨e, ?_⟩
  rw [e]
  unfold angRmin
  apply Real.sqrt_lt_sqrt (by positivity)
  have hh : C.h ^ 2 < 1 := by nlinarith
  have hp : 0 < th ^ 2 * xvec C zmin zmax znum i ^ 2 := by positivity
  nlinarith

/-- C42: the angles run from `theta_min` to `theta_max`, strictly increasing; a smaller maximum than minimum
raises. -/
theorem C42_theta (log : Bool) (tmin tmax : ℝ) {n : ℕ} (hn : 1 < n) :
    (tmax < tmin → thetaGrid log tmin tmax n = none) ∧
    (0 < tmin → tmin < tmax → ∃ g, thetaGrid log tmin tmax n = some g ∧ g 0 = tmin ∧ g (n - 1) = tmax ∧
      ∀ i j, i < j → g i < g j) := by
  unfold thetaGrid
  constructor
  · intro h; rw [if_pos h]
  · intro h0 h
    rw [if_neg (not_lt.mpr h.le)]
    refine ⟨_, rfl, ?_⟩
    cases log with
    | true =>
      simp only [if_true]
      exact ⟨(logspace_ends _ _ h0 (h0.trans h) hn).1, (logspace_ends _ _ h0 (h0.trans h) hn).2,
        fun i j hij => logspace_lt _ _ h0 h hn hij⟩
    | false =>
      simp only [Bool.false_eq_true, if_false]
      exact ⟨(linspace_ends _ _ hn).1, (linspace_ends _ _ hn).2, fun i j hij => linspace_lt _ _ h hn hij⟩

/-- C42 finding: the angle checks accept `theta_min = 0` (whose logarithmic grid does not exist) and, although
angles are in radians, every `theta_max` up to 180. -/
theorem C42_theta_validation : thetaMinOk 0 ∧ thetaMaxOk 180 ∧ thetaMaxOk (100 * Real.pi / 3) := by
  refine ⟨by norm_num [thetaMinOk], by norm_num [thetaMaxOk], ?_⟩
  unfold thetaMaxOk
  have := Real.pi_lt_four
  push Not
  nlinarith

/-! ### non-vacuity -/

/-- a correlation `1/r` on the grid 1, 2, 4 is flat. -/
example : Flat (fun i => 2 ^ i) (fun i => 1 / 2 ^ i) := by
  refine ⟨by norm_num, by norm_num, ?_⟩
  norm_num
  have : 0 < Real.log 2 := Real.log_pos (by norm_num)
  have e : Real.log (1 / 2) = - Real.log 2 := by rw [one_div, Real.log_inv]
  rw [e]
  linarith

/-- a correlation that vanishes from the second separation on. -/
example (isp : Spl) : projectedCorr isp 3 (fun i => 2 ^ i) (fun i => if i = 0 then 1 else 0) 80 (fun i => 2 ^ i) 0 = none :=
  C42_projected_drop_to_zero isp 3 _ _ 80 _ 0 (by norm_num) (by simp) (by simp) (by omega)

/-- the same projected radius gets two different slopes at two positions: `xi = r^-2` then `r^-3`. -/
example : aAt 3 (fun i => 2 ^ i) (fun i => if i = 0 then 1 else if i = 1 then 1 / 4 else 1 / 32) 0 = some 2 ∧
    aAt 3 (fun i => 2 ^ i) (fun i => if i = 0 then 1 else if i = 1 then 1 / 4 else 1 / 32) 1 = some 3 := by
  have hl : 0 < Real.log 2 := Real.log_pos (by norm_num)
  have e4 : Real.log 4 = 2 * Real.log 2 := by
    rw [show (4:ℝ) = 2 ^ 2 by norm_num, Real.log_pow]; norm_num
  have e32 : Real.log 32 = 5 * Real.log 2 := by
    rw [show (32:ℝ) = 2 ^ 5 by norm_num, Real.log_pow]; norm_num
  have s0 : slopeCut (fun i => 2 ^ i) (fun i => if i = 0 then 1 else if i = 1 then 1 / 4 else 1 / 32) 0 = some 2 := by
    unfold slopeCut
    norm_num
    rw [show Real.log (1 / 4) = -(2 * Real.log 2) by rw [one_div, Real.log_inv, e4]]
    rw [neg_div, neg_neg, mul_div_assoc, div_self hl.ne']
    norm_num
  have s1 : slopeCut (fun i => 2 ^ i) (fun i => if i = 0 then 1 else if i = 1 then 1 / 4 else 1 / 32) 1 = some 3 := by
    unfold slopeCut
    norm_num
    rw [show Real.log (1 / 4) = -(2 * Real.log 2) by rw [one_div, Real.log_inv, e4],
      show Real.log (1 / 32) = -(5 * Real.log 2) by rw [one_div, Real.log_inv, e32], e4,
      show (-(5 * Real.log 2) - -(2 * Real.log 2)) / (2 * Real.log 2 - Real.log 2) = -3 by
        rw [div_eq_iff (by linarith)]; ring]
    norm_num
  have r0 := (C42_slope_rule 3 (by norm_num) (fun i => 2 ^ i)
    (fun i => if i = 0 then 1 else if i = 1 then 1 / 4 else 1 / 32) 0).2.1 (by norm_num) (by omega)
  have r1 := (C42_slope_rule 3 (by norm_num) (fun i => 2 ^ i)
    (fun i => if i = 0 then 1 else if i = 1 then 1 / 4 else 1 / 32) 1).2.1 (by norm_num) (by
      intro j hj; rw [show j = 0 by omega, s0]; norm_num)
  exact ⟨r0.trans s0, r1.trans s1⟩

/-- a normalised distribution for the tolerance finding exists on every grid. -/
example (C : Cosmo) : integ ⟨flatZ 0.2 0.4, none⟩ 100
    (AngArgs.grid { zmin := 0.2, zmax := 0.4, logu_min := -4, logu_max := 2.3 } C) = 1 :=
  (C42_flat_checked 0.2 0.4 (by norm_num) (n := 100) (by norm_num)).1

end Halomod.IntegrateCorr
