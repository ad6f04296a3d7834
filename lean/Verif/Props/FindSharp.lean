import Verif.Props.HaloState

/-! # C38: the sharp-cut density inversion -/
namespace Halomod.HaloState

open Finset Halomod.Tools

/-- Specification: the tracer density in haloes above the grid mass number `i`, by the trapezium rule in
`ln m` on the grid of `N` masses (`y = m dn/dm N_t`). -/
noncomputable def densityAbove (N : ℕ) (dx : ℝ) (y : ℕ → ℝ) (i : ℕ) : ℝ :=
  ∑ k ∈ Ico i (N - 1), dx * (y k + y (k + 1)) / 2

/-- the accumulated integral number `j` is the density above the grid mass number `N - 2 - j`. -/
theorem C38_cumulative (N : ℕ) (dx : ℝ) (y : ℕ → ℝ) (j : ℕ) (hj : j < N - 1) :
    cumRev N dx y j = densityAbove N dx y (N - 2 - j) := by
  unfold cumRev densityAbove
  rw [Finset.range_eq_Ico]
  refine Finset.sum_bij' (fun t _ => N - 2 - t) (fun k _ => N - 2 - k) ?_ ?_ ?_ ?_ ?_
  · intro t ht; simp only [mem_Ico] at ht ⊢; omega
  · intro t ht; simp only [mem_Ico] at ht ⊢; omega
  · intro t ht; simp only [mem_Ico] at ht; omega
  · intro t ht; simp only [mem_Ico] at ht; omega
  · intro t ht
    simp only [mem_Ico] at ht
    have e1 : N - 1 - t = N - 2 - t + 1 := by omega
    have e2 : N - 1 - (t + 1) = N - 2 - t := by omega
    rw [e1, e2]; ring

/-- C38: for a non-negative integrand the accumulated values never decrease. -/
theorem C38_cumulative_monotone (N : ℕ) (dx : ℝ) (y : ℕ → ℝ) (hdx : 0 ≤ dx) (hy : ∀ i < N, 0 ≤ y i)
    (i j : ℕ) (hij : i ≤ j) (hj : j < N - 1) : cumRev N dx y i ≤ cumRev N dx y j := by
  unfold cumRev
  apply sum_le_sum_of_subset_of_nonneg
  · intro t ht; simp only [mem_range] at ht ⊢; omega
  · intro t ht _
    simp only [mem_range] at ht
    have := hy (N - 1 - t) (by omega)
    have := hy (N - 1 - (t + 1)) (by omega)
    positivity

/-- C38: and for a positive integrand they strictly increase. -/
theorem C38_cumulative_strict (N : ℕ) (dx : ℝ) (y : ℕ → ℝ) (hdx : 0 < dx) (hy : ∀ i < N, 0 < y i)
    (i j : ℕ) (hij : i < j) (hj : j < N - 1) : cumRev N dx y i < cumRev N dx y j := by
  have h1 := C38_cumulative_monotone N dx y hdx.le (fun i hi => (hy i hi).le) (i + 1) j hij hj
  refine lt_of_lt_of_le ?_ h1
  unfold cumRev
  rw [sum_range_succ _ (i + 1)]
  have := hy (N - 1 - (i + 1)) (by omega)
  have := hy (N - 1 - (i + 1 + 1)) (by omega)
  have : 0 < dx * (y (N - 1 - (i + 1)) + y (N - 1 - (i + 1 + 1))) / 2 := by positivity
  linarith

theorem cumRev_pos (N : ℕ) (dx : ℝ) (y : ℕ → ℝ) (hdx : 0 < dx) (hy : ∀ i < N, 0 < y i) (j : ℕ)
    (hj : j < N - 1) : 0 < cumRev N dx y j := by
  have h := C38_cumulative_monotone N dx y hdx.le (fun i hi => (hy i hi).le) 0 j (by omega) hj
  refine lt_of_lt_of_le ?_ h
  unfold cumRev
  have := hy (N - 1) (by omega)
  have := hy (N - 1 - 1) (by omega)
  simp
  positivity

/-- C38 finding: with a scipy that has no `integrate.cumtrapz` (removed in 1.14; the repository's lock file
pins 1.17.1) every sharp-cut HOD raises `AttributeError` whatever the density. -/
theorem C38_no_cumtrapz (isp : Spl) (N lenM : ℕ) (dx : ℝ) (m y : ℕ → ℝ) (ng : ℝ) :
    findSharp false isp N lenM dx m y ng = .attributeError := by
  simp [findSharp]

/-- C38: with an older scipy, `NGException` is raised exactly when the density is larger than the density
above the smallest grid mass. -/
theorem C38_raises_iff (isp : Spl) (N lenM : ℕ) (dx : ℝ) (m y : ℕ → ℝ) (ng : ℝ) (hN : 2 ≤ N) :
    findSharp true isp N lenM dx m y ng = .ngException ↔ densityAbove N dx y 0 < ng := by
  have e : cumRev N dx y (N - 2) = densityAbove N dx y 0 := by
    rw [C38_cumulative N dx y (N - 2) (by omega)]; congr 1; omega
  unfold findSharp
  rw [e]
  simp only [Bool.not_true, Bool.false_eq_true, if_false, show N - 1 ≠ 0 by omega]
  constructor
  · intro h
    by_contra hn
    rw [if_neg hn] at h
    split at h
    · split at h <;> simp at h
    · simp at h
  · intro h; rw [if_pos h]

/-- C38 finding: asking for exactly the largest reachable density passes the check and then fails with an
`IndexError`. -/
theorem C38_largest_density_index_error (isp : Spl) (N lenM : ℕ) (dx : ℝ) (m y : ℕ → ℝ) (hN : 2 ≤ N)
    (hdx : 0 ≤ dx) (hy : ∀ i < N, 0 ≤ y i) :
    findSharp true isp N lenM dx m y (densityAbove N dx y 0) = .indexError := by
  have e : cumRev N dx y (N - 2) = densityAbove N dx y 0 := by
    rw [C38_cumulative N dx y (N - 2) (by omega)]; congr 1; omega
  unfold findSharp
  rw [e]
  simp only [Bool.not_true, Bool.false_eq_true, if_false, show N - 1 ≠ 0 by omega, lt_irrefl]
  rw [dif_neg]
  rintro ⟨j, hj, h⟩
  have := C38_cumulative_monotone N dx y hdx hy j (N - 2) (by omega) (by omega)
  rw [e] at this
  exact absurd h (not_lt.mpr this)

/-- what a successful inversion returns: the interpolating spline of `ln m` against `ln density` through
consecutive grid points; `i0` is the first accumulated value above the density, and the table holds it. -/
theorem findSharp_ok (isp : Spl) (N lenM : ℕ) (dx : ℝ) (m y : ℕ → ℝ) (ng r : ℝ) (hle : N ≤ lenM)
    (h : findSharp true isp N lenM dx m y ng = .ok r) :
    ∃ ind lo w : ℕ, ind < N - 1 ∧ ng < cumRev N dx y ind ∧ (∀ j < ind, cumRev N dx y j ≤ ng) ∧
      lo = ind - 4 ∧ lo + w ≤ N - 1 ∧ ind < lo + w ∧ 4 ≤ w ∧ 0 < cumRev N dx y lo ∧
      (∀ i, i + 1 < w → Real.log (cumRev N dx y (lo + i)) < Real.log (cumRev N dx y (lo + (i + 1)))) ∧
      r * Real.log 10 = isp w (fun i => Real.log (cumRev N dx y (lo + i)))
        (fun i => Real.log (m (N - 2 - (lo + i)))) (Real.log ng) := by
  classical
  unfold findSharp at h
  simp only [Bool.not_true, Bool.false_eq_true, if_false] at h
  split at h
  · simp at h
  · split at h
    · simp at h
    · split at h
      · rename_i hex
        split at h
        · rename_i hw
          have hs := Nat.find_spec hex
          have hmin : ∀ j < Nat.find hex, cumRev N dx y j ≤ ng := by
            intro j hj
            by_contra hc
            exact Nat.find_min hex hj ⟨by omega, not_le.mp hc⟩
          refine ⟨Nat.find hex, Nat.find hex - 4,
            min (min (Nat.find hex + 4) lenM) (N - 1) - (Nat.find hex - 4), hs.1, hs.2, hmin, rfl, ?_, ?_,
            hw.1, hw.2.1, hw.2.2, ?_⟩
          · omega
          · omega
          · simp only [FindRes.ok.injEq] at h
            rw [← h, div_mul_cancel₀ _ (by positivity)]
            congr 1
            funext i
            congr 2
            omega
        · simp at h
      · simp at h

theorem log_strict {X : ℕ → ℝ} {w : ℕ} (h : ∀ i, i + 1 < w → X i < X (i + 1)) (i j : ℕ) (hij : i < j)
    (hj : j < w) : X i < X j := by
  obtain ⟨d, rfl⟩ : ∃ d, j = i + 1 + d := ⟨j - (i + 1), by omega⟩
  clear hij
  induction d with
  | zero => exact h i (by omega)
  | succ d ih => exact (ih (by omega)).trans (h (i + 1 + d) (by omega))

/-- C38: when the inversion succeeds, and the density is at least the one above the second largest grid
mass, the value is interpolated between grid masses whose densities bracket the requested one:
`M_min` is the value at `ln ng` of a table of consecutive grid points
`(ln density above m_i, ln m_i)`, in increasing order of density, one of whose intervals contains `ln ng`;
and the table is exact: whenever the requested density *is* the density above a tabulated mass,
`M_min` is `log10` of that mass.
Partial: the bracket exists only when the density is at least that above the second largest grid mass
(see `C38_extrapolates` for the rest). -/
theorem C38_bracket_partial (isp : Spl) (hisp : SplOk isp) (N lenM : ℕ) (dx : ℝ) (m y : ℕ → ℝ) (ng r : ℝ)
    (hle : N ≤ lenM) (hng : densityAbove N dx y (N - 2) ≤ ng)
    (h : findSharp true isp N lenM dx m y ng = .ok r) :
    ∃ (w : ℕ) (idx : ℕ → ℕ) (b : ℕ), b + 1 < w ∧ (∀ i < w, idx i < N - 1) ∧
      (∀ i, i + 1 < w → idx i = idx (i + 1) + 1) ∧
      densityAbove N dx y (idx b) ≤ ng ∧ ng < densityAbove N dx y (idx (b + 1)) ∧
      (∀ i, i + 1 < w → Real.log (densityAbove N dx y (idx i)) < Real.log (densityAbove N dx y (idx (i + 1)))) ∧
      r * Real.log 10 = isp w (fun i => Real.log (densityAbove N dx y (idx i))) (fun i => Real.log (m (idx i)))
        (Real.log ng) ∧
      ∀ i < w, ng = densityAbove N dx y (idx i) → r = Real.log (m (idx i)) / Real.log 10 := by
  obtain ⟨ind, lo, w, h1, h2, h3, h4, h5, h6, h7, h8, h9, h10⟩ := findSharp_ok isp N lenM dx m y ng r hle h
  have hind : 0 < ind := by
    rcases Nat.eq_zero_or_pos ind with h0 | h0
    · exfalso
      rw [h0, C38_cumulative N dx y 0 (by omega)] at h2
      exact absurd h2 (not_lt.mpr hng)
    · exact h0
  have hc : ∀ i < w, cumRev N dx y (lo + i) = densityAbove N dx y (N - 2 - (lo + i)) :=
    fun i hi => C38_cumulative N dx y (lo + i) (by omega)
  have hr : r * Real.log 10 = isp w (fun i => Real.log (densityAbove N dx y (N - 2 - (lo + i))))
      (fun i => Real.log (m (N - 2 - (lo + i)))) (Real.log ng) := by
    rw [h10]
    exact congrFun (hisp.congr _ _ _ _ _ fun i hi => ⟨by simp only [hc i hi], rfl⟩) _
  have hX : ∀ i, i + 1 < w → Real.log (densityAbove N dx y (N - 2 - (lo + i))) <
      Real.log (densityAbove N dx y (N - 2 - (lo + (i + 1)))) := by
    intro i hi
    rw [← hc i (by omega), ← hc (i + 1) hi]; exact h9 i hi
  refine ⟨w, fun i => N - 2 - (lo + i), ind - 1 - lo, by omega,
    fun i _ => by show N - 2 - (lo + i) < N - 1; omega,
    fun i hi => by show N - 2 - (lo + i) = N - 2 - (lo + (i + 1)) + 1; omega,
    ?_, ?_, hX, hr, ?_⟩
  · rw [← hc _ (by omega)]
    exact h3 _ (by omega)
  · rw [← hc _ (by omega)]
    have : lo + (ind - 1 - lo + 1) = ind := by omega
    rw [this]; exact h2
  · intro i hi he
    rw [eq_div_iff (by positivity), hr, he]
    exact hisp.interp w (fun i => Real.log (densityAbove N dx y (N - 2 - (lo + i)))) _
      (fun i j hij hj => log_strict (X := fun i => Real.log (densityAbove N dx y (N - 2 - (lo + i)))) hX i j hij hj)
      i hi

/-- C38 finding: a density below the one above the second largest grid mass is not bracketed by the table:
`ln ng` lies left of all its abscissae and the cubic spline is extrapolated. -/
theorem C38_extrapolates (isp : Spl) (hisp : SplOk isp) (N lenM : ℕ) (dx : ℝ) (m y : ℕ → ℝ) (ng r : ℝ)
    (hle : N ≤ lenM) (hng0 : 0 < ng) (hng : ng < densityAbove N dx y (N - 2))
    (h : findSharp true isp N lenM dx m y ng = .ok r) :
    ∃ w, r * Real.log 10 = isp w (fun i => Real.log (densityAbove N dx y (N - 2 - i)))
        (fun i => Real.log (m (N - 2 - i))) (Real.log ng) ∧
      ∀ i < w, Real.log ng < Real.log (densityAbove N dx y (N - 2 - i)) := by
  obtain ⟨ind, lo, w, h1, h2, h3, h4, h5, h6, h7, h8, h9, h10⟩ := findSharp_ok isp N lenM dx m y ng r hle h
  have hind : ind = 0 := by
    rcases Nat.eq_zero_or_pos ind with h0 | h0
    · exact h0
    · exfalso
      have := h3 0 h0
      rw [C38_cumulative N dx y 0 (by omega)] at this
      exact absurd hng (not_lt.mpr this)
  subst hind
  have hlo : lo = 0 := by omega
  subst hlo
  have hc : ∀ i < w, cumRev N dx y (0 + i) = densityAbove N dx y (N - 2 - i) := by
    intro i hi
    rw [Nat.zero_add]
    exact C38_cumulative N dx y i (by omega)
  refine ⟨w, ?_, ?_⟩
  · rw [h10]
    exact congrFun (hisp.congr _ _ _ _ _ fun i hi => ⟨by simp only [hc i hi], by simp⟩) _
  · intro i hi
    have h0 : Real.log ng < Real.log (cumRev N dx y (0 + 0)) := Real.log_lt_log hng0 (by simpa using h2)
    rw [← hc i hi]
    rcases Nat.eq_zero_or_pos i with hi0 | hi0
    · rw [hi0]; exact h0
    · exact h0.trans (log_strict (X := fun i => Real.log (cumRev N dx y (0 + i))) h9 0 i hi0 hi)

/-- C38: for a positive integrand on at least five masses the search always succeeds below the largest
density: the four outcomes are decided by comparing the density with the density above the smallest mass. -/
theorem C38_succeeds (isp : Spl) (N lenM : ℕ) (dx : ℝ) (m y : ℕ → ℝ) (ng : ℝ) (hN : 5 ≤ N) (hle : N ≤ lenM)
    (hdx : 0 < dx) (hy : ∀ i < N, 0 < y i) (hng : ng < densityAbove N dx y 0) :
    ∃ r, findSharp true isp N lenM dx m y ng = .ok r := by
  classical
  have e : cumRev N dx y (N - 2) = densityAbove N dx y 0 := by
    rw [C38_cumulative N dx y (N - 2) (by omega)]; congr 1; omega
  have hex : ∃ j, j < N - 1 ∧ cumRev N dx y j > ng := ⟨N - 2, by omega, by rw [e]; exact hng⟩
  have hlt : (Nat.find hex) < N - 1 := (Nat.find_spec hex).1
  unfold findSharp
  simp only [Bool.not_true, Bool.false_eq_true, if_false, show N - 1 ≠ 0 by omega]
  rw [if_neg (by rw [e]; exact not_lt.mpr hng.le), dif_pos hex, if_pos]
  · exact ⟨_, rfl⟩
  · refine ⟨by omega, cumRev_pos N dx y hdx hy _ (by omega), fun i hi => ?_⟩
    apply Real.log_lt_log (cumRev_pos N dx y hdx hy _ (by omega))
    exact C38_cumulative_strict N dx y hdx hy _ _ (by omega) (by omega)

/-- C38: the inversion accumulates the occupation of the clone, whose `M_min` is the grid's minimum. For
the sharp-cut classes other than `Tinker05` this is legitimate: above the larger of two `M_min`'s the
occupation does not depend on `M_min`, with or without the central condition. -/
theorem C38_occupation_independent (a b : ℝ) (hab : a ≤ b) (M : ℝ) (hM : 10 ^ b ≤ M) (c : Bool) :
    (∀ p : HOD.ZehaviP, (HOD.zehavi05 { p with M_min := a } c).totalOcc M =
      (HOD.zehavi05 { p with M_min := b } c).totalOcc M) ∧
    (∀ p : HOD.ZehaviMaxP, (HOD.zehavi05WithMax { p with M_min := a } c).totalOcc M =
      (HOD.zehavi05WithMax { p with M_min := b } c).totalOcc M) ∧
    (∀ p : HOD.MarkedP, (HOD.zehavi05Marked { p with M_min := a } c).totalOcc M =
      (HOD.zehavi05Marked { p with M_min := b } c).totalOcc M) ∧
    (∀ p : HOD.CplP, (HOD.continuousPowerLaw { p with M_min := a } c).totalOcc M =
      (HOD.continuousPowerLaw { p with M_min := b } c).totalOcc M) := by
  have h10 : (10:ℝ) ^ a ≤ 10 ^ b := Real.rpow_le_rpow_of_exponent_le (by norm_num) hab
  have hb : (10:ℝ) ^ a ≤ M := h10.trans hM
  refine ⟨fun p => ?_, fun p => ?_, fun p => ?_, fun p => ?_⟩
  · simp [HOD.Hod.totalOcc, HOD.zehavi05, HOD.poisson, HOD.satelliteOccupation, HOD.zehaviCen, hM.not_gt, hb.not_gt]
  · simp [HOD.Hod.totalOcc, HOD.zehavi05WithMax, HOD.poisson, HOD.satelliteOccupation, HOD.zehaviMaxCen, hM, hb]
  · simp [HOD.Hod.totalOcc, HOD.zehavi05Marked, HOD.poisson, HOD.satelliteOccupation, HOD.zehaviMaxCen, hM, hb]
  · simp [HOD.Hod.totalOcc, HOD.continuousPowerLaw, HOD.bulk, HOD.satelliteOccupation, HOD.cplSat, hM, hb]

/-- C38 finding: for `Tinker05`, which inherits `sharp_cut = True`, the satellites depend on `M_min`: with
the higher `M_min` there are strictly fewer, so the density of the resulting model is below the one asked
for. -/
theorem C38_tinker_density_too_low (p : HOD.TinkerP) (a b : ℝ) (hab : a < b) (M : ℝ) (hM : 10 ^ b ≤ M) (c : Bool) :
    (HOD.tinker05 { p with M_min := b } c).totalOcc M < (HOD.tinker05 { p with M_min := a } c).totalOcc M := by
  have h10 : (10:ℝ) ^ a < 10 ^ b := Real.rpow_lt_rpow_of_exponent_lt (by norm_num) hab
  have hb : (10:ℝ) ^ a < M := h10.trans_le hM
  have hMpos : 0 < M := lt_trans (by positivity) hb
  have hq : 0 < M / 10 ^ p.M_1 := by positivity
  simp only [HOD.Hod.totalOcc, HOD.tinker05, HOD.poisson, HOD.satelliteOccupation, HOD.tinkerSat, HOD.zehaviCen,
    hM.not_gt, hb.not_gt, Bool.not_true, Bool.and_false, Bool.false_eq_true, if_false, hb.ne', one_mul]
  have hpos : 0 < Real.exp (-(10 ^ p.M_cut) / (M - 10 ^ a)) * (M / 10 ^ p.M_1) := by positivity
  split_ifs with hbe
  · linarith
  · have hlt : (10:ℝ) ^ b < M := lt_of_le_of_ne hM (Ne.symm hbe)
    have : Real.exp (-(10 ^ p.M_cut) / (M - 10 ^ b)) < Real.exp (-(10 ^ p.M_cut) / (M - 10 ^ a)) := by
      apply Real.exp_lt_exp.mpr
      rw [neg_div, neg_div, neg_lt_neg_iff]
      apply div_lt_div_of_pos_left (by positivity) (by linarith) (by linarith)
    have := mul_lt_mul_of_pos_right this hq
    linarith

theorem round_trip_aux (p : HOD.ZehaviP) (c : Bool) (N : ℕ) (dx a : ℝ) (m dndm : ℕ → ℝ) (i : ℕ)
    (hm : ∀ k, i ≤ k → k < N → m i ≤ m k) (hpos : 0 < m i) (ha : 10 ^ a ≤ m i) (r : ℝ)
    (hr : r = Real.log (m i) / Real.log 10) :
    densityAbove N dx (fun k => m k * dndm k * (HOD.zehavi05 { p with M_min := r } c).totalOcc (m k)) i =
    densityAbove N dx (fun k => m k * dndm k * (HOD.zehavi05 { p with M_min := a } c).totalOcc (m k)) i := by
  have h10 : (10:ℝ) ^ r = m i := by
    rw [hr, Real.rpow_def_of_pos (by norm_num), mul_div_cancel₀ _ (by positivity), Real.exp_log hpos]
  have har : a ≤ r := by
    rw [← h10] at ha
    exact (Real.rpow_le_rpow_left_iff (by norm_num)).mp ha
  have key : ∀ k, i ≤ k → k < N → (HOD.zehavi05 { p with M_min := r } c).totalOcc (m k) =
      (HOD.zehavi05 { p with M_min := a } c).totalOcc (m k) := fun k h1 h2 =>
    ((C38_occupation_independent a r har (m k) (by rw [h10]; exact hm k h1 h2) c).1 p).symm
  unfold densityAbove
  apply sum_congr rfl
  intro k hk
  simp only [mem_Ico] at hk
  simp only [key k hk.1 (by omega), key (k + 1) (by omega) (by omega)]

/-- C38: the round trip for Zehavi05.  The grid (increasing masses, all above the clone's cut `10**a`) is
searched for a density that is attained at some interior grid mass.  Then the search succeeds, the cut of the
resulting model is that grid mass, and the density of the resulting model above its cut, by the same
quadrature, is exactly the density asked for. -/
theorem C38_round_trip (isp : Spl) (hisp : SplOk isp) (p : HOD.ZehaviP) (c : Bool) (N lenM : ℕ) (dx a : ℝ)
    (m dndm : ℕ → ℝ) (hN : 5 ≤ N) (hle : N ≤ lenM) (hdx : 0 < dx) (hm : ∀ i j, i < j → j < N → m i < m j)
    (ha : 10 ^ a ≤ m 0) (hd : ∀ i < N, 0 < dndm i) (i : ℕ) (hi0 : 0 < i) (hi : i < N - 1) (ng : ℝ)
    (hng : ng = densityAbove N dx
      (fun k => m k * dndm k * (HOD.zehavi05 { p with M_min := a } c).totalOcc (m k)) i) :
    ∃ r, findSharp true isp N lenM dx m
        (fun k => m k * dndm k * (HOD.zehavi05 { p with M_min := a } c).totalOcc (m k)) ng = .ok r ∧
      10 ^ r = m i ∧
      densityAbove N dx (fun k => m k * dndm k * (HOD.zehavi05 { p with M_min := r } c).totalOcc (m k)) i = ng := by
  have hmle : ∀ j < N, m 0 ≤ m j := by
    intro j hj
    rcases Nat.eq_zero_or_pos j with h0 | h0
    · rw [h0]
    · exact (hm 0 j h0 hj).le
  have hmpos : ∀ j < N, 0 < m j := fun j hj => lt_of_lt_of_le (by positivity) (ha.trans (hmle j hj))
  have hocc : ∀ j < N, 0 < (HOD.zehavi05 { p with M_min := a } c).totalOcc (m j) := by
    intro j hj
    have h1 := hmpos j hj
    have h2 : ¬ m j < 10 ^ a := not_lt.mpr (ha.trans (hmle j hj))
    have h3 : 0 < (m j / 10 ^ p.M_1) ^ p.alpha := by positivity
    simp only [HOD.Hod.totalOcc, HOD.zehavi05, HOD.poisson, HOD.satelliteOccupation, HOD.zehaviCen, h2,
      HOD.zehaviSat, if_false]
    split_ifs <;> norm_num <;> positivity
  set y : ℕ → ℝ := fun k => m k * dndm k * (HOD.zehavi05 { p with M_min := a } c).totalOcc (m k) with hy
  have hypos : ∀ j < N, 0 < y j := fun j hj => mul_pos (mul_pos (hmpos j hj) (hd j hj)) (hocc j hj)
  have hcum : ∀ k < N - 1, densityAbove N dx y k = cumRev N dx y (N - 2 - k) := by
    intro k hk
    rw [C38_cumulative N dx y (N - 2 - k) (by omega)]; congr 1; omega
  have hstrict : ∀ k l, k < l → l < N - 1 → densityAbove N dx y l < densityAbove N dx y k := by
    intro k l hkl hl
    rw [hcum k (by omega), hcum l hl]
    exact C38_cumulative_strict N dx y hdx hypos _ _ (by omega) (by omega)
  obtain ⟨r, hr⟩ := C38_succeeds isp N lenM dx m y ng hN hle hdx hypos
    (by rw [hng]; exact hstrict 0 i hi0 hi)
  have hge : densityAbove N dx y (N - 2) ≤ ng := by
    rw [hng]
    rcases Nat.lt_or_ge i (N - 2) with h | h
    · exact (hstrict i (N - 2) h (by omega)).le
    · rw [show i = N - 2 by omega]
  obtain ⟨w, idx, b, h1, h2, h3, h4, h5, _, _, h8⟩ :=
    C38_bracket_partial isp hisp N lenM dx m y ng r hle hge hr
  have hb : idx b = i := by
    have e1 : i ≤ idx b := by
      by_contra hc
      have := hstrict (idx b) i (by omega) hi
      rw [← hng] at this; linarith
    have e2 : idx (b + 1) < i := by
      by_contra hc
      rcases Nat.eq_or_lt_of_le (not_lt.mp hc) with h | h
      · rw [← h, ← hng] at h5; exact lt_irrefl _ h5
      · have := hstrict i (idx (b + 1)) h (h2 _ h1)
        rw [← hng] at this; linarith
    have := h3 b h1
    omega
  have hrv : r = Real.log (m i) / Real.log 10 := by
    have := h8 b (by omega) (by rw [hb]; exact hng)
    rwa [hb] at this
  refine ⟨r, hr, ?_, ?_⟩
  · rw [hrv, Real.rpow_def_of_pos (by norm_num), mul_div_cancel₀ _ (by positivity),
      Real.exp_log (hmpos i (by omega))]
  · rw [hng]
    apply round_trip_aux p c N dx a m dndm i _ (hmpos i (by omega)) (ha.trans (hmle i (by omega))) r hrv
    intro k h1 h2
    rcases Nat.eq_or_lt_of_le h1 with h | h
    · rw [h]
    · exact (hm i k h h2).le

/-! ### non-vacuity -/

/-- ten masses, integrand 1, step 1: the density above mass number `9 - d` is `d`; asking for 5 gives
`log10 m_4`. -/
example : findSharp true polySpl 10 10 1 (fun i => Real.exp i) (fun _ => 1) 5 = .ok (4 / Real.log 10) := by
  have hd : ∀ i ≤ 9, densityAbove 10 1 (fun _ => 1) i = 9 - i := by
    intro i hi
    unfold densityAbove
    rw [sum_const, Nat.card_Ico]
    norm_num [Nat.cast_sub hi]
  obtain ⟨r, hr⟩ := C38_succeeds polySpl 10 10 1 (fun i => Real.exp i) (fun _ => 1) 5 (by norm_num) le_rfl
    (by norm_num) (by norm_num) (by rw [hd 0 (by norm_num)]; norm_num)
  obtain ⟨w, idx, b, h1, h2, h3, h4, h5, _, _, h8⟩ := C38_bracket_partial polySpl polySpl_ok 10 10 1
    (fun i => Real.exp i) (fun _ => 1) 5 r le_rfl (by rw [hd _ (by norm_num)]; norm_num) hr
  have hb1 := h2 b (by omega)
  have hb2 := h2 (b + 1) h1
  have hb3 := h3 b h1
  rw [hd _ (by omega)] at h4
  rw [hd _ (by omega)] at h5
  have e4 : (4 : ℝ) ≤ (idx b : ℝ) := by linarith
  have e5 : ((idx (b + 1) : ℕ) : ℝ) < 4 := by linarith
  have e4' : 4 ≤ idx b := by exact_mod_cast e4
  have e5' : idx (b + 1) < 4 := by exact_mod_cast e5
  have : idx b = 4 := by omega
  rw [hr, h8 b (by omega) (by rw [this, hd 4 (by norm_num)]; norm_num), this]
  norm_num

/-- six masses 10, 100, ..., Zehavi05 cut at 10: the density above the third one is found again. -/
example (ng : ℝ) (hng : ng = densityAbove 6 1 (fun k => (10:ℝ) ^ (k + 1) * 1 *
      (HOD.zehavi05 { M_1 := 3, alpha := 1, M_min := 1 } true).totalOcc (10 ^ (k + 1))) 2) :
    ∃ r, findSharp true polySpl 6 6 1 (fun k => (10:ℝ) ^ (k + 1)) (fun k => (10:ℝ) ^ (k + 1) * 1 *
      (HOD.zehavi05 { M_1 := 3, alpha := 1, M_min := 1 } true).totalOcc (10 ^ (k + 1))) ng = .ok r ∧
      (10:ℝ) ^ r = 10 ^ 3 := by
  obtain ⟨r, h1, h2, _⟩ := C38_round_trip polySpl polySpl_ok { M_1 := 3, alpha := 1, M_min := 1 } true 6 6 1 1
    (fun k => (10:ℝ) ^ (k + 1)) (fun _ => 1) (by norm_num) le_rfl (by norm_num)
    (fun i j hij _ => pow_lt_pow_right₀ (by norm_num) (by omega)) (by norm_num) (fun _ _ => one_pos) 2
    (by norm_num) (by norm_num) ng hng
  exact ⟨r, h1, h2⟩

end Halomod.HaloState
