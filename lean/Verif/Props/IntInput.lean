import Verif.Model.IntInput
import Verif.Model.Populate
import Verif.Spec.Counts
import Verif.Props.Tools
import Mathlib.Tactic.Linarith
import Mathlib.Tactic.Positivity
import Mathlib.Tactic.NormNum

/-!
# C72: integer-typed arguments

The property one expects: the values do not depend on whether the masses or separations are given as integers or as the
same numbers in floating point.  It holds for the classes and functions listed in `C72_hod_partial` and is false for the
others; the findings say what is returned instead.
-/
namespace Halomod.IntInput

open Halomod.Tools Halomod.HOD

/-- The classes whose results do not depend on the type of the masses. -/
def TypeBlind : HodInst → Prop
  | .zheng05 _ => False
  | .spinelli19 _ => False
  | _ => True

theorem store_false (v : ℝ) : store false v = v := by simp [store]

theorem store_zero (b : Bool) : store b 0 = 0 := by cases b <;> simp [store]

theorem store_one (b : Bool) : store b 1 = 1 := by cases b <;> simp [store]

/-- An integer is stored unchanged. -/
theorem store_int (b : Bool) (n : ℤ) : store b n = n := by cases b <;> simp [store]

/-- A number of modulus below 1 becomes 0 in an integer array, and only such numbers do. -/
theorem store_eq_zero (v : ℝ) : store true v = 0 ↔ |v| < 1 := by
  unfold store
  rw [if_pos rfl]
  split
  · rename_i h
    rw [abs_of_nonneg h]
    constructor
    · intro e
      have : ⌊v⌋ = 0 := by exact_mod_cast e
      simpa [this] using Int.lt_floor_add_one v
    · intro e
      have : ⌊v⌋ = 0 := by rw [Int.floor_eq_zero_iff]; exact ⟨h, e⟩
      simp [this]
  · rename_i h
    push Not at h
    rw [abs_of_neg h]
    constructor
    · intro e
      have h0 : ⌈v⌉ = 0 := by exact_mod_cast e
      have := (Int.ceil_eq_iff.1 h0).1
      push_cast at this
      linarith
    · intro e
      have : ⌈v⌉ = 0 := by rw [Int.ceil_eq_iff]; push_cast; exact ⟨by linarith, h.le⟩
      simp [this]

/-- Storing changes a value by less than one, towards zero. -/
theorem store_err (v : ℝ) : |store true v - v| < 1 ∧ |store true v| ≤ |v| := by
  unfold store
  rw [if_pos rfl]
  split
  · rename_i h
    have h1 := Int.floor_le v
    have h2 := Int.lt_floor_add_one v
    have h3 : (0:ℝ) ≤ ⌊v⌋ := by exact_mod_cast Int.floor_nonneg.2 h
    rw [abs_of_nonneg h, abs_of_nonneg h3, abs_lt]
    exact ⟨⟨by linarith, by linarith⟩, h1⟩
  · rename_i h
    push Not at h
    have h1 := Int.le_ceil v
    have h2 := Int.ceil_lt_add_one v
    have h3 : (⌈v⌉:ℝ) ≤ 0 := by exact_mod_cast Int.ceil_le.2 (by simpa using h.le)
    rw [abs_of_neg h, abs_of_nonpos h3, abs_lt]
    exact ⟨⟨by linarith, by linarith⟩, by linarith⟩

/-! ## occupation -/

/-- C72: floating-point masses: for every HOD class the typed model is the model of the other properties; and for every
class except `Zheng05` and `Spinelli19` integer-typed masses give the same results of every method. -/
theorem C72_hod_partial (i : HodInst) (central : Bool) :
    hodDt false i central = i.mk central ∧ (TypeBlind i → hodDt true i central = i.mk central) := by
  have cz : ∀ b M, zehaviCenDt b M = zehaviCen M := by
    intro b M; funext m; simp [zehaviCenDt, zehaviCen, store_zero, store_one]
  have cm : ∀ b M M', zehaviMaxCenDt b M M' = zehaviMaxCen M M' := by
    intro b M M'; funext m; simp [zehaviMaxCenDt, zehaviMaxCen, store_zero, store_one]
  have ct : ∀ b p, tinkerSatDt b p = tinkerSat p := by
    intro b p; funext m; simp [tinkerSatDt, tinkerSat, cz]
  cases i with
  | zheng05 p =>
    refine ⟨?_, fun h => h.elim⟩
    have : zhengSatDt false p = zhengSat p := by funext m; simp [zhengSatDt, zhengSat, store_false]
    simp only [hodDt, HodInst.mk, HOD.zheng05, this]
  | spinelli19 p =>
    refine ⟨?_, fun h => h.elim⟩
    have h1 : spinelliSatDt false p = spinelliSat p := by funext m; simp [spinelliSatDt, spinelliSat, store_false]
    have h2 : spinelliTpcDt false p = spinelliTpc p := by funext m; simp [spinelliTpcDt, spinelliTpc, store_false]
    have h3 : spinelliTpsDt false p = spinelliTps p := by funext m; simp [spinelliTpsDt, spinelliTps, store_false]
    simp only [hodDt, HodInst.mk, HOD.spinelli19, spinelliDef, h1, h2, h3]
  | zehavi05 p => simp only [hodDt, HodInst.mk, HOD.zehavi05, cz]; exact ⟨trivial, fun _ => trivial⟩
  | contreras13 p => exact ⟨rfl, fun _ => rfl⟩
  | tinker05 p => simp only [hodDt, HodInst.mk, HOD.tinker05, cz, ct]; exact ⟨trivial, fun _ => trivial⟩
  | zehavi05WithMax p => simp only [hodDt, HodInst.mk, HOD.zehavi05WithMax, cm]; exact ⟨trivial, fun _ => trivial⟩
  | zehavi05Marked p => simp only [hodDt, HodInst.mk, HOD.zehavi05Marked, cm]; exact ⟨trivial, fun _ => trivial⟩
  | continuousPowerLaw p => exact ⟨rfl, fun _ => rfl⟩
  | constant p => exact ⟨rfl, fun _ => rfl⟩
  | leauthaud11 f p => exact ⟨rfl, fun _ => rfl⟩

/-- C72 finding: `Zheng05` on integer-typed masses.  Centrals are right; the satellites per central are rounded down to a
whole number, so every halo between `10**M_0` and `10**M_0 + 10**M_1` is given no satellites, although in floating
point the same mass has some. -/
theorem C72_zheng_floor (p : ZhengP) (central : Bool) (m : ℝ) (ha : 0 < p.alpha) (hm : (10:ℝ) ^ p.M_0 < m) :
    let H := hodDt true (.zheng05 p) central
    let F := HOD.zheng05 p central
    H.cenOcc m = F.cenOcc m ∧
    (H.satOcc m = (if central then F.cenOcc m else 1) * ⌊((m - 10 ^ p.M_0) / 10 ^ p.M_1) ^ p.alpha⌋ ∧
     F.satOcc m = (if central then F.cenOcc m else 1) * ((m - 10 ^ p.M_0) / 10 ^ p.M_1) ^ p.alpha) ∧
    (m < 10 ^ p.M_0 + 10 ^ p.M_1 → H.satOcc m = 0 ∧ H.ssPairs m = 0 ∧ H.csPairs m = 0 ∧
      (0 < F.cenOcc m → 0 < F.satOcc m)) := by
  have h1 : (0:ℝ) < 10 ^ p.M_1 := by positivity
  have hx : 0 < (m - 10 ^ p.M_0) / 10 ^ p.M_1 := div_pos (by linarith) h1
  have hv : 0 < ((m - 10 ^ p.M_0) / 10 ^ p.M_1) ^ p.alpha := Real.rpow_pos_of_pos hx _
  have hst : store true (((m - 10 ^ p.M_0) / 10 ^ p.M_1) ^ p.alpha) = ⌊((m - 10 ^ p.M_0) / 10 ^ p.M_1) ^ p.alpha⌋ := by
    simp [store, hv.le]
  have hH : (hodDt true (.zheng05 p) central).satOcc m
      = (if central then zhengCen p m else 1) * ⌊((m - 10 ^ p.M_0) / 10 ^ p.M_1) ^ p.alpha⌋ := by
    cases central <;> simp [hodDt, poisson, satelliteOccupation, zhengSatDt, if_pos hm, hst]
  have hF : (HOD.zheng05 p central).satOcc m
      = (if central then zhengCen p m else 1) * ((m - 10 ^ p.M_0) / 10 ^ p.M_1) ^ p.alpha := by
    cases central <;> simp [HOD.zheng05, poisson, satelliteOccupation, zhengSat, if_pos hm]
  refine ⟨rfl, ⟨hH, hF⟩, fun hlt => ?_⟩
  have h0 : ⌊((m - 10 ^ p.M_0) / 10 ^ p.M_1) ^ p.alpha⌋ = 0 := by
    rw [Int.floor_eq_zero_iff]
    refine ⟨hv.le, Real.rpow_lt_one hx.le ?_ ha⟩
    rw [div_lt_one h1]; linarith
  have hz : (hodDt true (.zheng05 p) central).satOcc m = 0 := by rw [hH, h0]; simp
  refine ⟨hz, ?_, ?_, ?_⟩
  · show (hodDt true (.zheng05 p) central).satOcc m ^ 2 = 0
    rw [hz]; simp
  · show (if central then (hodDt true (.zheng05 p) central).satOcc m * 1
      else zhengCen p m * (hodDt true (.zheng05 p) central).satOcc m) = 0
    rw [hz]; simp
  · intro hc
    rw [hF]
    refine mul_pos ?_ hv
    cases central
    · simp
    · rw [if_pos rfl]; exact hc

/-- The package's default parameters and a halo of `10**12`: integer-typed, it has no satellites. -/
example : (hodDt true (.zheng05 {}) true).satOcc (10 ^ (12:ℝ)) = 0 ∧
    0 < (HOD.zheng05 {} true).satOcc (10 ^ (12:ℝ)) := by
  have h := C72_zheng_floor {} true (10 ^ (12:ℝ)) (by norm_num)
    (Real.rpow_lt_rpow_of_exponent_lt (by norm_num) (by norm_num))
  have h2 := h.2.2 (lt_of_lt_of_le (Real.rpow_lt_rpow_of_exponent_lt (by norm_num) (by norm_num : (12:ℝ) < 12.851))
    (by have : (0:ℝ) < 10 ^ (11.5047:ℝ) := by positivity
        linarith))
  refine ⟨h2.1, h2.2.2.2 ?_⟩
  show (0:ℝ) < 0.5 * (1 + erf _)
  have := neg_one_lt_erf ((log10 (10 ^ (12:ℝ)) - ({} : ZhengP).M_min) / ({} : ZhengP).sig_logm)
  linarith

/-- C72 finding: `populate` given integer-typed masses with `Zheng05` never draws a satellite in these haloes: the mean
number is 0. -/
theorem C72_zheng_populate (p : ZhengP) (central : Bool) (m : ℝ) (ha : 0 < p.alpha) (hm : (10:ℝ) ^ p.M_0 < m)
    (hlt : m < 10 ^ p.M_0 + 10 ^ p.M_1) :
    Populate.haloMean (hodDt true (.zheng05 p) central) m (fun _ s => s) = 0 ∧
    (0 < zhengCen p m → 0 < Populate.haloMean (HOD.zheng05 p central) m (fun _ s => s)) := by
  obtain ⟨-, ⟨-, hF⟩, h3⟩ := C72_zheng_floor p central m ha hm
  obtain ⟨hz, -, -, hpos⟩ := h3 hlt
  have hns : (hodDt true (.zheng05 p) central).ns m = 0 := by
    show (hodDt true (.zheng05 p) central).satOcc m / 1 = 0
    rw [hz]; simp
  have hns' : (HOD.zheng05 p central).ns m = (HOD.zheng05 p central).satOcc m := by
    show (HOD.zheng05 p central).satOcc m / 1 = _
    simp
  constructor
  · unfold Populate.haloMean
    rw [hns]
    simp [Spec.poissonE_id]
  · intro hc
    have hs := hpos hc
    unfold Populate.haloMean
    rw [hns']
    simp only [Spec.poissonE_id, Nat.cast_zero]
    cases central
    · show 0 < (if false = true then _ else (1 - zhengCen p m) * _ + zhengCen p m * _)
      rw [if_neg (by decide)]
      nlinarith
    · show 0 < (if true = true then (1 - zhengCen p m) * 0 + zhengCen p m * _ else _)
      rw [if_pos rfl]
      nlinarith [mul_pos hc hs]

/-- C72: `Spinelli19` on integer-typed masses: amounts of tracer, and sources per central, are right; the number of
satellite sources is divided by the rounded-down tracer per source, which is 0 below `10**M_1_counts`. -/
theorem C72_spinelli (p : SpinelliP) (central : Bool) (m : ℝ) :
    let H := hodDt true (.spinelli19 p) central
    let F := HOD.spinelli19 p central
    (H.cenOcc m = F.cenOcc m ∧ H.nc m = F.nc m ∧ H.satOcc m = F.satOcc m ∧ H.csPairs m = F.csPairs m ∧
      H.ssPairs m = F.ssPairs m) ∧
    H.ns m = F.satOcc m / spinelliTpsDt true p m ∧ F.ns m = F.satOcc m / spinelliTps p m ∧
    (0 < p.alpha_counts → (10:ℝ) ^ p.M_min_counts ≤ m → m ≤ 10 ^ p.M_max_counts → m < 10 ^ p.M_1_counts →
      spinelliTpsDt true p m = 0 ∧ 0 < spinelliTps p m) := by
  have h1 : spinelliSatDt true p = spinelliSat p := by
    funext m; simp [spinelliSatDt, spinelliSat, store_zero, store_one]
  have h2 : spinelliTpcDt true p = spinelliTpc p := by
    funext m; simp [spinelliTpcDt, spinelliTpc, store_zero, store_one]
  simp only [hodDt, HOD.spinelli19, spinelliDef, poisson, h1, h2]
  refine ⟨⟨trivial, trivial, trivial, trivial, trivial⟩, trivial, trivial, fun ha hlo hhi hlt => ?_⟩
  have hm : 0 < m := lt_of_lt_of_le (by positivity) hlo
  have hd : (0:ℝ) < 10 ^ p.M_1_counts := by positivity
  have hv : 0 < (m / 10 ^ p.M_1_counts) ^ p.alpha_counts := by positivity
  unfold spinelliTpsDt spinelliTps
  rw [if_pos ⟨hlo, hhi⟩, if_pos ⟨hlo, hhi⟩]
  refine ⟨(store_eq_zero _).2 ?_, hv⟩
  rw [abs_of_pos hv]
  exact Real.rpow_lt_one (by positivity) ((div_lt_one hd).2 hlt) ha

example : spinelliTpsDt true {} (10 ^ (12:ℝ)) = 0 ∧ 0 < spinelliTps {} (10 ^ (12:ℝ)) :=
  (C72_spinelli {} true (10 ^ (12:ℝ))).2.2.2 (by norm_num)
    (Real.rpow_le_rpow_of_exponent_le (by norm_num) (by norm_num))
    (Real.rpow_le_rpow_of_exponent_le (by norm_num) (by norm_num))
    (Real.rpow_lt_rpow_of_exponent_lt (by norm_num) (by norm_num))

/-! ## correlations -/

/-- The array call of a tabulated function on integer separations: every value is cut to a whole number. -/
theorem callArr_map (e : ES) (hle : e.xmin ≤ e.xmax) (b : Bool) (xs : List ℝ) :
    e.callArr b xs = xs.map fun t => store b (e.call t) := by
  unfold ES.callArr ES.call
  induction xs with
  | nil => rfl
  | cons t ts ih =>
    simp only [List.map_cons, List.zipWith_cons_cons]
    simp only at ih
    rw [ih]
    congr 1
    by_cases h1 : t < e.xmin
    · have h2 : ¬ t > e.xmax := by linarith
      simp [h1, h2]
    · by_cases h2 : t > e.xmax
      · simp [h1, h2]
      · simp [h1, h2]

/-- C72 finding: a halo model whose separations are given as integers (`rmin=[1, 2, 5, 10]`) returns whole-number
correlations.  In floating point each total is the sum of the two terms.  With integers each term is cut first: the total
is off by up to 2 at every separation, and it is exactly 0 wherever both terms are below 1 in modulus. -/
theorem C72_correlation_truncated (e1 e2 : ES) (h1 : e1.xmin ≤ e1.xmax) (h2 : e2.xmin ≤ e2.xmax) (rs : List ℝ) :
    corrTotal false e1 e2 rs = rs.map (fun r => e1.call r + e2.call r) ∧
    corrTotal true e1 e2 rs = rs.map (fun r => store true (e1.call r) + store true (e2.call r)) ∧
    (∀ r : ℝ, (∃ n : ℤ, store true (e1.call r) + store true (e2.call r) = n) ∧
      |store true (e1.call r) + store true (e2.call r) - (e1.call r + e2.call r)| < 2) ∧
    ((∀ r ∈ rs, |e1.call r| < 1 ∧ |e2.call r| < 1) → corrTotal true e1 e2 rs = rs.map fun _ => 0) := by
  have hz : ∀ b, corrTotal b e1 e2 rs = rs.map (fun r => store b (e1.call r) + store b (e2.call r)) := by
    intro b
    unfold corrTotal
    rw [callArr_map e1 h1, callArr_map e2 h2]
    simp [List.zipWith_map, List.zipWith_self]
  have hint : ∀ v, ∃ n : ℤ, store true v = n := by
    intro v
    unfold store
    rw [if_pos rfl]
    split
    · exact ⟨_, rfl⟩
    · exact ⟨_, rfl⟩
  refine ⟨?_, hz true, fun r => ⟨?_, ?_⟩, fun h => ?_⟩
  · rw [hz false]; simp only [store_false]
  · obtain ⟨a, ha⟩ := hint (e1.call r)
    obtain ⟨b, hb⟩ := hint (e2.call r)
    exact ⟨a + b, by rw [ha, hb]; push_cast; ring⟩
  · have ha := (store_err (e1.call r)).1
    have hb := (store_err (e2.call r)).1
    rw [abs_lt] at *
    constructor <;> linarith [ha.1, ha.2, hb.1, hb.2]
  · rw [hz true]
    refine List.map_congr_left fun r hr => ?_
    rw [(store_eq_zero _).2 (h r hr).1, (store_eq_zero _).2 (h r hr).2, add_zero]

/-- A one-halo term `1/(4 r)` and a two-halo term `1/(2 r)` at the separations 1, 2, 5: all totals become 0. -/
example : corrTotal true ⟨1, 10, fun r => 1 / (4 * r), fun _ => 0, fun r => 1 / (4 * r)⟩
    ⟨1, 10, fun r => 1 / (2 * r), fun _ => 0, fun r => 1 / (2 * r)⟩ [1, 2, 5] = [0, 0, 0] := by
  refine (C72_correlation_truncated _ _ (by norm_num) (by norm_num) [1, 2, 5]).2.2.2 fun r hr => ?_
  simp only [List.mem_cons, List.not_mem_nil, or_false] at hr
  rcases hr with rfl | rfl | rfl <;> norm_num [ES.call, abs_of_pos]

/-- C72 finding: `power_to_corr` on integer separations (also a single Python integer) returns whole numbers: 0 wherever
the correlation is below 1 in modulus. -/
theorem C72_power_to_corr (P : ℝ → ℝ) (rs : List ℝ) :
    powerToCorrDt false P rs = rs.map (powerToCorr P) ∧
    powerToCorrDt true P rs = rs.map (fun r => store true (powerToCorr P r)) ∧
    ∀ r, (store true (powerToCorr P r) = 0 ↔ |powerToCorr P r| < 1) ∧
      |store true (powerToCorr P r) - powerToCorr P r| < 1 := by
  refine ⟨?_, rfl, fun r => ⟨store_eq_zero _, (store_err _).1⟩⟩
  unfold powerToCorrDt
  simp only [store_false]

/-- C72 finding: `projected_corr_gal` with integer output separations cuts the projected correlation to whole numbers. -/
theorem C72_projected (isp : Spl) (n : ℕ) (r xi : ℕ → ℝ) (rlim : ℝ) (rpOut : ℕ → ℝ) (i : ℕ) :
    projectedCorrDt false isp n r xi rlim rpOut i = IntegrateCorr.projectedCorr isp n r xi rlim rpOut i ∧
    ∀ v, IntegrateCorr.projectedCorr isp n r xi rlim rpOut i = some v →
      projectedCorrDt true isp n r xi rlim rpOut i = some (store true v) ∧ |store true v - v| < 1 ∧
      (|v| < 1 → projectedCorrDt true isp n r xi rlim rpOut i = some 0) := by
  constructor
  · unfold projectedCorrDt
    cases IntegrateCorr.projectedCorr isp n r xi rlim rpOut i <;> simp [store_false]
  · intro v hv
    unfold projectedCorrDt
    rw [hv]
    refine ⟨rfl, (store_err v).1, fun h => ?_⟩
    rw [Option.map_some, (store_eq_zero v).2 h]

/-- C72 finding: `Ludlow16` on integer-typed masses: the concentrations are rounded down to whole numbers. -/
theorem C72_ludlow (rows : List (List (ℝ × ℝ))) (cs : List ℝ) (h : ludlowDt false rows = .ok cs) (h0 : ∀ c ∈ cs, 0 ≤ c) :
    ludlowDt true rows = .ok (cs.map fun c => (⌊c⌋ : ℝ)) := by
  unfold ludlowDt at *
  induction rows generalizing cs with
  | nil =>
    simp only [List.mapM_nil, pure, Except.pure, Except.ok.injEq] at h
    subst h
    rfl
  | cons l ls ih =>
    rw [List.mapM_cons] at h ⊢
    cases hl : Concentration.eq7Array l with
    | error e => rw [hl] at h; simp [Except.map, bind, Except.bind] at h
    | ok v =>
      rw [hl] at h
      simp only [Except.map, bind, Except.bind] at h ⊢
      cases hr : List.mapM (fun l => (Concentration.eq7Array l).map (Concentration.storeAs false)) ls with
      | error e => simp only [Except.map] at hr; rw [hr] at h; simp at h
      | ok vs =>
        have hr' := hr
        simp only [Except.map] at hr
        rw [hr] at h
        simp only [pure, Except.pure, Except.ok.injEq] at h
        subst h
        have hi := ih vs hr' fun c hc => h0 c (by simp [hc])
        simp only [Except.map] at hi
        rw [hi]
        have hv : 0 ≤ v := by simpa [Concentration.storeAs] using h0 (Concentration.storeAs false v) (by simp)
        simp [pure, Except.pure, Concentration.storeAs, hv]

example : ludlowDt true [[((1:ℝ), (4.5:ℝ))], [(1, 7.25)]] = .ok [4, 7] := by
  have h := C72_ludlow [[((1:ℝ), (4.5:ℝ))], [(1, 7.25)]] [4.5, 7.25]
    (by simp [ludlowDt, List.mapM_cons, Concentration.eq7Array, Concentration.arrMin, Except.map, bind, Except.bind,
          pure, Except.pure, Concentration.storeAs])
    (by intro c hc; simp only [List.mem_cons, List.not_mem_nil, or_false] at hc; rcases hc with rfl | rfl <;> norm_num)
  rw [h]
  norm_num

end Halomod.IntInput
