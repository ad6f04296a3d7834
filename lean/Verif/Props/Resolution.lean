import Verif.Props.Converge6
import Verif.Props.Spline3
import Mathlib.Topology.EMetricSpace.VariationOnFromTo

/-! # C75: how far the averages on a given mass table are from the integrals (explicit bounds in `dlog10m`) -/
namespace Halomod.HaloModel

open Filter Topology MeasureTheory Halomod.Tools Halomod.HOD Finset

/-- functions of bounded variation are integrable. -/
theorem bv_integrable {g : ℝ → ℝ} {a b : ℝ} (hab : a ≤ b) (hg : eVariationOn g (Set.Icc a b) ≠ ⊤) : IntervalIntegrable g volume a b := by
  have hl : LocallyBoundedVariationOn g (Set.Icc a b) := fun u v _ _ => ((eVariationOn.mono g Set.inter_subset_left).trans_lt (lt_top_iff_ne_top.2 hg)).ne
  obtain ⟨p, q, hp, hq, e⟩ := LocallyBoundedVariationOn.exists_monotoneOn_sub_monotoneOn hl
  rw [e]
  rw [← Set.uIcc_of_le hab] at hp hq
  exact hp.intervalIntegrable.sub hq.intervalIntegrable

/-- variations over neighbouring intervals add up. -/
theorem var_sum (g : ℝ → ℝ) {x : ℕ → ℝ} {k : ℕ} (hx : ∀ j < k, x j ≤ x (j + 1)) :
    ∑ j ∈ range k, eVariationOn g (Set.Icc (x j) (x (j + 1))) = eVariationOn g (Set.Icc (x 0) (x k)) := by
  induction k with
  | zero => simp
  | succ k ih =>
    rw [sum_range_succ, ih fun j hj => hx j (by omega)]
    have h0 : x 0 ≤ x k := by
      have : ∀ i, i ≤ k → x 0 ≤ x i := by
        intro i
        induction i with
        | zero => exact fun _ => le_rfl
        | succ i ih' => exact fun hi => (ih' (by omega)).trans (hx i (by omega))
      exact this k le_rfl
    have := eVariationOn.Icc_add_Icc g (s := Set.univ) h0 (hx k (by omega)) (Set.mem_univ _)
    simpa only [Set.univ_inter] using this

/-- the integral of the polygon through the values of a function of bounded variation. -/
theorem poly_error {g : ℝ → ℝ} {A s V c : ℝ} {n : ℕ} (hs : 0 < s) (hV : eVariationOn g (Set.Icc A (A + ((n - 1 : ℕ):ℝ) * s)) ≤ ENNReal.ofReal V) (hV0 : 0 ≤ V)
    (hc : c ∈ Set.Icc A (A + ((n - 1 : ℕ):ℝ) * s)) :
    |splIntegral linSpl n (fun i : ℕ => A + i * s) (fun i : ℕ => g (A + i * s)) c (A + ((n - 1 : ℕ):ℝ) * s) - ∫ t in c..A + ((n - 1 : ℕ):ℝ) * s, g t| ≤ V * s := by
  set x : ℕ → ℝ := fun i : ℕ => A + i * s with hx
  set L := linSpl n x (fun i => g (x i)) with hL
  have hinc : ∀ i k : ℕ, i < k → k < n → x i < x k := lin_inc A hs n
  have hstep : ∀ i : ℕ, x (i + 1) - x i = s := fun i => by simp only [hx]; push_cast; ring
  have hle : ∀ i : ℕ, x i ≤ x (i + 1) := fun i => by linarith [hstep i]
  have hLc : Continuous L := linSpl_lin.cont n x _ hinc
  have x0 : x 0 = A := by simp [hx]
  have xl : x (n - 1) = A + ((n - 1 : ℕ):ℝ) * s := rfl
  have hVne : eVariationOn g (Set.Icc (x 0) (x (n - 1))) ≠ ⊤ := by
    rw [x0, xl]; exact (hV.trans_lt ENNReal.ofReal_lt_top).ne
  have hAB : x 0 ≤ x (n - 1) := by rw [x0, xl]; nlinarith [Nat.cast_nonneg (α := ℝ) (n - 1)]
  have hgi : IntervalIntegrable g volume (x 0) (x (n - 1)) := bv_integrable hAB hVne
  have hci : x 0 ≤ c := by rw [x0]; exact hc.1
  have hcl : c ≤ x (n - 1) := hc.2
  have hgc : IntervalIntegrable g volume c (x (n - 1)) := hgi.mono_set (by
    rw [Set.uIcc_of_le hcl, Set.uIcc_of_le hAB]; exact Set.Icc_subset_Icc_left hci)
  rw [splIntegral_inside hc.2 hc.1 le_rfl]
  change |(∫ t in c..x (n - 1), L t) - ∫ t in c..x (n - 1), g t| ≤ V * s
  rw [← intervalIntegral.integral_sub (hLc.intervalIntegrable _ _) hgc]
  have dI : IntervalIntegrable (fun t => |L t - g t|) volume (x 0) (x (n - 1)) := ((hLc.intervalIntegrable _ _).sub hgi).abs
  have step1 : |∫ t in c..x (n - 1), (L t - g t)| ≤ ∫ t in x 0..x (n - 1), |L t - g t| := by
    refine (intervalIntegral.abs_integral_le_integral_abs hcl).trans ?_
    exact intervalIntegral.integral_mono_interval hci hcl le_rfl (Eventually.of_forall fun t => abs_nonneg _) dI
  refine step1.trans ?_
  have hpi : ∀ j < n - 1, IntervalIntegrable (fun t => |L t - g t|) volume (x j) (x (j + 1)) := by
    intro j hj
    refine dI.mono_set ?_
    rw [Set.uIcc_of_le (hle j), Set.uIcc_of_le hAB]
    refine Set.Icc_subset_Icc ?_ ?_
    · simp only [hx]; push_cast; nlinarith [Nat.cast_nonneg (α := ℝ) j]
    · simp only [hx]
      have : ((j + 1 : ℕ):ℝ) ≤ ((n - 1 : ℕ):ℝ) := by exact_mod_cast hj
      nlinarith
  rw [← intervalIntegral.sum_integral_adjacent_intervals hpi]
  -- each panel
  have hvt : ∀ j < n - 1, eVariationOn g (Set.Icc (x j) (x (j + 1))) ≠ ⊤ := fun j hj => by
    refine ((eVariationOn.mono g ?_).trans_lt (lt_top_iff_ne_top.2 hVne)).ne
    refine Set.Icc_subset_Icc ?_ ?_
    · simp only [hx]; push_cast; nlinarith [Nat.cast_nonneg (α := ℝ) j]
    · simp only [hx]
      have : ((j + 1 : ℕ):ℝ) ≤ ((n - 1 : ℕ):ℝ) := by exact_mod_cast hj
      nlinarith
  have panel : ∀ j ∈ range (n - 1), ∫ t in x j..x (j + 1), |L t - g t| ≤ (eVariationOn g (Set.Icc (x j) (x (j + 1)))).toReal * s := by
    intro j hj
    rw [mem_range] at hj
    set v := (eVariationOn g (Set.Icc (x j) (x (j + 1)))).toReal with hv
    have hosc : ∀ t ∈ Set.Icc (x j) (x (j + 1)), ∀ u ∈ Set.Icc (x j) (x (j + 1)), |g t - g u| ≤ v := by
      intro t ht u hu
      have := eVariationOn.edist_le g ht hu
      rw [edist_dist, Real.dist_eq] at this
      rwa [← ENNReal.ofReal_le_iff_le_toReal (hvt j hj)]
    have hb : ∀ t ∈ Set.Icc (x j) (x (j + 1)), |L t - g t| ≤ v := by
      intro t ht
      rw [hL, linSpl_on n x _ hinc j (by omega) t ht.1 ht.2, hstep]
      set w := (t - x j) / s with hw
      have w0 : 0 ≤ w := div_nonneg (by linarith [ht.1]) hs.le
      have w1 : w ≤ 1 := by rw [hw, div_le_one hs]; linarith [ht.2, hstep j]
      have h1 := abs_le.1 (hosc (x j) ⟨le_rfl, hle j⟩ t ht)
      have h2 := abs_le.1 (hosc (x (j + 1)) ⟨hle j, le_rfl⟩ t ht)
      rw [show g (x j) + (g (x (j + 1)) - g (x j)) * w - g t = (1 - w) * (g (x j) - g t) + w * (g (x (j + 1)) - g t) by ring]
      rw [abs_le]
      constructor <;> nlinarith [mul_nonneg w0 (sub_nonneg.2 h1.1), mul_nonneg w0 (sub_nonneg.2 h1.2)]
    have := intervalIntegral.integral_mono_on (hle j) (hpi j hj) ((intervalIntegrable_const (c := v))) hb
    rw [intervalIntegral.integral_const, smul_eq_mul, hstep] at this
    linarith
  refine (sum_le_sum panel).trans ?_
  rw [← sum_mul]
  refine mul_le_mul_of_nonneg_right ?_ hs.le
  rw [← ENNReal.toReal_sum fun j hj => hvt j (mem_range.1 hj), var_sum g fun j _ => hle j, x0, xl]
  exact ENNReal.toReal_le_of_le_ofReal hV0 hV

/-- the integral of the cubic spline through the values of a function of bounded variation on a uniform grid, up to a point within a step of the last sample. -/
theorem spline_error {g : ℝ → ℝ} {A B s V M c : ℝ} {n : ℕ} (hn : 5 ≤ n) (hs : 0 < s) (hl : A + ((n - 1 : ℕ):ℝ) * s < B) (hr : B - s ≤ A + ((n - 1 : ℕ):ℝ) * s)
    (hM : ∀ t ∈ Set.Icc A B, |g t| ≤ M) (hV : eVariationOn g (Set.Icc A B) ≤ ENNReal.ofReal V) (hV0 : 0 ≤ V) (hc : c ∈ Set.Icc A B) :
    |splIntegral cubicSpl n (fun i : ℕ => A + i * s) (fun i : ℕ => g (A + i * s)) c (A + ((n - 1 : ℕ):ℝ) * s) - ∫ t in c..B, g t| ≤ (41 * M + V) * s := by
  set e := A + ((n - 1 : ℕ):ℝ) * s with he
  have hAe : A ≤ e := by rw [he]; nlinarith [Nat.cast_nonneg (α := ℝ) (n - 1)]
  have hM0 : 0 ≤ M := (abs_nonneg _).trans (hM c hc)
  have hgi : IntervalIntegrable g volume A B := bv_integrable (hAe.trans hl.le) (hV.trans_lt ENNReal.ofReal_lt_top).ne
  have hsub : ∀ u v, A ≤ u → u ≤ v → v ≤ B → IntervalIntegrable g volume u v := fun u v h1 h2 h3 => hgi.mono_set (by
    rw [Set.uIcc_of_le h2, Set.uIcc_of_le (h1.trans (h2.trans h3))]; exact Set.Icc_subset_Icc h1 h3)
  have htop : ∀ u, A ≤ u → e ≤ u → u ≤ B → |∫ t in u..B, g t| ≤ M * s := by
    intro u h1 h2 h3
    have := intervalIntegral.norm_integral_le_of_norm_le_const (a := u) (b := B) (f := g) (C := M) fun t ht => by
      rw [Set.uIoc_of_le h3] at ht
      exact hM t ⟨h1.trans ht.1.le, ht.2⟩
    rw [Real.norm_eq_abs, abs_of_nonneg (sub_nonneg.2 h3)] at this
    exact this.trans (mul_le_mul_of_nonneg_left (by linarith) hM0)
  rcases le_or_gt c e with hce | hce
  · have h1 := cubicSpl_quad_bound n A s (fun i : ℕ => g (A + i * s)) M c hn hs (fun i hi => hM _ ⟨by nlinarith [Nat.cast_nonneg (α := ℝ) i], by
      have : (i:ℝ) ≤ ((n - 1 : ℕ):ℝ) := by exact_mod_cast (by omega : i ≤ n - 1)
      nlinarith⟩) ⟨hc.1, hce⟩
    have h2 := poly_error (g := g) (V := V) (c := c) hs ((eVariationOn.mono g (Set.Icc_subset_Icc_right hl.le)).trans hV) hV0 ⟨hc.1, hce⟩
    have h3 := htop e hAe le_rfl hl.le
    rw [← intervalIntegral.integral_add_adjacent_intervals (hsub c e hc.1 hce hl.le) (hsub e B hAe hl.le le_rfl)]
    rw [← he] at h1 h2
    rw [abs_le] at h1 h2 h3 ⊢
    constructor <;> linarith [h1.1, h1.2, h2.1, h2.2, h3.1, h3.2]
  · have hz : splIntegral cubicSpl n (fun i : ℕ => A + i * s) (fun i : ℕ => g (A + i * s)) c e = 0 := by
      unfold splIntegral
      rw [intervalIntegral.integral_symm, neg_eq_zero, intervalIntegral.integral_of_le hce.le]
      refine (setIntegral_congr_fun measurableSet_Ioc fun t ht => ?_).trans (integral_zero _ _)
      refine Set.indicator_of_notMem (fun h => absurd h.2 (not_le.2 ?_)) _
      exact ht.1
    rw [hz, zero_sub, abs_neg]
    refine (htop c hc.1 hce.le hc.2).trans ?_
    nlinarith

/-- C75: **explicit accuracy of `spline_integral` on the package's mass grid**, for functions of mass that may have jumps: with `N` masses
`10**lo, 10**(lo+d), …` below `10**hi`, if `m f(m)` is bounded by `M` and of variation at most `V`, the value is within `(41 M + V) ln(10) d` of the integral of `f`
from the lower limit (or `10**lo`) to `10**hi`. -/
theorem C75_integral {lo hi d : ℝ} (hd : 0 < d) (h5 : 5 * d < hi - lo) {f : ℝ → ℝ} {M V : ℝ}
    (hM : ∀ m ∈ Set.Icc ((10:ℝ) ^ lo) ((10:ℝ) ^ hi), |m * f m| ≤ M)
    (hV : eVariationOn (fun m => m * f m) (Set.Icc ((10:ℝ) ^ lo) ((10:ℝ) ^ hi)) ≤ ENNReal.ofReal V) (hV0 : 0 ≤ V)
    (xmin : Option ℝ) (hx : ∀ x ∈ xmin, 0 < x ∧ x ≤ (10:ℝ) ^ hi) :
    |splineIntegral cubicSpl (arangeN lo hi d) (fun i : ℕ => (10:ℝ) ^ (lo + i * d)) (fun i : ℕ => f ((10:ℝ) ^ (lo + i * d))) xmin none true -
        ∫ m in (max ((10:ℝ) ^ lo) (xmin.getD ((10:ℝ) ^ lo)))..(10:ℝ) ^ hi, f m| ≤ (41 * M + V) * (d * Real.log 10) := by
  have hlh : lo < hi := by linarith
  have h0 : (0:ℝ) < (10:ℝ) ^ lo := by positivity
  have h1 := pow_lt hlh
  obtain ⟨-, ha1, ha2⟩ := arangeN_last hlh hd
  have hs : 0 < d * Real.log 10 := mul_pos hd L10
  set A := lo * Real.log 10 with hA
  set B := hi * Real.log 10 with hB
  have heA : Real.exp A = 10 ^ lo := (ten_pow lo).symm
  have heB : Real.exp B = 10 ^ hi := (ten_pow hi).symm
  have hl : A + ((arangeN lo hi d - 1 : ℕ):ℝ) * (d * Real.log 10) < B := by
    have := mul_lt_mul_of_pos_right ha1 L10
    rw [hA, hB]; linarith [this, add_mul lo (((arangeN lo hi d - 1 : ℕ):ℝ) * d) (Real.log 10), mul_assoc (((arangeN lo hi d - 1 : ℕ):ℝ)) d (Real.log 10)]
  have hr : B - d * Real.log 10 ≤ A + ((arangeN lo hi d - 1 : ℕ):ℝ) * (d * Real.log 10) := by
    have := mul_le_mul_of_nonneg_right ha2 L10.le
    rw [hA, hB]; linarith [this, add_mul lo (((arangeN lo hi d - 1 : ℕ):ℝ) * d) (Real.log 10), mul_assoc (((arangeN lo hi d - 1 : ℕ):ℝ)) d (Real.log 10), sub_mul hi d (Real.log 10)]
  have h5' : 5 ≤ arangeN lo hi d := five_le hd h5 ha2
  set g : ℝ → ℝ := fun t => f (Real.exp t) * Real.exp t with hg
  have hmap : Set.MapsTo Real.exp (Set.Icc A B) (Set.Icc ((10:ℝ) ^ lo) ((10:ℝ) ^ hi)) := fun t ht => by
    rw [← heA, ← heB]; exact ⟨Real.exp_le_exp.2 ht.1, Real.exp_le_exp.2 ht.2⟩
  have hgM : ∀ t ∈ Set.Icc A B, |g t| ≤ M := fun t ht => by
    rw [hg]; dsimp only; rw [mul_comm]; exact hM _ (hmap ht)
  have hgV : eVariationOn g (Set.Icc A B) ≤ ENNReal.ofReal V := by
    refine le_trans (le_trans (le_of_eq ?_) (eVariationOn.comp_le_of_monotoneOn (fun m => m * f m) Real.exp (Real.exp_monotone.monotoneOn (Set.Icc A B)) hmap)) hV
    congr 1
    funext t
    rw [hg]; dsimp only [Function.comp]; ring
  have main : ∀ c, (10:ℝ) ^ lo ≤ c → c ≤ (10:ℝ) ^ hi → |splineIntegral cubicSpl (arangeN lo hi d) (fun i : ℕ => (10:ℝ) ^ (lo + i * d))
      (fun i : ℕ => f ((10:ℝ) ^ (lo + i * d))) (some c) none true - ∫ m in c..(10:ℝ) ^ hi, f m| ≤ (41 * M + V) * (d * Real.log 10) := by
    intro c hc0 hc1
    have hcp : 0 < c := h0.trans_le hc0
    have key := spline_error h5' hs hl hr hgM hgV hV0 (c := Real.log c)
      ⟨by rw [hA, ← log_ten_pow]; exact Real.log_le_log h0 hc0, by rw [hB, ← log_ten_pow]; exact Real.log_le_log hcp hc1⟩
    rw [hB, ← log_ten_pow hi, log_subst f hcp hc1] at key
    convert! key using 3
    unfold splineIntegral
    rw [if_pos rfl]
    simp only [mesh_exp, Real.log_exp, Option.elim_none, Option.elim_some]
    congr 1
    funext i
    rw [hg]
    ring
  have hfst : (10:ℝ) ^ (lo + ((0:ℕ):ℝ) * d) = (10:ℝ) ^ lo := by simp
  cases xmin with
  | none =>
    rw [Option.getD_none, max_self]
    have := main _ le_rfl h1.le
    unfold splineIntegral at this ⊢
    simp only [if_true, Option.elim_none, Option.elim_some, hfst] at this ⊢
    exact this
  | some x =>
    obtain ⟨hx0, hx1⟩ := hx x rfl
    rw [Option.getD_some]
    rcases le_total ((10:ℝ) ^ lo) x with h | h
    · rw [max_eq_right h]; exact main x h hx1
    · rw [max_eq_left h, si_xmin_low cubicSpl_lin (mesh_grid lo hd _) _ x hx0 (by rw [hfst]; exact h) _ fun i _ => rfl]
      have := main _ le_rfl h1.le
      unfold splineIntegral at this ⊢
      simp only [if_true, Option.elim_none, Option.elim_some, hfst] at this ⊢
      exact this

/-- a function of halo mass such that `m f(m)` is bounded by `M` and of total variation at most `V` between `10**lo` and `10**hi`. -/
structure Within (lo hi : ℝ) (f : ℝ → ℝ) (M V : ℝ) : Prop where
  bound : ∀ m ∈ Set.Icc ((10:ℝ) ^ lo) ((10:ℝ) ^ hi), |m * f m| ≤ M
  var : eVariationOn (fun m => m * f m) (Set.Icc ((10:ℝ) ^ lo) ((10:ℝ) ^ hi)) ≤ ENNReal.ofReal V
  pos : 0 ≤ V

theorem ratio_error {a a' n n' e e' : ℝ} (ha : |a' - a| ≤ e') (hn : |n' - n| ≤ e) (he : e < n) : |a' / n' - a / n| ≤ (e' + |a / n| * e) / (n - e) := by
  have e0 : 0 ≤ e := (abs_nonneg _).trans hn
  have hn0 : 0 < n := e0.trans_lt he
  have h1 := abs_le.1 hn
  have hn' : n - e ≤ n' := by linarith [h1.1]
  have hp : 0 < n - e := sub_pos.2 he
  have hp' : 0 < n' := hp.trans_le hn'
  have : a' / n' - a / n = ((a' - a) - a / n * (n' - n)) / n' := by field_simp; ring
  rw [this, abs_div, abs_of_pos hp']
  refine div_le_div₀ (add_nonneg ((abs_nonneg _).trans ha) (mul_nonneg (abs_nonneg _) e0)) ?_ hp hn'
  refine (abs_sub _ _).trans (add_le_add ha ?_)
  rw [abs_mul]
  exact mul_le_mul_of_nonneg_left hn (abs_nonneg _)

/-- every integral over halo mass the tracer averages use. -/
theorem mesh_S_error (E : Env) (hE : E.isp = cubicSpl) (h : HM) {lo hi d : ℝ} (hd : 0 < d) (h5 : 5 * d < hi - lo)
    (hcut : h.hod.sharpCut = true → h.hod.mmin < hi) (D B : ℝ → ℝ) (U T Λ : ℕ → ℝ → ℝ) {f : ℝ → ℝ} {M V : ℝ} (hf : Within lo hi f M V) :
    |(mesh h lo hi D B U T Λ d).S E (fun i => f ((mesh h lo hi D B U T Λ d).m i)) (mesh h lo hi D B U T Λ d).tracerMmin -
      ∫ m in tracerLow h.hod ((10:ℝ) ^ lo)..(10:ℝ) ^ hi, f m| ≤ (41 * M + V) * (d * Real.log 10) := by
  rw [tracerLow_eq]
  unfold HM.S
  rw [hE]
  exact C75_integral hd h5 hf.bound hf.var hf.pos _ fun x hx => ⟨(cut_ok hcut x hx).1, (cut_ok hcut x hx).2.le⟩

/-- C75: for every HOD and mass table (`dlog10m = d`, at least five steps) the mean tracer density is within `ε₀ = (41 M + V) ln(10) d` of the documented
integral up to `10**Mmax`, and — as soon as `ε₀` is below that integral — effective bias, satellite fraction and effective mass are within
`(ε + |value| ε₀) / (density - ε₀)` of the documented averages. -/
theorem C75_tracer (E : Env) (hE : E.isp = cubicSpl) (h : HM) {lo hi d : ℝ} (hd : 0 < d) (h5 : 5 * d < hi - lo)
    (hcut : h.hod.sharpCut = true → h.hod.mmin < hi) (D B : ℝ → ℝ) (U T Λ : ℕ → ℝ → ℝ) {M V : ℝ}
    (hN : Within lo hi (fun m => D m * tracerNumber h.hod m) M V) :
    let dens := ∫ m in tracerLow h.hod ((10:ℝ) ^ lo)..(10:ℝ) ^ hi, D m * tracerNumber h.hod m
    let avg := fun F : ℝ → ℝ => (∫ m in tracerLow h.hod ((10:ℝ) ^ lo)..(10:ℝ) ^ hi, F m) / dens
    let ε₀ := (41 * M + V) * (d * Real.log 10)
    let model := mesh h lo hi D B U T Λ d
    |model.meanTracerDen E - dens| ≤ ε₀ ∧
    (ε₀ < dens → ∀ M' V',
      (Within lo hi (fun m => D m * tracerNumber h.hod m * B m) M' V' →
        |model.biasEffTracer E - avg fun m => D m * tracerNumber h.hod m * B m| ≤
          ((41 * M' + V') * (d * Real.log 10) + |avg fun m => D m * tracerNumber h.hod m * B m| * ε₀) / (dens - ε₀)) ∧
      (Within lo hi (fun m => D m * h.hod.satOcc m) M' V' →
        |model.satFrac E - avg fun m => D m * h.hod.satOcc m| ≤
          ((41 * M' + V') * (d * Real.log 10) + |avg fun m => D m * h.hod.satOcc m| * ε₀) / (dens - ε₀)) ∧
      (Within lo hi (fun m => m * D m * tracerNumber h.hod m) M' V' →
        (41 * M' + V') * (d * Real.log 10) < (∫ m in tracerLow h.hod ((10:ℝ) ^ lo)..(10:ℝ) ^ hi, m * D m * tracerNumber h.hod m) →
        |(10:ℝ) ^ model.massEff E - avg fun m => m * D m * tracerNumber h.hod m| ≤
          ((41 * M' + V') * (d * Real.log 10) + |avg fun m => m * D m * tracerNumber h.hod m| * ε₀) / (dens - ε₀))) := by
  intro dens avg ε₀ model
  have h0 : |model.meanTracerDen E - dens| ≤ ε₀ := mesh_S_error E hE h hd h5 hcut D B U T Λ hN
  refine ⟨h0, fun hlt M' V' => ⟨fun hf => ?_, fun hf => ?_, fun hf hpos => ?_⟩⟩
  · exact ratio_error (mesh_S_error E hE h hd h5 hcut D B U T Λ hf) h0 hlt
  · exact ratio_error (mesh_S_error E hE h hd h5 hcut D B U T Λ hf) h0 hlt
  · have hS := mesh_S_error E hE h hd h5 hcut D B U T Λ hf
    have hr := ratio_error hS h0 hlt
    have p1 : 0 < model.meanTracerDen E := by have := (abs_le.1 h0).1; linarith
    have p2 : 0 < model.S E (fun i => model.m i * model.dndm i * model.totOccInt i) model.tracerMmin := by
      have := (abs_le.1 hS).1
      have e : model.S E (fun i => model.m i * model.dndm i * model.totOccInt i) model.tracerMmin =
        (mesh h lo hi D B U T Λ d).S E (fun i => (fun m => m * D m * tracerNumber h.hod m) ((mesh h lo hi D B U T Λ d).m i)) (mesh h lo hi D B U T Λ d).tracerMmin := rfl
      rw [e]
      linarith
    have e : (10:ℝ) ^ model.massEff E = model.S E (fun i => model.m i * model.dndm i * model.totOccInt i) model.tracerMmin / model.meanTracerDen E := by
      unfold HM.massEff HOD.log10 Real.logb
      rw [Real.rpow_def_of_pos (by norm_num : (0:ℝ) < 10), mul_div_cancel₀ _ L10.ne', Real.exp_log (div_pos p2 p1)]
    rw [e]
    exact hr

/-- C75: the effective bias of matter. -/
theorem C75_matter_bias (E : Env) (hE : E.isp = cubicSpl) (h : HM) (hu : h.forceUnity = false) (hr : 0 < h.rhoGtm) {lo hi d : ℝ} (hd : 0 < d) (h5 : 5 * d < hi - lo)
    (D B : ℝ → ℝ) (U T Λ : ℕ → ℝ → ℝ) {M V : ℝ} (hf : Within lo hi (fun m => m * D m * B m) M V) :
    |(mesh h lo hi D B U T Λ d).biasEffMatter E - (∫ m in (10:ℝ) ^ lo..(10:ℝ) ^ hi, m * D m * B m) / h.rhoGtm| ≤ (41 * M + V) * (d * Real.log 10) / h.rhoGtm := by
  have key := C75_integral hd h5 hf.bound hf.var hf.pos none (by simp)
  rw [Option.getD_none, max_self] at key
  have e : (mesh h lo hi D B U T Λ d).biasEffMatter E = splineIntegral cubicSpl (arangeN lo hi d) (fun i : ℕ => (10:ℝ) ^ (lo + i * d))
      (fun i : ℕ => (fun m => m * D m * B m) ((10:ℝ) ^ (lo + i * d))) none none true / h.rhoGtm := by
    unfold HM.biasEffMatter HM.S
    rw [if_neg (by simp [mesh, hu]), hE]
    rfl
  rw [e, ← sub_div, abs_div, abs_of_pos hr]
  exact div_le_div_of_nonneg_right key hr.le

/-- C75: the one-halo power spectrum of matter at every tabulated wavenumber, over the masses the code integrates there. -/
theorem C75_one_halo_power (E : Env) (hE : E.isp = cubicSpl) (h : HM) (hr : h.meanDensity0 ≠ 0) {lo hi d : ℝ} (hd : 0 < d) (h5 : 5 * d < hi - lo)
    (D B : ℝ → ℝ) (U T Λ : ℕ → ℝ → ℝ) (j : ℕ) (hm : h.oneHaloMmin ((10:ℝ) ^ lo) j ≤ (10:ℝ) ^ hi) {M V : ℝ} (hf : Within lo hi (fun m => D m * m ^ 2 * U j m ^ 2) M V) :
    |(mesh h lo hi D B U T Λ d).power1hMatterTab E j -
      (∫ m in h.oneHaloMmin ((10:ℝ) ^ lo) j..(10:ℝ) ^ hi, D m * m ^ 2 * U j m ^ 2) / h.meanDensity0 ^ 2| ≤ (41 * M + V) * (d * Real.log 10) / h.meanDensity0 ^ 2 := by
  have hlo : (10:ℝ) ^ lo ≤ h.oneHaloMmin ((10:ℝ) ^ lo) j := by
    unfold HM.oneHaloMmin
    dsimp only
    split_ifs
    · exact le_max_left _ _
    · exact le_rfl
  have key := C75_integral hd h5 hf.bound hf.var hf.pos (some (h.oneHaloMmin ((10:ℝ) ^ lo) j)) fun x hx => by
    rw [Option.mem_some_iff] at hx; subst hx; exact ⟨lt_of_lt_of_le (by positivity) hlo, hm⟩
  rw [Option.getD_some, max_eq_right hlo] at key
  have e : (mesh h lo hi D B U T Λ d).power1hMatterTab E j = splineIntegral cubicSpl (arangeN lo hi d) (fun i : ℕ => (10:ℝ) ^ (lo + i * d))
      (fun i : ℕ => (fun m => D m * m ^ 2 * U j m ^ 2) ((10:ℝ) ^ (lo + i * d))) (some (h.oneHaloMmin ((10:ℝ) ^ lo) j)) none true / h.meanDensity0 ^ 2 := by
    unfold HM.power1hMatterTab HM.do1halo HM.S
    rw [hE, mesh_m0]
    rfl
  have hp : 0 < h.meanDensity0 ^ 2 := by positivity
  rw [e, ← sub_div, abs_div, abs_of_pos hp]
  exact div_le_div_of_nonneg_right key hp.le

/-- C75: for smooth integrands the error is of second order in the step, but only up to the largest mass of the table: if `f` is twice differentiable and
`|m f + 3 m² f' + m³ f''| ≤ B`, the value is within `(5/4) B (ln(10) d)² ln(m_last / c)` of the integral from `c` to the last mass `m_last`. -/
theorem C75_smooth {lo hi d : ℝ} (hd : 0 < d) (h5 : 5 * d < hi - lo) {f f' f'' : ℝ → ℝ} {B : ℝ}
    (h1 : ∀ m ∈ Set.Icc ((10:ℝ) ^ lo) ((10:ℝ) ^ hi), HasDerivAt f (f' m) m) (h2 : ∀ m ∈ Set.Icc ((10:ℝ) ^ lo) ((10:ℝ) ^ hi), HasDerivAt f' (f'' m) m)
    (hB : ∀ m ∈ Set.Icc ((10:ℝ) ^ lo) ((10:ℝ) ^ hi), |m * f m + 3 * m ^ 2 * f' m + m ^ 3 * f'' m| ≤ B)
    {c : ℝ} (hc : (10:ℝ) ^ lo ≤ c) (hc' : c ≤ (10:ℝ) ^ (lo + ((arangeN lo hi d - 1 : ℕ):ℝ) * d)) :
    |splineIntegral cubicSpl (arangeN lo hi d) (fun i : ℕ => (10:ℝ) ^ (lo + i * d)) (fun i : ℕ => f ((10:ℝ) ^ (lo + i * d))) (some c) none true -
        ∫ m in c..(10:ℝ) ^ (lo + ((arangeN lo hi d - 1 : ℕ):ℝ) * d), f m| ≤
      5 / 4 * B * (d * Real.log 10) ^ 2 * Real.log ((10:ℝ) ^ (lo + ((arangeN lo hi d - 1 : ℕ):ℝ) * d) / c) := by
  have hlh : lo < hi := by linarith
  obtain ⟨-, ha1, ha2⟩ := arangeN_last hlh hd
  have hn : 5 ≤ arangeN lo hi d := five_le hd h5 ha2
  set n := arangeN lo hi d with hnd
  have hs : 0 < d * Real.log 10 := mul_pos hd L10
  set s := d * Real.log 10 with hsd
  set A := lo * Real.log 10 with hA
  set x : ℕ → ℝ := fun i : ℕ => A + i * s with hx
  have hcp : 0 < c := lt_of_lt_of_le (by positivity) hc
  have elast : (10:ℝ) ^ (lo + ((n - 1 : ℕ):ℝ) * d) = Real.exp (x (n - 1)) := mesh_exp lo d (n - 1)
  rw [elast] at hc' ⊢
  have hx0 : x 0 = A := by simp [hx]
  have lc0 : x 0 ≤ Real.log c := by rw [hx0, hA, ← log_ten_pow]; exact Real.log_le_log (by positivity) hc
  have lc1 : Real.log c ≤ x (n - 1) := by rw [← Real.log_exp (x (n - 1))]; exact Real.log_le_log hcp hc'
  set g : ℝ → ℝ := fun t => f (Real.exp t) * Real.exp t with hg
  have hmap : ∀ t ∈ Set.Icc (x 0) (x (n - 1)), Real.exp t ∈ Set.Icc ((10:ℝ) ^ lo) ((10:ℝ) ^ hi) := fun t ht => by
    refine ⟨?_, ?_⟩
    · rw [ten_pow, ← hA, ← hx0]; exact Real.exp_le_exp.2 ht.1
    · refine (Real.exp_le_exp.2 ht.2).trans ?_
      rw [← elast]
      exact Real.rpow_le_rpow_of_exponent_le (by norm_num) ha1.le
  have d1 : ∀ t ∈ Set.Icc (x 0) (x (n - 1)), HasDerivAt g (f' (Real.exp t) * Real.exp t ^ 2 + f (Real.exp t) * Real.exp t) t := fun t ht =>
    (((h1 _ (hmap t ht)).comp t (Real.hasDerivAt_exp t)).mul (Real.hasDerivAt_exp t)).congr_deriv (by simp only [Function.comp]; ring)
  have d2 : ∀ t ∈ Set.Icc (x 0) (x (n - 1)), HasDerivAt (fun t => f' (Real.exp t) * Real.exp t ^ 2 + f (Real.exp t) * Real.exp t)
      (Real.exp t * f (Real.exp t) + 3 * Real.exp t ^ 2 * f' (Real.exp t) + Real.exp t ^ 3 * f'' (Real.exp t)) t := fun t ht =>
    ((((h2 _ (hmap t ht)).comp t (Real.hasDerivAt_exp t)).mul ((Real.hasDerivAt_exp t).pow 2)).add
      (((h1 _ (hmap t ht)).comp t (Real.hasDerivAt_exp t)).mul (Real.hasDerivAt_exp t))).congr_deriv (by simp only [Function.comp, Pi.pow_apply]; push_cast; ring)
  have hinc : ∀ i k : ℕ, i < k → k < n → x i < x k := lin_inc A hs n
  have hstep : ∀ i : ℕ, x (i + 1) - x i = s := fun i => by simp only [hx]; push_cast; ring
  have acc : ∀ t ∈ Set.Icc (x 0) (x (n - 1)), |cubicSpl n x (fun i => g (x i)) t - g t| ≤ 5 / 4 * B * s ^ 2 := by
    intro t ht
    obtain ⟨j, hj, j1, j2⟩ := bracket (by omega : 2 ≤ n) ht.1 ht.2
    have := C62_accuracy hn hinc (ρ := 1) (by rw [hstep 0, hstep 1, one_mul])
      (by
        have e1 : x (n - 1) - x (n - 2) = s := by rw [← hstep (n - 2), show n - 2 + 1 = n - 1 by omega]
        have e2 : x (n - 2) - x (n - 3) = s := by rw [← hstep (n - 3), show n - 3 + 1 = n - 2 by omega]
        rw [e1, e2, one_mul])
      (fun t ht => (d1 t ht).hasDerivWithinAt) (fun t ht => (d2 t ht).hasDerivWithinAt) (fun t ht => hB _ (hmap t ht)) hj j1 j2
    rw [hstep] at this
    refine this.trans (le_of_eq ?_)
    ring
  have e : splineIntegral cubicSpl n (fun i : ℕ => (10:ℝ) ^ (lo + i * d)) (fun i : ℕ => f ((10:ℝ) ^ (lo + i * d))) (some c) none true =
      ∫ t in Real.log c..x (n - 1), cubicSpl n x (fun i => g (x i)) t := by
    rw [← splIntegral_inside lc1 (by rw [← hx0]; exact lc0) le_rfl]
    unfold splineIntegral
    rw [if_pos rfl]
    simp only [mesh_exp, Real.log_exp, Option.elim_none, Option.elim_some]
    congr 1
    funext i
    rw [hg]
    ring
  have hgc : ContinuousOn g (Set.Icc (x 0) (x (n - 1))) := fun t ht => (d1 t ht).continuousAt.continuousWithinAt
  have hgi : IntervalIntegrable g volume (Real.log c) (x (n - 1)) := by
    refine ContinuousOn.intervalIntegrable (hgc.mono ?_)
    rw [Set.uIcc_of_le lc1]; exact Set.Icc_subset_Icc_left lc0
  have e2 : ∫ m in c..Real.exp (x (n - 1)), f m = ∫ t in Real.log c..x (n - 1), g t := by
    rw [← log_subst f hcp hc', Real.log_exp]
  rw [e, e2, ← intervalIntegral.integral_sub ((cubicSpl_lin.cont n x _ hinc).intervalIntegrable _ _) hgi]
  have := intervalIntegral.norm_integral_le_of_norm_le_const (a := Real.log c) (b := x (n - 1)) (f := fun t => cubicSpl n x (fun i => g (x i)) t - g t)
    (C := 5 / 4 * B * s ^ 2) fun t ht => by
      rw [Set.uIoc_of_le lc1] at ht
      exact acc t ⟨lc0.trans ht.1.le, ht.2⟩
  rw [Real.norm_eq_abs, abs_of_nonneg (sub_nonneg.2 lc1)] at this
  rw [Real.log_div (Real.exp_pos _).ne' hcp.ne', Real.log_exp]
  exact this

/-- C75: the first order cannot be improved: the mass table stops one step short of `10**Mmax`, so for `f = 1/m` and a range of exactly `K` steps the value is
too small by exactly `ln(10) d`. -/
theorem C75_first_order {lo d : ℝ} (hd : 0 < d) {K : ℕ} (hK : 6 ≤ K) :
    (∫ m in (10:ℝ) ^ lo..(10:ℝ) ^ (lo + K * d), 1 / m) -
      splineIntegral cubicSpl (arangeN lo (lo + K * d) d) (fun i : ℕ => (10:ℝ) ^ (lo + i * d)) (fun i : ℕ => 1 / (10:ℝ) ^ (lo + i * d)) none none true =
    d * Real.log 10 := by
  have hN : arangeN lo (lo + K * d) d = K := by
    unfold arangeN
    rw [show (lo + K * d - lo) / d = (K:ℝ) by field_simp; ring]
    exact Nat.ceil_natCast K
  have hs : 0 < d * Real.log 10 := mul_pos hd L10
  have hfst : (10:ℝ) ^ (lo + ((0:ℕ):ℝ) * d) = (10:ℝ) ^ lo := by simp
  have hc1 : (10:ℝ) ^ lo ≤ (10:ℝ) ^ (lo + ((K - 1 : ℕ):ℝ) * d) := by
    refine Real.rpow_le_rpow_of_exponent_le (by norm_num) ?_
    nlinarith [Nat.cast_nonneg (α := ℝ) (K - 1)]
  have hlt : 5 * d < lo + K * d - lo := by
    have : (6:ℝ) ≤ K := by exact_mod_cast hK
    nlinarith
  have der : ∀ m ∈ Set.Icc ((10:ℝ) ^ lo) ((10:ℝ) ^ (lo + K * d)), m ≠ 0 := fun m hm => (lt_of_lt_of_le (by positivity) hm.1).ne'
  have key := C75_smooth hd hlt (f := fun m => 1 / m) (f' := fun m => -1 / m ^ 2) (f'' := fun m => 2 / m ^ 3) (B := 0)
    (fun m hm => ((hasDerivAt_inv (der m hm)).congr_deriv (by field_simp)).congr_of_eventuallyEq (Eventually.of_forall fun t => one_div t))
    (fun m hm => by
      have h0 := der m hm
      have := (((hasDerivAt_id m).pow 2).inv (pow_ne_zero 2 h0)).const_mul (-1:ℝ)
      refine (this.congr_deriv ?_).congr_of_eventuallyEq (Eventually.of_forall fun t => ?_)
      · simp only [id, Pi.pow_apply]; field_simp; push_cast; ring
      · simp [div_eq_mul_inv])
    (fun m hm => by
      have h0 := der m hm
      rw [show m * (1 / m) + 3 * m ^ 2 * (-1 / m ^ 2) + m ^ 3 * (2 / m ^ 3) = 0 by field_simp; ring, abs_zero])
    (c := (10:ℝ) ^ lo) le_rfl (by rw [hN]; exact hc1)
  rw [hN] at key
  have e : splineIntegral cubicSpl K (fun i : ℕ => (10:ℝ) ^ (lo + i * d)) (fun i : ℕ => 1 / (10:ℝ) ^ (lo + i * d)) none none true =
      ∫ m in (10:ℝ) ^ lo..(10:ℝ) ^ (lo + ((K - 1 : ℕ):ℝ) * d), 1 / m := by
    have h0 := abs_nonpos_iff.1 (key.trans (le_of_eq (by ring)))
    rw [← sub_eq_zero, ← h0]
    unfold splineIntegral
    simp only [if_true, Option.elim_none, Option.elim_some, hfst]
  rw [hN, e, integral_one_div_of_pos (by positivity) (by positivity), integral_one_div_of_pos (by positivity) (by positivity),
    Real.log_div (by positivity) (by positivity), Real.log_div (by positivity) (by positivity), log_ten_pow, log_ten_pow, log_ten_pow,
    Nat.cast_sub (by omega)]
  push_cast
  ring

theorem Within.of_monotone {lo hi : ℝ} (hlh : lo ≤ hi) {f : ℝ → ℝ} (h : MonotoneOn (fun m => m * f m) (Set.Icc ((10:ℝ) ^ lo) ((10:ℝ) ^ hi)))
    (h0 : 0 ≤ (10:ℝ) ^ lo * f ((10:ℝ) ^ lo)) : Within lo hi f ((10:ℝ) ^ hi * f ((10:ℝ) ^ hi)) ((10:ℝ) ^ hi * f ((10:ℝ) ^ hi)) := by
  have hle : (10:ℝ) ^ lo ≤ (10:ℝ) ^ hi := Real.rpow_le_rpow_of_exponent_le (by norm_num) hlh
  have ml : (10:ℝ) ^ lo ∈ Set.Icc ((10:ℝ) ^ lo) ((10:ℝ) ^ hi) := ⟨le_rfl, hle⟩
  have mh : (10:ℝ) ^ hi ∈ Set.Icc ((10:ℝ) ^ lo) ((10:ℝ) ^ hi) := ⟨hle, le_rfl⟩
  refine ⟨fun m hm => ?_, ?_, h0.trans (h ml mh hle)⟩
  · rw [abs_of_nonneg (h0.trans (h ml hm hm.1))]
    exact h hm mh hm.2
  · have := h.eVariationOn_eq ml mh
    rw [Set.inter_self] at this
    exact this.le.trans (ENNReal.ofReal_le_ofReal (by linarith))

/-- a bound on the variation from a bound on every difference. -/
theorem var_le {f P : ℝ → ℝ} {a b : ℝ} (hab : a ≤ b) (h : ∀ u ∈ Set.Icc a b, ∀ v ∈ Set.Icc a b, u ≤ v → |f v - f u| ≤ P v - P u) :
    eVariationOn f (Set.Icc a b) ≤ ENNReal.ofReal (P b - P a) := by
  refine iSup_le fun ⟨n, u, hu, us⟩ => ?_
  dsimp only
  have h0 : ∀ i, 0 ≤ P (u (i + 1)) - P (u i) := fun i => (abs_nonneg _).trans (h _ (us i) _ (us (i + 1)) (hu (Nat.le_succ i)))
  calc ∑ i ∈ range n, edist (f (u (i + 1))) (f (u i)) ≤ ∑ i ∈ range n, ENNReal.ofReal (P (u (i + 1)) - P (u i)) := by
        refine sum_le_sum fun i _ => ?_
        rw [edist_dist, Real.dist_eq]
        exact ENNReal.ofReal_le_ofReal (h _ (us i) _ (us (i + 1)) (hu (Nat.le_succ i)))
    _ = ENNReal.ofReal (∑ i ∈ range n, (P (u (i + 1)) - P (u i))) := (ENNReal.ofReal_sum_of_nonneg fun i _ => h0 i).symm
    _ ≤ ENNReal.ofReal (P b - P a) := by
        refine ENNReal.ofReal_le_ofReal ?_
        rw [sum_range_sub (fun i => P (u i))]
        have h1 := (abs_nonneg _).trans (h _ (us n) _ ⟨hab, le_rfl⟩ (us n).2)
        have h2 := (abs_nonneg _).trans (h _ ⟨le_rfl, hab⟩ _ (us 0) (us 0).1)
        linarith

/-- a mass function whose number per logarithmic mass decreases, times an occupation that increases. -/
theorem Within.of_mul {lo hi : ℝ} (hlh : lo ≤ hi) {D N : ℝ → ℝ} (h0 : ∀ m ∈ Set.Icc ((10:ℝ) ^ lo) ((10:ℝ) ^ hi), 0 ≤ D m ∧ 0 ≤ N m)
    (hD : AntitoneOn (fun m => m * D m) (Set.Icc ((10:ℝ) ^ lo) ((10:ℝ) ^ hi))) (hN : MonotoneOn N (Set.Icc ((10:ℝ) ^ lo) ((10:ℝ) ^ hi))) :
    Within lo hi (fun m => D m * N m) ((10:ℝ) ^ lo * D (10 ^ lo) * N (10 ^ hi)) (2 * ((10:ℝ) ^ lo * D (10 ^ lo) * N (10 ^ hi))) := by
  have hle : (10:ℝ) ^ lo ≤ (10:ℝ) ^ hi := Real.rpow_le_rpow_of_exponent_le (by norm_num) hlh
  have ml : (10:ℝ) ^ lo ∈ Set.Icc ((10:ℝ) ^ lo) ((10:ℝ) ^ hi) := ⟨le_rfl, hle⟩
  have mh : (10:ℝ) ^ hi ∈ Set.Icc ((10:ℝ) ^ lo) ((10:ℝ) ^ hi) := ⟨hle, le_rfl⟩
  have hm0 : ∀ m ∈ Set.Icc ((10:ℝ) ^ lo) ((10:ℝ) ^ hi), 0 ≤ m := fun m hm => le_trans (by positivity) hm.1
  set W := (10:ℝ) ^ lo * D (10 ^ lo) with hW
  set N1 := N ((10:ℝ) ^ hi) with hN1
  have hW0 : 0 ≤ W := mul_nonneg (by positivity) (h0 _ ml).1
  have hN0 : 0 ≤ N1 := (h0 _ mh).2
  have hDW : ∀ m ∈ Set.Icc ((10:ℝ) ^ lo) ((10:ℝ) ^ hi), 0 ≤ m * D m ∧ m * D m ≤ W := fun m hm => ⟨mul_nonneg (hm0 m hm) (h0 m hm).1, hD ml hm hm.1⟩
  have hNN : ∀ m ∈ Set.Icc ((10:ℝ) ^ lo) ((10:ℝ) ^ hi), 0 ≤ N m ∧ N m ≤ N1 := fun m hm => ⟨(h0 m hm).2, hN hm mh hm.2⟩
  refine ⟨fun m hm => ?_, ?_, by positivity⟩
  · rw [← mul_assoc, abs_of_nonneg (mul_nonneg (hDW m hm).1 (hNN m hm).1)]
    exact mul_le_mul (hDW m hm).2 (hNN m hm).2 (hNN m hm).1 hW0
  · refine (var_le (P := fun m => W * N m - N1 * (m * D m)) hle fun u hu v hv huv => ?_).trans (ENNReal.ofReal_le_ofReal ?_)
    · have a1 : v * D v ≤ u * D u := hD hu hv huv
      have a2 := hN hu hv huv
      have e : v * (D v * N v) - u * (D u * N u) = u * D u * (N v - N u) - N v * (u * D u - v * D v) := by ring
      have p1 : u * D u * (N v - N u) ≤ W * (N v - N u) := mul_le_mul_of_nonneg_right (hDW u hu).2 (sub_nonneg.2 a2)
      have p2 : N v * (u * D u - v * D v) ≤ N1 * (u * D u - v * D v) := mul_le_mul_of_nonneg_right (hNN v hv).2 (sub_nonneg.2 a1)
      have p3 : 0 ≤ u * D u * (N v - N u) := mul_nonneg (hDW u hu).1 (sub_nonneg.2 a2)
      have p4 : 0 ≤ N v * (u * D u - v * D v) := mul_nonneg (hNN v hv).1 (sub_nonneg.2 a1)
      rw [e, abs_le]
      constructor <;> linarith
    · have b1 := mul_nonneg hW0 (hNN _ ml).1
      have b2 := mul_nonneg hN0 (hDW _ mh).1
      nlinarith

/-- C75: for every HOD whose expected number of tracers increases with mass, and a mass function whose number per logarithmic mass does not increase: the
error of the mean tracer density is at most `43` times the largest number of haloes per e-fold, times the largest occupation, times the step. -/
theorem C75_increasing_hod (E : Env) (hE : E.isp = cubicSpl) (h : HM) {lo hi d : ℝ} (hd : 0 < d) (h5 : 5 * d < hi - lo)
    (hcut : h.hod.sharpCut = true → h.hod.mmin < hi) (D B : ℝ → ℝ) (U T Λ : ℕ → ℝ → ℝ)
    (h0 : ∀ m ∈ Set.Icc ((10:ℝ) ^ lo) ((10:ℝ) ^ hi), 0 ≤ D m ∧ 0 ≤ tracerNumber h.hod m)
    (hD : AntitoneOn (fun m => m * D m) (Set.Icc ((10:ℝ) ^ lo) ((10:ℝ) ^ hi))) (hN : MonotoneOn (tracerNumber h.hod) (Set.Icc ((10:ℝ) ^ lo) ((10:ℝ) ^ hi))) :
    |(mesh h lo hi D B U T Λ d).meanTracerDen E - ∫ m in tracerLow h.hod ((10:ℝ) ^ lo)..(10:ℝ) ^ hi, D m * tracerNumber h.hod m| ≤
      43 * ((10:ℝ) ^ lo * D (10 ^ lo)) * tracerNumber h.hod (10 ^ hi) * (d * Real.log 10) := by
  refine (C75_tracer E hE h hd h5 hcut D B U T Λ (Within.of_mul (by linarith) h0 hD hN)).1.trans (le_of_eq ?_)
  ring

/-- C75: the default HOD, with jumps at `10**M_min`. -/
theorem C75_default (E : Env) (hE : E.isp = cubicSpl) (h : HM) (p : ZehaviP) (central : Bool) (hh : h.hod = zehavi05 p central) (ha : 0 ≤ p.alpha) {lo hi d : ℝ} (hd : 0 < d)
    (h5 : 5 * d < hi - lo) (hcut : p.M_min < hi) (D B : ℝ → ℝ) (U T Λ : ℕ → ℝ → ℝ) (h0 : ∀ m ∈ Set.Icc ((10:ℝ) ^ lo) ((10:ℝ) ^ hi), 0 ≤ D m)
    (hD : AntitoneOn (fun m => m * D m) (Set.Icc ((10:ℝ) ^ lo) ((10:ℝ) ^ hi))) :
    |(mesh h lo hi D B U T Λ d).meanTracerDen E - ∫ m in tracerLow h.hod ((10:ℝ) ^ lo)..(10:ℝ) ^ hi, D m * tracerNumber h.hod m| ≤
      43 * ((10:ℝ) ^ lo * D (10 ^ lo)) * (1 + ((10:ℝ) ^ hi / 10 ^ p.M_1) ^ p.alpha) * (d * Real.log 10) := by
  have hlh : lo < hi := by linarith
  have hcm : ∀ u v : ℝ, u ≤ v → zehaviCen p.M_min u ≤ zehaviCen p.M_min v := fun u v huv => by
    unfold zehaviCen
    split_ifs with a b b
    · exact le_rfl
    · norm_num
    · exact absurd (huv.trans_lt b) a
    · exact le_rfl
  have hc01 : ∀ u : ℝ, 0 ≤ zehaviCen p.M_min u ∧ zehaviCen p.M_min u ≤ 1 := fun u => by
    unfold zehaviCen
    split_ifs <;> norm_num
  have hsm : ∀ u v : ℝ, 0 < u → u ≤ v → zehaviSat p.M_1 p.alpha u ≤ zehaviSat p.M_1 p.alpha v := fun u v hu huv =>
    Real.rpow_le_rpow (by positivity) (by gcongr) ha
  have hs0 : ∀ u : ℝ, 0 < u → 0 ≤ zehaviSat p.M_1 p.alpha u := fun u hu => Real.rpow_nonneg (by positivity) _
  have hpos : ∀ m ∈ Set.Icc ((10:ℝ) ^ lo) ((10:ℝ) ^ hi), 0 < m := fun m hm => lt_of_lt_of_le (by positivity) hm.1
  have hnum : ∀ m, tracerNumber h.hod m = if central then 1 + zehaviCen p.M_min m * zehaviSat p.M_1 p.alpha m
      else zehaviCen p.M_min m + zehaviSat p.M_1 p.alpha m := fun m => by
    rw [hh]
    cases central <;> simp [tracerNumber, zehavi05, poisson, satelliteOccupation]
  have hN0 : ∀ m, 0 < m → 0 ≤ tracerNumber h.hod m := fun m hm => by
    rw [hnum]
    have := mul_nonneg (hc01 m).1 (hs0 m hm)
    split_ifs
    · linarith
    · exact add_nonneg (hc01 m).1 (hs0 m hm)
  have key := C75_increasing_hod E hE h hd h5 (fun _ => by rw [hh]; exact hcut) D B U T Λ
    (fun m hm => ⟨h0 m hm, hN0 m (hpos m hm)⟩) hD fun u hu v hv huv => by
      rw [hnum, hnum]
      split_ifs
      · have := mul_le_mul (hcm u v huv) (hsm u v (hpos u hu) huv) (hs0 u (hpos u hu)) (hc01 v).1
        linarith
      · exact add_le_add (hcm u v huv) (hsm u v (hpos u hu) huv)
  refine key.trans ?_
  have hW : 0 ≤ (10:ℝ) ^ lo * D (10 ^ lo) := mul_nonneg (by positivity) (h0 _ ⟨le_rfl, (pow_lt hlh).le⟩)
  have hl : 0 ≤ d * Real.log 10 := (mul_pos hd L10).le
  have hle : tracerNumber h.hod (10 ^ hi) ≤ 1 + ((10:ℝ) ^ hi / 10 ^ p.M_1) ^ p.alpha := by
    rw [hnum]
    have s0 := hs0 ((10:ℝ) ^ hi) (by positivity)
    have c1 := hc01 ((10:ℝ) ^ hi)
    change _ ≤ 1 + zehaviSat p.M_1 p.alpha (10 ^ hi)
    split_ifs
    · nlinarith
    · linarith
  exact mul_le_mul_of_nonneg_right (mul_le_mul_of_nonneg_left hle (by positivity)) hl

/-- the conditions of C75_default and C75_tracer: the default parameters, a jump inside the mass range, and steps that are small enough. -/
example : ∃ d : ℝ, 0 < d ∧ 5 * d < (15:ℝ) - 10 ∧ ({} : ZehaviP).M_min < 15 ∧ 0 ≤ ({} : ZehaviP).alpha ∧
    AntitoneOn (fun m : ℝ => m * (1 / m ^ 2)) (Set.Icc ((10:ℝ) ^ (10:ℝ)) ((10:ℝ) ^ (15:ℝ))) ∧
    43 * ((10:ℝ) ^ (10:ℝ) * (1 / ((10:ℝ) ^ (10:ℝ)) ^ 2)) * (1 + ((10:ℝ) ^ (15:ℝ) / 10 ^ ({} : ZehaviP).M_1) ^ ({} : ZehaviP).alpha) * (d * Real.log 10) < 1 := by
  set K := 43 * ((10:ℝ) ^ (10:ℝ) * (1 / ((10:ℝ) ^ (10:ℝ)) ^ 2)) * (1 + ((10:ℝ) ^ (15:ℝ) / 10 ^ ({} : ZehaviP).M_1) ^ ({} : ZehaviP).alpha) with hK
  have K0 : 0 ≤ K := by rw [hK]; positivity
  refine ⟨min (1 / 2) (1 / (2 * (K * Real.log 10 + 1))), ?_, ?_, by norm_num, by norm_num, ?_, ?_⟩
  · have := L10; positivity
  · have := min_le_left (1 / 2 : ℝ) (1 / (2 * (K * Real.log 10 + 1))); linarith
  · intro u hu v hv huv
    have u0 : 0 < u := lt_of_lt_of_le (by positivity) hu.1
    have v0 : 0 < v := u0.trans_le huv
    dsimp only
    rw [show v * (1 / v ^ 2) = 1 / v by field_simp, show u * (1 / u ^ 2) = 1 / u by field_simp]
    exact one_div_le_one_div_of_le u0 huv
  · have h1 := min_le_right (1 / 2 : ℝ) (1 / (2 * (K * Real.log 10 + 1)))
    have h2 : 0 ≤ K * Real.log 10 := mul_nonneg K0 L10.le
    have h3 := mul_le_mul_of_nonneg_left h1 h2
    have h4 : K * Real.log 10 * (1 / (2 * (K * Real.log 10 + 1))) < 1 := by
      rw [mul_one_div, div_lt_one (by linarith)]; linarith
    calc K * (min (1 / 2) (1 / (2 * (K * Real.log 10 + 1))) * Real.log 10) = K * Real.log 10 * min (1 / 2) (1 / (2 * (K * Real.log 10 + 1))) := by ring
      _ < 1 := h3.trans_lt h4

/-- and a smooth integrand for C75_smooth. -/
example : ∀ m ∈ Set.Icc ((10:ℝ) ^ (10:ℝ)) ((10:ℝ) ^ (15:ℝ)), |m * 1 + 3 * m ^ 2 * 0 + m ^ 3 * 0| ≤ (10:ℝ) ^ (15:ℝ) := fun m hm => by
  rw [mul_one, mul_zero, mul_zero, add_zero, add_zero, abs_of_pos (lt_of_lt_of_le (by positivity) hm.1)]
  exact hm.2

end Halomod.HaloModel
