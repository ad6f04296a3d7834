import Verif.Lemmas.Ogata
import Verif.Props.Tools2
import Verif.Lemmas.SplInt
import Mathlib.Analysis.SpecialFunctions.Pow.Asymptotics
import Mathlib.MeasureTheory.Measure.Lebesgue.Integral
import Mathlib.Analysis.SpecialFunctions.ImproperIntegrals

/-!
# C65: the Hankel transforms converge to the exact three-dimensional Fourier transform

`xi(r) = 1/(2 pi²) ∫ P(k) k² sin(kr)/(kr) dk` and `P(k) = 4 pi ∫ xi(r) r² sin(kr)/(kr) dr`.
-/
namespace Halomod.Tools

open Finset Filter Topology MeasureTheory

noncomputable section

/-- the integrand seen by the quadrature, as a function of the node `x = k r`. -/
def ogG (f : ℝ → ℝ) (r x : ℝ) : ℝ := x * Real.sin x * f (x / r)

theorem ogata_sum_eq (h r : ℝ) (f : ℝ → ℝ) (N : ℕ) :
    ∑ n ∈ Ico 1 (1 + N), hterm h r (fun k => some (f k)) n
      = ∑ n ∈ range N, Real.pi * ogDpsi (h * (n + 1 : ℕ)) * ogG f r (ogX h (n + 1)) := by
  rw [Finset.sum_Ico_eq_sum_range]
  refine Finset.sum_congr (by simp) fun n _ => ?_
  unfold hterm ogW nan0 ogG
  rw [add_comm 1 n, Option.getD_some]
  ring

theorem ogG_continuous {f : ℝ → ℝ} {r : ℝ} (hr : 0 < r) {X : Set ℝ} (hX : X ⊆ Set.Ici 0)
    (hf : ContinuousOn f (Set.Ioi 0)) (h0 : Tendsto (fun k => k ^ 2 * f k) (𝓝[>] 0) (𝓝 0)) :
    ContinuousOn (ogG f r) X := by
  refine ContinuousOn.mono ?_ hX
  intro x hx
  rcases (show (0:ℝ) ≤ x from hx).eq_or_lt with rfl | hpos
  · -- at the origin
    have hg0 : ogG f r 0 = 0 := by simp [ogG]
    have hd : Tendsto (fun x : ℝ => x / r) (𝓝[>] 0) (𝓝[>] 0) := by
      refine tendsto_nhdsWithin_iff.mpr ⟨?_, ?_⟩
      · have : Tendsto (fun x : ℝ => x / r) (𝓝 0) (𝓝 (0 / r)) := tendsto_id.div_const r
        rw [zero_div] at this
        exact tendsto_nhdsWithin_of_tendsto_nhds this
      · filter_upwards [self_mem_nhdsWithin] with x hx
        exact div_pos hx hr
    have h1 := (h0.comp hd).norm.const_mul (r ^ 2)
    rw [norm_zero, mul_zero] at h1
    have h2 : Tendsto (ogG f r) (𝓝[>] 0) (𝓝 0) := by
      refine squeeze_zero_norm' ?_ h1
      filter_upwards [self_mem_nhdsWithin] with x hx
      have hx' : 0 < x := hx
      simp only [Function.comp_apply, ogG, norm_mul, Real.norm_eq_abs]
      have hs : |Real.sin x| ≤ |x| := Real.abs_sin_le_abs
      have e : r ^ 2 * (|(x / r) ^ 2| * |f (x / r)|) = |x| * |x| * |f (x / r)| := by
        rw [abs_of_nonneg (by positivity : 0 ≤ (x / r) ^ 2), abs_of_pos hx']
        field_simp
      rw [e]
      gcongr
    rw [ContinuousWithinAt, hg0, ← Set.Ioi_insert, nhdsWithin_insert]
    refine Tendsto.sup ?_ h2
    rw [tendsto_pure_left]
    intro s hs
    rw [hg0]
    exact mem_of_mem_nhds hs
  · refine ContinuousAt.continuousWithinAt ?_
    unfold ogG
    refine ContinuousAt.mul (by fun_prop) ?_
    have hfc : ContinuousAt f (x / r) := hf.continuousAt (Ioi_mem_nhds (by positivity))
    exact ContinuousAt.comp (f := fun x : ℝ => x / r) hfc (by fun_prop)

/-- the loop of `hankel_transform` ends after one chunk. -/
theorem one_chunk {h atol rtol r : ℝ} {f : ℝ → Option ℝ} {c : ℕ} {s' : HState}
    (hr : WhileRuns (hCond h atol rtol) (hBody h r f c) hInit s') (ha : atol < 100) (hn : 1 < ogNmax h)
    (hstop : ¬ hCond h atol rtol (hBody h r f c hInit)) : s' = hBody h r f c hInit := by
  refine whileRuns_unique hr ⟨1, rfl, hstop, ?_⟩
  intro i hi
  have : i = 0 := by omega
  subst this
  refine ⟨?_, hn⟩
  simp only [Function.iterate_zero, id, hInit, isclose]
  norm_num
  exact ha

theorem ogNmax_gt_one : ∀ᶠ h : ℝ in 𝓝[>] 0, 1 < ogNmax h := by
  have hs : ∀ᶠ h : ℝ in 𝓝[>] 0, h < 1 :=
    mem_nhdsWithin_of_mem_nhds (Iio_mem_nhds (zero_lt_one : (0:ℝ) < 1))
  filter_upwards [hs, self_mem_nhdsWithin] with h h1 hh
  have hh' : 0 < h := hh
  rw [← Nat.succ_le_iff]
  apply ((C11_node_limit hh').1 _).mpr
  push_cast
  nlinarith

theorem ogG_integral (f : ℝ → ℝ) {r : ℝ} (hr : 0 < r) :
    (∫ x in Set.Ioi (0:ℝ), ogG f r x) = r ^ 3 * ∫ k in Set.Ioi (0:ℝ), f k * k ^ 2 * (Real.sin (k * r) / (k * r)) := by
  have h := integral_comp_mul_left_Ioi (ogG f r) 0 hr
  rw [mul_zero, smul_eq_mul] at h
  have h2 : (∫ x in Set.Ioi (0:ℝ), ogG f r x) = r * ∫ k in Set.Ioi (0:ℝ), ogG f r (r * k) := by
    rw [h]; field_simp
  rw [h2, pow_succ', mul_assoc, ← integral_const_mul (r ^ 2)]
  refine congrArg (r * ·) (setIntegral_congr_fun (measurableSet_Ioi (a := (0:ℝ))) fun k hk => ?_)
  have hk' : 0 < k := hk
  simp only [ogG]
  have e : r * k / r = k := by field_simp
  rw [e, mul_comm r k]
  field_simp

/-- **C65**, the r-space transform: with the chunk covering the available nodes, refining the step makes
`hankel_transform(f, r, "r", h, chunksize)` converge to
`xi(r) = 1/(2 pi²) ∫₀^∞ f(k) k² sin(kr)/(kr) dk`.
`f` has to be continuous for `k > 0`, no steeper than `k^-2` at the origin, and the integrand has to have a
decreasing integrable majorant. -/
theorem C65_hankel_r_partial {f G : ℝ → ℝ} {r : ℝ} (hr : 0 < r) (hf : ContinuousOn f (Set.Ioi 0))
    (h0 : Tendsto (fun k => k ^ 2 * f k) (𝓝[>] 0) (𝓝 0)) (hG : AntitoneOn G (Set.Ici 0))
    (hGi : IntegrableOn G (Set.Ioi 0)) (hfG : ∀ k, 0 < k → |f k * k * Real.sin (k * r)| ≤ G k)
    {atol rtol : ℝ} (ha : atol < 100) (chunk : ℝ → ℕ) (hc : ∀ h, 0 < h → ogNmax h ≤ chunk h)
    (v : ℝ → ℝ) (hv : ∀ h, 0 < h → HankelReturns h atol rtol r (fun k => some (f k)) (chunk h) ['r'] (some (v h))) :
    Tendsto v (𝓝[>] 0)
      (𝓝 (1 / (2 * Real.pi ^ 2) * ∫ k in Set.Ioi (0:ℝ), f k * k ^ 2 * (Real.sin (k * r) / (k * r)))) := by
  have hpi := Real.pi_pos
  have hmaj : ∀ x, 0 < x → |ogG f r x| ≤ r * G (x / r) := by
    intro x hx
    have := hfG (x / r) (by positivity)
    have e : x / r * r = x := by field_simp
    rw [e] at this
    have e2 : ogG f r x = r * (f (x / r) * (x / r) * Real.sin x) := by
      unfold ogG; field_simp
    rw [e2, abs_mul, abs_of_pos hr]
    gcongr
  have hGr : AntitoneOn (fun x => r * G (x / r)) (Set.Ici 0) := by
    intro x hx y hy hxy
    have : G (y / r) ≤ G (x / r) := hG (div_nonneg hx hr.le) (div_nonneg hy hr.le) (by gcongr)
    show r * G (y / r) ≤ r * G (x / r)
    gcongr
  have hGri : IntegrableOn (fun x => r * G (x / r)) (Set.Ioi 0) := by
    refine Integrable.const_mul ?_ r
    have := (integrableOn_Ioi_comp_mul_left_iff G 0 (inv_pos.mpr hr)).mpr (by rw [mul_zero]; exact hGi)
    refine this.congr_fun (fun x _ => ?_) measurableSet_Ioi
    show G (r⁻¹ * x) = G (x / r)
    rw [div_eq_inv_mul]
  have key := ogata_full (ogG_continuous hr (fun _ hx => hx) hf h0) hGr hGri hmaj (ogNmax_tendsto hc)
  rw [ogG_integral f hr] at key
  have key2 := key.const_mul (1 / (2 * Real.pi ^ 2 * r ^ 3))
  have e : 1 / (2 * Real.pi ^ 2 * r ^ 3) * (r ^ 3 * ∫ k in Set.Ioi (0:ℝ), f k * k ^ 2 * (Real.sin (k * r) / (k * r)))
      = 1 / (2 * Real.pi ^ 2) * ∫ k in Set.Ioi (0:ℝ), f k * k ^ 2 * (Real.sin (k * r) / (k * r)) := by
    field_simp
  rw [e] at key2
  refine key2.congr' ?_
  filter_upwards [self_mem_nhdsWithin, ogNmax_gt_one] with h hh hn
  have hh' : 0 < h := hh
  rcases hv h hh' with ⟨_, h1⟩ | ⟨_, s, hrun, e1⟩
  · simp at h1
  have hs := one_chunk hrun ha hn (by
    rintro ⟨_, h2⟩
    simp only [hBody, hInit] at h2
    have := hc h hh'
    omega)
  simp only [Option.some.injEq] at e1
  rw [e1, hNorm, if_pos rfl, hs]
  simp only [hBody, hInit, zero_add]
  rw [ogata_sum_eq]
  field_simp

/-- **C65**, the k-space transform converges to `4 pi ∫₀^∞ xi(r) r² sin(kr)/(kr) dr`. -/
theorem C65_hankel_k_partial {f G : ℝ → ℝ} {k : ℝ} (hk : 0 < k) (hf : ContinuousOn f (Set.Ioi 0))
    (h0 : Tendsto (fun r => r ^ 2 * f r) (𝓝[>] 0) (𝓝 0)) (hG : AntitoneOn G (Set.Ici 0))
    (hGi : IntegrableOn G (Set.Ioi 0)) (hfG : ∀ r, 0 < r → |f r * r * Real.sin (r * k)| ≤ G r)
    {atol rtol : ℝ} (ha : atol < 100) (chunk : ℝ → ℕ) (hc0 : ∀ h, 0 < chunk h) (hc : ∀ h, 0 < h → ogNmax h ≤ chunk h)
    (v : ℝ → ℝ) (hv : ∀ h, 0 < h → HankelReturns h atol rtol k (fun r => some (f r)) (chunk h) ['k'] (some (v h))) :
    Tendsto v (𝓝[>] 0)
      (𝓝 (4 * Real.pi * ∫ r in Set.Ioi (0:ℝ), f r * r ^ 2 * (Real.sin (r * k) / (r * k)))) := by
  have hpi := Real.pi_pos
  choose w hw using fun h => C11_returns h atol rtol k (fun r => some (f r)) (chunk h) (hc0 h) ['r'] (Or.inr rfl)
  have key := (C65_hankel_r_partial hk hf h0 hG hGi hfG ha chunk hc w (fun h _ => hw h)).const_mul (8 * Real.pi ^ 3)
  have e : 8 * Real.pi ^ 3 * (1 / (2 * Real.pi ^ 2) * ∫ r in Set.Ioi (0:ℝ), f r * r ^ 2 * (Real.sin (r * k) / (r * k)))
      = 4 * Real.pi * ∫ r in Set.Ioi (0:ℝ), f r * r ^ 2 * (Real.sin (r * k) / (r * k)) := by
    generalize (∫ r in Set.Ioi (0:ℝ), f r * r ^ 2 * (Real.sin (r * k) / (r * k))) = I
    field_simp
    ring
  rw [e] at key
  refine key.congr' ?_
  filter_upwards [self_mem_nhdsWithin] with h hh
  exact (C11_k_is_8pi3_r h atol rtol k _ (chunk h) hk (w h) (v h) (hw h) (hv h hh)).symm

/-- the first chunk collapses onto the origin. -/
theorem first_chunk_vanishes {f : ℝ → ℝ} {r : ℝ} (hr : 0 < r) (hf : ContinuousOn f (Set.Ioi 0))
    (h0 : Tendsto (fun k => k ^ 2 * f k) (𝓝[>] 0) (𝓝 0)) (chunk : ℕ) :
    Tendsto (fun h => ∑ n ∈ Ico 1 (1 + chunk), hterm h r (fun k => some (f k)) n) (𝓝[>] 0) (𝓝 0) := by
  have hcont := ogG_continuous hr (X := Set.Ici 0) (fun _ hx => hx) hf h0
  have hz : ∀ c : ℝ, Tendsto (fun h : ℝ => h * c) (𝓝[>] 0) (𝓝 0) := fun c => by
    have : Tendsto (fun h : ℝ => h * c) (𝓝 0) (𝓝 (0 * c)) := tendsto_id.mul_const c
    rw [zero_mul] at this
    exact tendsto_nhdsWithin_of_tendsto_nhds this
  simp_rw [ogata_sum_eq]
  rw [show 𝓝 (0:ℝ) = 𝓝 (∑ n ∈ range chunk, 0) by simp]
  refine tendsto_finsetSum _ fun n _ => ?_
  have h1 : Tendsto (fun h : ℝ => ogDpsi (h * (n + 1 : ℕ))) (𝓝[>] 0) (𝓝 0) := by
    have := ((ogDpsi_contDiff.continuous.tendsto 0).comp (hz ((n + 1 : ℕ) : ℝ)))
    rwa [ogDpsi_zero] at this
  have h2 : Tendsto (fun h : ℝ => ogX h (n + 1)) (𝓝[>] 0) (𝓝[≥] 0) := by
    refine tendsto_nhdsWithin_iff.mpr ⟨?_, ?_⟩
    · have hc : Continuous ogTau := by
        unfold ogTau ogS
        have : Real.tanh = fun x => Real.sinh x / Real.cosh x := funext Real.tanh_eq_sinh_div_cosh
        have ht : Continuous Real.tanh := by
          rw [this]
          exact Real.continuous_sinh.div Real.continuous_cosh fun x => (Real.cosh_pos x).ne'
        exact ht.comp ((continuous_const.mul Real.continuous_sinh).div_const 2)
      have h3 := (((hc.tendsto 0).comp (hz ((n + 1 : ℕ) : ℝ)))).const_mul (Real.pi * ((n + 1 : ℕ) : ℝ))
      rwa [ogTau_zero, mul_zero] at h3
    · filter_upwards [self_mem_nhdsWithin] with h hh
      exact ogX_nonneg hh _
  have h3 : Tendsto (fun h : ℝ => ogG f r (ogX h (n + 1))) (𝓝[>] 0) (𝓝 0) := by
    have := (hcont 0 (Set.mem_Ici.mpr le_rfl)).tendsto.comp h2
    rwa [show ogG f r 0 = 0 by simp [ogG]] at this
  have := (h1.const_mul Real.pi).mul h3
  rwa [mul_zero] at this

/-- **C65 finding**: with a fixed `chunksize` and a positive absolute tolerance (the defaults are 100 and
1e-8), refining the step makes the result of `hankel_transform` tend to *zero*, whatever the function: the
first chunk then only covers a vanishing neighbourhood of the origin, its contribution is below the
tolerance, and the loop takes that for convergence. -/
theorem C65_refining_gives_zero {f : ℝ → ℝ} {r : ℝ} (hr : 0 < r) (hf : ContinuousOn f (Set.Ioi 0))
    (h0 : Tendsto (fun k => k ^ 2 * f k) (𝓝[>] 0) (𝓝 0)) {atol rtol : ℝ} (ha0 : 0 < atol) (ha : atol < 100)
    (hrt : 0 ≤ rtol) (chunk : ℕ) (v : ℝ → ℝ)
    (hv : ∀ h, 0 < h → HankelReturns h atol rtol r (fun k => some (f k)) chunk ['r'] (some (v h))) :
    Tendsto v (𝓝[>] 0) (𝓝 0) := by
  have hpi := Real.pi_pos
  have key := first_chunk_vanishes hr hf h0 chunk
  have key2 := key.div_const (2 * Real.pi ^ 2 * r ^ 3)
  rw [zero_div] at key2
  refine key2.congr' ?_
  have hsm := key.eventually (Metric.ball_mem_nhds 0 ha0)
  filter_upwards [self_mem_nhdsWithin, ogNmax_gt_one, hsm] with h hh hn hs
  have hh' : 0 < h := hh
  rcases hv h hh' with ⟨_, h1⟩ | ⟨_, s, hrun, e1⟩
  · simp at h1
  have hs' := one_chunk hrun ha hn (by
    rintro ⟨h2, _⟩
    apply h2
    simp only [hBody, hInit, isclose, zero_add, zero_sub, abs_neg]
    rw [Real.dist_eq, sub_zero] at hs
    have := abs_nonneg (∑ n ∈ Ico 1 (1 + chunk), hterm h r (fun k => some (f k)) n)
    nlinarith)
  simp only [Option.some.injEq] at e1
  rw [e1, hNorm, if_pos rfl, hs']
  simp only [hBody, hInit, zero_add]

/-! ## `power_to_corr_ogata` -/

/-- the spectrum the routine integrates: the table, interpolated inside and extrapolated outside. -/
def ogP (spl : Spl) (tb : Table) (lo hi : Bool) (k : ℝ) : ℝ := (pfunc spl tb lo hi (Real.log k)).getD 0

open Classical in
theorem pfunc_continuous {spl : Spl} (hs : SplLin spl) {tb : Table} (lo hi : Bool) (hn : 2 ≤ tb.n)
    (hg : Grid tb.n tb.k) : Continuous fun t => (pfunc spl tb lo hi t).getD 0 := by
  have hinc := hg.log_inc
  have hab : Real.log (tb.k 0) < Real.log (tb.k (tb.n - 1)) := hinc 0 (tb.n - 1) (by omega) (by omega)
  have hsp := hs.cont tb.n (fun i => Real.log (tb.k i)) tb.p hinc
  have hs0 := hs.interp tb.n (fun i => Real.log (tb.k i)) tb.p hinc 0 (by omega)
  have hs1 := hs.interp tb.n (fun i => Real.log (tb.k i)) tb.p hinc (tb.n - 1) (by omega)
  set a := Real.log (tb.k 0) with ha
  set b := Real.log (tb.k (tb.n - 1)) with hb
  let lower : ℝ → ℝ := fun t => if posLo tb lo then
      Real.exp ((Real.log (tb.p 1) - Real.log (tb.p 0)) * (t - a) / (Real.log (tb.k 1) - a) + Real.log (tb.p 0))
    else (tb.p 1 - tb.p 0) * (t - a) / (Real.log (tb.k 1) - a) + tb.p 0
  let upper : ℝ → ℝ := fun t => if posHi tb hi then
      Real.exp ((Real.log (tb.p (tb.n - 1)) - Real.log (tb.p (tb.n - 2))) * (t - b)
        / (b - Real.log (tb.k (tb.n - 2))) + Real.log (tb.p (tb.n - 1)))
    else (tb.p (tb.n - 1) - tb.p (tb.n - 2)) * (t - b) / (b - Real.log (tb.k (tb.n - 2))) + tb.p (tb.n - 1)
  have hlc : Continuous lower := by
    by_cases h : posLo tb lo
    · simp only [lower, if_pos h]; fun_prop
    · simp only [lower, if_neg h]; fun_prop
  have huc : Continuous upper := by
    by_cases h : posHi tb hi
    · simp only [upper, if_pos h]; fun_prop
    · simp only [upper, if_neg h]; fun_prop
  have hla : lower a = tb.p 0 := by
    by_cases h : posLo tb lo
    · simp only [lower, if_pos h]; simp [Real.exp_log h.2.1]
    · simp only [lower, if_neg h]; simp
  have hub : upper b = tb.p (tb.n - 1) := by
    by_cases h : posHi tb hi
    · simp only [upper, if_pos h]; simp [Real.exp_log h.2.2]
    · simp only [upper, if_neg h]; simp
  have e : (fun t => (pfunc spl tb lo hi t).getD 0)
      = fun t => if a ≤ t then (if t ≤ b then spl tb.n (fun i => Real.log (tb.k i)) tb.p t else upper t) else lower t := by
    funext t
    simp only [pfunc]
    by_cases h1 : t < a
    · rw [if_pos h1, if_neg (not_le.mpr h1)]
      by_cases h : posLo tb lo
      · simp only [lower, if_pos h, Option.getD_some]; rfl
      · simp only [lower, if_neg h, Option.getD_some]; rfl
    · rw [if_neg h1, if_pos (not_lt.mp h1)]
      by_cases h2 : t > b
      · rw [if_pos h2, if_neg (not_le.mpr h2)]
        by_cases h : posHi tb hi
        · have h3 : ¬ (tb.p (tb.n - 1) ≤ 0 ∨ tb.p (tb.n - 2) ≤ 0) := by
            rintro (h3 | h3)
            · linarith [h.2.2]
            · linarith [h.2.1]
          simp only [upper, if_pos h, if_neg h3, Option.getD_some]; rfl
        · simp only [upper, if_neg h, Option.getD_some]; rfl
      · rw [if_neg h2, if_pos (not_lt.mp h2), Option.getD_some]
  rw [e]
  refine Continuous.if_le ?_ hlc continuous_const continuous_id ?_
  · exact Continuous.if_le hsp huc continuous_id continuous_const (by
      rintro t rfl
      rw [hub]; exact hs1)
  · rintro t rfl
    rw [if_pos hab.le, hla]; exact hs0

theorem ogP_continuous {spl : Spl} (hs : SplLin spl) {tb : Table} (lo hi : Bool) (hn : 2 ≤ tb.n)
    (hg : Grid tb.n tb.k) : ContinuousOn (ogP spl tb lo hi) (Set.Ioi 0) := by
  have := (pfunc_continuous hs lo hi hn hg).comp_continuousOn
    (Real.continuousOn_log.mono fun x (hx : 0 < x) => hx.ne')
  exact this

/-- the low-`k` extension is not steeper than `k^-2`: the condition under which the integrand vanishes at
the origin (automatic when the extension is linear in `log k`). -/
def LowSlope (tb : Table) (lo : Bool) : Prop :=
  posLo tb lo → -2 < (Real.log (tb.p 1) - Real.log (tb.p 0)) / (Real.log (tb.k 1) - Real.log (tb.k 0))

theorem ogP_origin {spl : Spl} {tb : Table} (lo hi : Bool) (hn : 2 ≤ tb.n)
    (hg : Grid tb.n tb.k) (hsl : LowSlope tb lo) :
    Tendsto (fun k => k ^ 2 * ogP spl tb lo hi k) (𝓝[>] 0) (𝓝 0) := by
  have hk0 := hg.pos 0 (by omega)
  have hsmall : ∀ᶠ k : ℝ in 𝓝[>] 0, k < tb.k 0 := mem_nhdsWithin_of_mem_nhds (Iio_mem_nhds hk0)
  by_cases h : posLo tb lo
  · have hs := hsl h
    set s := (Real.log (tb.p 1) - Real.log (tb.p 0)) / (Real.log (tb.k 1) - Real.log (tb.k 0)) with hs'
    have h1 : Tendsto (fun k : ℝ => tb.p 0 / tb.k 0 ^ s * k ^ (2 + s)) (𝓝[>] 0) (𝓝 0) := by
      have := (Real.continuousAt_rpow_const 0 (2 + s) (Or.inr (by linarith))).tendsto
      rw [Real.zero_rpow (by linarith)] at this
      have := (tendsto_nhdsWithin_of_tendsto_nhds (s := Set.Ioi 0) this).const_mul (tb.p 0 / tb.k 0 ^ s)
      rwa [mul_zero] at this
    refine h1.congr' ?_
    filter_upwards [hsmall, self_mem_nhdsWithin] with k hk hkp
    have hkp' : 0 < k := hkp
    unfold ogP
    rw [(pfunc_extrapolation spl tb lo hi hn hg.pos hg.inc (Real.log k)).1 (Real.log_lt_log hkp' hk) h,
      Option.getD_some, Real.exp_log hkp', ← hs', Real.div_rpow hkp'.le hk0.le, Real.rpow_add hkp',
      Real.rpow_two]
    ring
  · have h1 : Tendsto (fun k : ℝ => k * (Real.log k * k)) (𝓝[>] 0) (𝓝 0) := by
      have h2 : Tendsto (fun k : ℝ => Real.log k * k) (𝓝[>] 0) (𝓝 0) := by
        simpa using tendsto_log_mul_rpow_nhdsGT_zero (zero_lt_one : (0:ℝ) < 1)
      have h3 : Tendsto (fun k : ℝ => k) (𝓝[>] 0) (𝓝 0) := tendsto_nhdsWithin_of_tendsto_nhds tendsto_id
      simpa using h3.mul h2
    have h2 : Tendsto (fun k : ℝ => k ^ 2) (𝓝[>] 0) (𝓝 0) := by
      have : Tendsto (fun k : ℝ => k ^ 2) (𝓝 0) (𝓝 (0 ^ 2)) := tendsto_id.pow 2
      rw [zero_pow (by norm_num)] at this
      exact tendsto_nhdsWithin_of_tendsto_nhds this
    set A := (tb.p 1 - tb.p 0) / (Real.log (tb.k 1) - Real.log (tb.k 0)) with hA
    have h3 := (h1.const_mul A).add (h2.const_mul (tb.p 0 - A * Real.log (tb.k 0)))
    rw [mul_zero, mul_zero, add_zero] at h3
    refine h3.congr' ?_
    filter_upwards [hsmall, self_mem_nhdsWithin] with k hk hkp
    have hkp' : 0 < k := hkp
    unfold ogP
    rw [(pfunc_extrapolation spl tb lo hi hn hg.pos hg.inc (Real.log k)).2.2.1 (Real.log_lt_log hkp' hk) h,
      Option.getD_some, hA]
    ring

theorem ogCum_eq (spl : Spl) (tb : Table) (lo hi : Bool) (h r : ℝ) (i : ℕ) :
    ogCum spl tb lo hi h r i
      = ∑ n ∈ range (i + 1), Real.pi * ogDpsi (h * (n + 1 : ℕ)) * ogG (ogP spl tb lo hi) r (ogX h (n + 1)) := by
  unfold ogCum
  rw [← Finset.Ico_succ_right_eq_Icc, Finset.sum_Ico_eq_sum_range]
  refine Finset.sum_congr (by simp) fun n _ => ?_
  unfold ogW ogG ogP
  rw [add_comm 1 n]
  ring

theorem ogG_interval (f : ℝ → ℝ) {r : ℝ} (hr : 0 < r) {K : ℝ} (hK : 0 ≤ K) :
    (∫ x in (0:ℝ)..(r * K), ogG f r x) = r ^ 3 * ∫ k in (0:ℝ)..K, f k * k ^ 2 * (Real.sin (k * r) / (k * r)) := by
  have h := intervalIntegral.integral_comp_mul_left (a := 0) (b := K) (ogG f r) hr.ne'
  rw [mul_zero, smul_eq_mul] at h
  have h2 : (∫ x in (0:ℝ)..(r * K), ogG f r x) = r * ∫ k in (0:ℝ)..K, ogG f r (r * k) := by
    rw [h]; field_simp
  rw [h2, pow_succ', mul_assoc, ← intervalIntegral.integral_const_mul (r ^ 2)]
  refine congrArg (r * ·) (intervalIntegral.integral_congr fun k hk => ?_)
  rw [Set.uIcc_of_le hK] at hk
  simp only [ogG]
  have e : r * k / r = k := by field_simp
  rw [e, mul_comm r k]
  rcases hk.1.eq_or_lt with h0 | hk'
  · rw [← h0]; simp
  · field_simp

/-- **C65**, `power_to_corr_ogata`: refining the step, for any tabulated spectrum whose low-`k` extension is
not steeper than `k^-2` and any positive absolute tolerance, the result converges to
`1/(2 pi²) ∫₀^kmax P(k) k² sin(kr)/(kr) dk`, where `P` is the spline through the table, extrapolated below.
Only the tabulated range counts: the documented extension above `kmax` does not enter in the limit. -/
theorem C65_ogata_partial {spl : Spl} (hs : SplLin spl) {tb : Table} (lo hi : Bool) (hn : 2 ≤ tb.n)
    (hg : Grid tb.n tb.k) (hsl : LowSlope tb lo) {r : ℝ} (hr : 0 < r) {atol rtol : ℝ} (ha : 0 < atol) (hrt : 0 ≤ rtol) :
    Tendsto (fun h => powerToCorrOgata spl tb lo hi h atol rtol r) (𝓝[>] 0)
      (𝓝 (1 / (2 * Real.pi ^ 2) * ∫ k in (0:ℝ)..(tb.k (tb.n - 1)),
        ogP spl tb lo hi k * k ^ 2 * (Real.sin (k * r) / (k * r)))) := by
  have hpi := Real.pi_pos
  have hkm := hg.pos (tb.n - 1) (by omega)
  set kmax := tb.k (tb.n - 1) with hkmax
  set P := ogP spl tb lo hi with hP
  set X := r * kmax with hXdef
  have hX : 0 < X := by positivity
  have hcont : ContinuousOn (ogG P r) (Set.Ici 0) :=
    ogG_continuous hr (fun _ hx => hx) (ogP_continuous hs lo hi hn hg) (ogP_origin lo hi hn hg hsl)
  have hmain := ogata_compact hX.le (hcont.mono Set.Icc_subset_Ici_self)
  have ht := lastNode_small X hX.le
  -- the first node above `kmax` lies within 1 of it, and its term is negligible
  obtain ⟨K, hK, δ, hδ, hlip⟩ := ogDpsi_lip
  obtain ⟨B, hB⟩ := isCompact_Icc.exists_bound_of_continuousOn (hcont.mono (fun x (hx : x ∈ Set.Icc 0 (X + 1)) => hx.1))
  have hB0 : 0 ≤ B := le_trans (norm_nonneg _) (hB 0 ⟨le_rfl, by linarith⟩)
  have hterm0 : Tendsto (fun h => Real.pi * ogDpsi (h * ((lastNode h X + 1 : ℕ) : ℝ)) * ogG P r (ogX h (lastNode h X + 1)))
      (𝓝[>] 0) (𝓝 0) := by
    have hd : Tendsto (fun h => Real.pi * ogDpsi (h * ((lastNode h X + 1 : ℕ) : ℝ)) * B) (𝓝[>] 0) (𝓝 0) := by
      have := ((ogDpsi_contDiff.continuous.tendsto 0).comp ht)
      rw [ogDpsi_zero] at this
      have := (this.const_mul Real.pi).mul_const B
      rwa [mul_zero, zero_mul] at this
    refine squeeze_zero_norm' ?_ hd
    have hmesh := ht.eventually (gt_mem_nhds (show 0 < 1 / (Real.pi * K) by positivity))
    filter_upwards [self_mem_nhdsWithin, ht.eventually (gt_mem_nhds hδ), hmesh] with h hh h1 h2
    have hh' : 0 < h := hh
    have hsp := lastNode_spec hh' hX.le
    obtain ⟨ξ, hξ, e⟩ := ogX_cell hh' (lastNode h X)
    have hξ0 : 0 < ξ := lt_of_le_of_lt (by positivity) hξ.1
    have h3 := hlip ξ 0 (by rw [abs_of_pos hξ0]; linarith [hξ.2]) (by rw [abs_zero]; exact hδ)
    rw [ogDpsi_zero, sub_zero, sub_zero, abs_of_pos hξ0] at h3
    rw [lt_div_iff₀ (by positivity)] at h2
    have h4 : Real.pi * ogDpsi ξ ≤ Real.pi * (K * (h * ((lastNode h X + 1 : ℕ) : ℝ))) := by
      have : ogDpsi ξ ≤ K * (h * ((lastNode h X + 1 : ℕ) : ℝ)) :=
        le_trans (le_abs_self _) (le_trans h3 (by gcongr; exact hξ.2.le))
      gcongr
    have h5 : ogX h (lastNode h X + 1) ≤ X + 1 := by nlinarith [hsp.1]
    have h6 := hB (ogX h (lastNode h X + 1)) ⟨ogX_nonneg hh' _, h5⟩
    have h7 : 0 ≤ ogDpsi (h * ((lastNode h X + 1 : ℕ) : ℝ)) := ogDpsi_nonneg (by positivity)
    rw [norm_mul, Real.norm_eq_abs, abs_of_nonneg (by positivity : 0 ≤ Real.pi * ogDpsi (h * ((lastNode h X + 1 : ℕ) : ℝ)))]
    gcongr
  have hfull := hmain.add hterm0
  rw [add_zero, ogG_interval P hr hkm.le] at hfull
  have hfull2 := hfull.const_mul (1 / (2 * Real.pi ^ 2 * r ^ 3))
  have e : 1 / (2 * Real.pi ^ 2 * r ^ 3) * (r ^ 3 * ∫ k in (0:ℝ)..kmax, P k * k ^ 2 * (Real.sin (k * r) / (k * r)))
      = 1 / (2 * Real.pi ^ 2) * ∫ k in (0:ℝ)..kmax, P k * k ^ 2 * (Real.sin (k * r) / (k * r)) := by
    generalize (∫ k in (0:ℝ)..kmax, P k * k ^ 2 * (Real.sin (k * r) / (k * r))) = I
    field_simp
  rw [e] at hfull2
  refine hfull2.congr' ?_
  have hfar := (ogNmax_tendsto (N := ogNmax) (fun h _ => le_rfl)).eventually (eventually_gt_atTop X)
  have hsm := hterm0.eventually (Metric.ball_mem_nhds 0 ha)
  have hfirst : ∀ᶠ h in 𝓝[>] 0, ogX h 1 ≤ X := by
    have hc : Tendsto (fun h : ℝ => ogX h 1) (𝓝[>] 0) (𝓝 0) := by
      have hc : Continuous fun h : ℝ => ogX h 1 := by
        unfold ogX ogS
        have : Real.tanh = fun x => Real.sinh x / Real.cosh x := funext Real.tanh_eq_sinh_div_cosh
        have ht : Continuous Real.tanh := by
          rw [this]
          exact Real.continuous_sinh.div Real.continuous_cosh fun x => (Real.cosh_pos x).ne'
        exact continuous_const.mul (ht.comp ((continuous_const.mul (Real.continuous_sinh.comp
          (continuous_id.mul continuous_const))).div_const 2))
      have := hc.tendsto 0
      have e0 : ogX 0 1 = 0 := by simp [ogX, ogS]
      rw [e0] at this
      exact tendsto_nhdsWithin_of_tendsto_nhds this
    exact (hc.eventually (gt_mem_nhds hX)).mono fun h hh => hh.le
  filter_upwards [self_mem_nhdsWithin, hfar, hsm, hfirst] with h hh h1 h2 h3
  have hh' : 0 < h := hh
  have hmono := ogX_strictMono hh'
  have hsp := lastNode_spec hh' hX.le
  have hm1 : 1 ≤ lastNode h X := by
    by_contra hlt
    have h0 : lastNode h X = 0 := by omega
    rw [h0, zero_add] at hsp
    linarith [hsp.2]
  have hmN : lastNode h X < ogNmax h := by
    by_contra hge
    push Not at hge
    have := hmono.monotone hge
    linarith [hsp.1]
  have hgt : ∀ x : ℝ, x / r > kmax ↔ X < x := fun x => by
    rw [gt_iff_lt, lt_div_iff₀ hr, hXdef, mul_comm]
  have hix : ogIndx tb h r = lastNode h X := by
    unfold ogIndx
    refine le_antisymm (Nat.sInf_le ⟨hmN, (hgt _).mpr hsp.2⟩) ?_
    refine le_csInf ⟨_, hmN, (hgt _).mpr hsp.2⟩ ?_
    rintro i ⟨_, hi⟩
    rw [hgt] at hi
    by_contra hlt
    push Not at hlt
    have := hmono.monotone (show i + 1 ≤ lastNode h X by omega)
    linarith [hsp.1]
  unfold powerToCorrOgata ogSum
  dsimp only
  have hnall : ¬ ∀ i < ogNmax h, ogX h (i + 1) / r ≤ kmax := by
    intro hall
    have := hall _ hmN
    have h4 := (hgt _).mpr hsp.2
    linarith
  rw [if_neg hnall, hix, if_neg (by omega : ¬ lastNode h X = 0), ogCum_eq, ogCum_eq,
    show lastNode h X - 1 + 1 = lastNode h X by omega, sum_range_succ]
  have hclose : isclose atol rtol
      (∑ n ∈ range (lastNode h X), Real.pi * ogDpsi (h * (n + 1 : ℕ)) * ogG (ogP spl tb lo hi) r (ogX h (n + 1))
        + Real.pi * ogDpsi (h * ((lastNode h X + 1 : ℕ) : ℝ)) * ogG (ogP spl tb lo hi) r (ogX h (lastNode h X + 1)))
      (∑ n ∈ range (lastNode h X), Real.pi * ogDpsi (h * (n + 1 : ℕ)) * ogG (ogP spl tb lo hi) r (ogX h (n + 1))) := by
    unfold isclose
    rw [add_sub_cancel_left]
    rw [Real.dist_eq, sub_zero] at h2
    have := abs_nonneg (∑ n ∈ range (lastNode h X), Real.pi * ogDpsi (h * (n + 1 : ℕ)) * ogG (ogP spl tb lo hi) r (ogX h (n + 1)))
    have := mul_nonneg hrt this
    linarith
  rw [if_pos hclose, one_div, inv_mul_eq_div]

/-- **C65**, `corr_to_power_ogata` likewise: `4 pi ∫₀^rmax xi(r) r² sin(kr)/(kr) dr`. -/
theorem C65_corr_to_power_partial {spl : Spl} (hs : SplLin spl) {tb : Table} (lo hi : Bool) (hn : 2 ≤ tb.n)
    (hg : Grid tb.n tb.k) (hsl : LowSlope tb lo) {k : ℝ} (hk : 0 < k) {atol rtol : ℝ} (ha : 0 < atol) (hrt : 0 ≤ rtol) :
    Tendsto (fun h => corrToPowerOgata spl tb lo hi h atol rtol k) (𝓝[>] 0)
      (𝓝 (4 * Real.pi * ∫ r in (0:ℝ)..(tb.k (tb.n - 1)),
        ogP spl tb lo hi r * r ^ 2 * (Real.sin (r * k) / (r * k)))) := by
  have hpi := Real.pi_pos
  have key := (C65_ogata_partial hs lo hi hn hg hsl hk ha hrt).const_mul (8 * Real.pi ^ 3)
  have e : 8 * Real.pi ^ 3 * (1 / (2 * Real.pi ^ 2) * ∫ r in (0:ℝ)..(tb.k (tb.n - 1)),
        ogP spl tb lo hi r * r ^ 2 * (Real.sin (r * k) / (r * k)))
      = 4 * Real.pi * ∫ r in (0:ℝ)..(tb.k (tb.n - 1)),
        ogP spl tb lo hi r * r ^ 2 * (Real.sin (r * k) / (r * k)) := by
    generalize (∫ r in (0:ℝ)..(tb.k (tb.n - 1)), ogP spl tb lo hi r * r ^ 2 * (Real.sin (r * k) / (r * k))) = I
    field_simp
    ring
  rw [e] at key
  exact key

/-! ## The hypotheses are met -/

/-- a spectrum with a sharp end: `max(0, 1 - k)`. -/
def tent (k : ℝ) : ℝ := max 0 (1 - k)

theorem tent_continuous : Continuous tent := by unfold tent; fun_prop

theorem tent_bounds (k : ℝ) (hk : 0 < k) : |tent k * k * Real.sin (k * 1)| ≤ 2 * (1 + k ^ 2)⁻¹ := by
  have hs := Real.abs_sin_le_one (k * 1)
  have ht : 0 ≤ tent k := le_max_left _ _
  rw [abs_mul, abs_of_nonneg (mul_nonneg ht hk.le)]
  have h1 : tent k * k ≤ 2 * (1 + k ^ 2)⁻¹ := by
    rw [← div_eq_mul_inv, le_div_iff₀ (by positivity)]
    rcases le_total k 1 with h | h
    · have : tent k = 1 - k := max_eq_right (by linarith)
      rw [this]
      nlinarith [mul_nonneg hk.le hk.le, mul_nonneg (mul_nonneg hk.le hk.le) hk.le]
    · have : tent k = 0 := max_eq_left (by linarith)
      rw [this]; norm_num
  calc tent k * k * |Real.sin (k * 1)| ≤ tent k * k * 1 := by gcongr
    _ ≤ _ := by linarith

theorem tent_hyps : ContinuousOn tent (Set.Ioi 0) ∧ Tendsto (fun k => k ^ 2 * tent k) (𝓝[>] 0) (𝓝 0) ∧
    AntitoneOn (fun k : ℝ => 2 * (1 + k ^ 2)⁻¹) (Set.Ici 0) ∧
    IntegrableOn (fun k : ℝ => 2 * (1 + k ^ 2)⁻¹) (Set.Ioi 0) := by
  refine ⟨tent_continuous.continuousOn, ?_, ?_, ?_⟩
  · have : Tendsto (fun k => k ^ 2 * tent k) (𝓝 0) (𝓝 (0 ^ 2 * tent 0)) :=
      ((continuous_id.pow 2).mul tent_continuous).tendsto 0
    rw [zero_pow (by norm_num), zero_mul] at this
    exact tendsto_nhdsWithin_of_tendsto_nhds this
  · intro a ha b hb hab
    have ha' : (0:ℝ) ≤ a := ha
    show 2 * (1 + b ^ 2)⁻¹ ≤ 2 * (1 + a ^ 2)⁻¹
    gcongr
  · exact (integrable_inv_one_add_sq.const_mul 2).integrableOn

/-- the exact transform of `tent` at `r = 1` is positive. -/
theorem tent_exact_pos :
    0 < 1 / (2 * Real.pi ^ 2) * ∫ k in Set.Ioi (0:ℝ), tent k * k ^ 2 * (Real.sin (k * 1) / (k * 1)) := by
  have hpi := Real.pi_pos
  have e : (∫ k in Set.Ioi (0:ℝ), tent k * k ^ 2 * (Real.sin (k * 1) / (k * 1)))
      = ∫ k in Set.Ioi (0:ℝ), tent k * k * Real.sin (k * 1) := by
    refine setIntegral_congr_fun (measurableSet_Ioi (a := (0:ℝ))) fun k hk => ?_
    have hk' : 0 < k := hk
    show tent k * k ^ 2 * (Real.sin (k * 1) / (k * 1)) = tent k * k * Real.sin (k * 1)
    field_simp
  rw [e]
  have hnn : ∀ k, 0 < k → 0 ≤ tent k * k * Real.sin (k * 1) := by
    intro k hk
    rcases le_total k 1 with h | h
    · have h1 : 0 ≤ Real.sin (k * 1) := Real.sin_nonneg_of_nonneg_of_le_pi (by linarith) (by linarith [Real.two_le_pi])
      have h2 : 0 ≤ tent k := le_max_left _ _
      positivity
    · have : tent k = 0 := max_eq_left (by linarith)
      rw [this, zero_mul, zero_mul]
  have hpos : 0 < ∫ k in Set.Ioi (0:ℝ), tent k * k * Real.sin (k * 1) := by
    rw [setIntegral_pos_iff_support_of_nonneg_ae]
    · refine lt_of_lt_of_le ?_ (measure_mono (show Set.Ioo (0:ℝ) 1 ⊆ _ from ?_))
      · rw [Real.volume_Ioo]; norm_num
      · intro k hk
        refine ⟨?_, hk.1⟩
        have h1 : 0 < Real.sin (k * 1) := Real.sin_pos_of_pos_of_lt_pi (by linarith [hk.1]) (by linarith [Real.two_le_pi, hk.2])
        have h2 : 0 < tent k := lt_of_lt_of_le (by linarith [hk.2]) (le_max_right _ _)
        have := hk.1
        exact (by positivity : tent k * k * Real.sin (k * 1) ≠ 0)
    · filter_upwards [ae_restrict_mem measurableSet_Ioi] with k hk
      exact hnn k hk
    · refine (tent_hyps.2.2.2).mono' ?_ ?_
      · exact ((tent_continuous.mul continuous_id).mul (by fun_prop)).aestronglyMeasurable
      · filter_upwards [ae_restrict_mem measurableSet_Ioi] with k hk
        exact tent_bounds k hk
  positivity

/-- **C65, the two behaviours side by side** for one spectrum and the default tolerances: with the chunk
covering all nodes the refined result tends to the exact, positive, correlation; with the default chunk of
100 it tends to 0. -/
theorem C65_chunk_matters (v w : ℝ → ℝ)
    (hv : ∀ h, 0 < h → HankelReturns h 1e-8 1e-8 1 (fun k => some (tent k)) (ogNmax h + 1) ['r'] (some (v h)))
    (hw : ∀ h, 0 < h → HankelReturns h 1e-8 1e-8 1 (fun k => some (tent k)) 100 ['r'] (some (w h))) :
    ∃ xi, 0 < xi ∧ Tendsto v (𝓝[>] 0) (𝓝 xi) ∧ Tendsto w (𝓝[>] 0) (𝓝 0) := by
  obtain ⟨h1, h2, h3, h4⟩ := tent_hyps
  exact ⟨_, tent_exact_pos, C65_hankel_r_partial one_pos h1 h2 h3 h4 tent_bounds (by norm_num) (fun h => ogNmax h + 1)
    (fun h _ => by omega) v hv, C65_refining_gives_zero one_pos h1 h2 (by norm_num) (by norm_num) (by norm_num) 100 w hw⟩

/-- such runs exist. -/
example : ∃ v w : ℝ → ℝ,
    (∀ h, 0 < h → HankelReturns h 1e-8 1e-8 1 (fun k => some (tent k)) (ogNmax h + 1) ['r'] (some (v h))) ∧
    (∀ h, 0 < h → HankelReturns h 1e-8 1e-8 1 (fun k => some (tent k)) 100 ['r'] (some (w h))) := by
  choose v hv using fun h => C11_returns h 1e-8 1e-8 1 (fun k => some (tent k)) (ogNmax h + 1) (by omega) ['r'] (Or.inr rfl)
  choose w hw using fun h => C11_returns h 1e-8 1e-8 1 (fun k => some (tent k)) 100 (by omega) ['r'] (Or.inr rfl)
  exact ⟨v, w, fun h _ => hv h, fun h _ => hw h⟩

/-- a table meeting the hypotheses of `C65_ogata_partial`. -/
example : SplLin polySpl ∧ 2 ≤ (Table.mk 3 (fun i => (i:ℝ) + 1) (fun i => 1 / ((i:ℝ) + 1))).n ∧
    Grid 3 (fun i => (i:ℝ) + 1) ∧ LowSlope (Table.mk 3 (fun i => (i:ℝ) + 1) (fun i => 1 / ((i:ℝ) + 1))) true := by
  refine ⟨polySpl_lin, by norm_num, ⟨fun i _ => by positivity, fun i j hij _ => ?_⟩, fun _ => ?_⟩
  · have : (i:ℝ) < j := by exact_mod_cast hij
    linarith
  · have hl : 0 < Real.log (1 + 1) := Real.log_pos (by norm_num)
    simp only [Nat.cast_one, Nat.cast_zero, zero_add, Real.log_one, sub_zero, one_div, inv_one, Real.log_inv]
    rw [neg_div, div_self hl.ne']
    norm_num

end

end Halomod.Tools
