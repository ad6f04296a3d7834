import Verif.Props.Resolution
import Verif.Props.Bound
import Verif.Props.HaloModel3
import Verif.Props.ScaleDep

/-! # C79: small changes of the inputs change the averages and spectra little -/
namespace Halomod.HaloModel

open Finset MeasureTheory Halomod.Tools Halomod.HOD

/-- the integral of the spline through values of at most `ε`, from any point to the last sample. -/
theorem spline_bounded {n : ℕ} (hn : 5 ≤ n) (A : ℝ) {s : ℝ} (hs : 0 < s) {y : ℕ → ℝ} {ε : ℝ} (hy : ∀ i < n, |y i| ≤ ε) (c : ℝ) :
    |splIntegral cubicSpl n (fun i : ℕ => A + i * s) y c (A + ((n - 1 : ℕ):ℝ) * s)| ≤ (n + 40) * s * ε := by
  have hε : 0 ≤ ε := (abs_nonneg _).trans (hy 0 (by omega))
  have hinc := lin_inc A hs n
  have hn0 : (0:ℝ) ≤ n := Nat.cast_nonneg n
  set e := A + ((n - 1 : ℕ):ℝ) * s with he
  have hAe : A ≤ e := by rw [he]; nlinarith [Nat.cast_nonneg (α := ℝ) (n - 1)]
  have main : ∀ c, A ≤ c → c ≤ e → |splIntegral cubicSpl n (fun i : ℕ => A + i * s) y c e| ≤ (n + 40) * s * ε := by
    intro c h1 h2
    have q := cubicSpl_quad_bound n A s y ε c hn hs hy ⟨h1, h2⟩
    rw [← he] at q
    have hl : |splIntegral linSpl n (fun i : ℕ => A + i * s) y c e| ≤ ε * (n * s) := by
      rw [splIntegral_inside h2 h1 (he ▸ le_rfl)]
      have hb : ∀ t ∈ Set.uIoc c e, ‖linSpl n (fun i : ℕ => A + i * s) y t‖ ≤ ε := by
        intro t ht
        rw [Set.uIoc_of_le h2] at ht
        obtain ⟨j, hj, a, b⟩ := inc_panel (n := n) (by omega) (x := fun i : ℕ => A + i * s) (t := t) (by simp; linarith [ht.1]) (by simpa [he] using ht.2)
        rw [linSpl_on n _ y hinc j hj t a b, Real.norm_eq_abs]
        set w := (t - (A + (j:ℝ) * s)) / ((A + ((j + 1 : ℕ):ℝ) * s) - (A + (j:ℝ) * s)) with hw
        have hd : (A + ((j + 1 : ℕ):ℝ) * s) - (A + (j:ℝ) * s) = s := by push_cast; ring
        have w0 : 0 ≤ w := by rw [hw, hd]; exact div_nonneg (by linarith) hs.le
        have w1 : w ≤ 1 := by rw [hw, hd, div_le_one hs]; linarith [hd]
        have y0 := abs_le.1 (hy j (by omega))
        have y1 := abs_le.1 (hy (j + 1) hj)
        rw [abs_le]
        constructor <;> nlinarith [mul_nonneg w0 (sub_nonneg.2 y0.1), mul_nonneg w0 (sub_nonneg.2 y1.1), mul_nonneg w0 (sub_nonneg.2 y0.2), mul_nonneg w0 (sub_nonneg.2 y1.2),
          mul_nonneg (sub_nonneg.2 w1) (sub_nonneg.2 y0.1), mul_nonneg (sub_nonneg.2 w1) (sub_nonneg.2 y0.2)]
      have := intervalIntegral.norm_integral_le_of_norm_le_const hb
      rw [Real.norm_eq_abs, abs_of_nonneg (sub_nonneg.2 h2)] at this
      refine this.trans (mul_le_mul_of_nonneg_left ?_ hε)
      have h3 : ((n - 1 : ℕ):ℝ) ≤ n := by exact_mod_cast Nat.sub_le n 1
      have := mul_le_mul_of_nonneg_right h3 hs.le
      linarith
    rw [abs_le] at q hl ⊢
    constructor <;> nlinarith [q.1, q.2, hl.1, hl.2]
  rcases le_total c A with h | h
  · have := C13_no_extrapolation cubicSpl n (fun i : ℕ => A + i * s) y c e (cubicSpl_lin.cont _ _ _ hinc) (by simpa using h) (by simpa using he.le)
    rw [this]
    simpa using main A le_rfl hAe
  · rcases le_total c e with h' | h'
    · exact main c h h'
    · have := splIntegral_beyond cubicSpl n (fun i : ℕ => A + i * s) y (a := c) h'
      rw [he, this, abs_zero]
      positivity

/-- the masses of `h` are `10**lo, 10**(lo+d), …`, at least five of them: the mass table of the package. -/
structure LogMasses (h : HM) (d : ℝ) : Prop where
  many : 5 ≤ h.nm
  step : 0 < d
  grid : ∃ lo : ℝ, h.m = fun i : ℕ => (10:ℝ) ^ (lo + i * d)

/-- the largest factor by which an integral over halo mass amplifies a change of `m f(m)`: the logarithmic width of the table and forty steps. -/
noncomputable def amp (h : HM) (d : ℝ) : ℝ := (h.nm + 40) * (d * Real.log 10)

section
variable {E : Env} {h h' : HM} {d : ℝ}

theorem amp_pos (g : LogMasses h d) : 0 < amp h d := by
  unfold amp
  have := g.step
  have := L10
  have : (0:ℝ) ≤ h.nm := Nat.cast_nonneg _
  positivity

theorem LogMasses.pos (g : LogMasses h d) (i : ℕ) : 0 < h.m i := by
  obtain ⟨lo, hm⟩ := g.grid
  rw [hm]
  positivity

theorem LogMasses.mesh (g : LogMasses h d) : Grid h.nm h.m := by
  obtain ⟨lo, hm⟩ := g.grid
  rw [hm]
  exact mesh_grid lo g.step _

/-- C79: an integral over halo mass is at most `amp` times the largest `|m f(m)|` in the table, whatever its lower limit. -/
theorem C79_bounded (hE : E.isp = cubicSpl) (g : LogMasses h d) {f : ℕ → ℝ} {ε : ℝ} (hf : ∀ i < h.nm, |h.m i * f i| ≤ ε) (xmin : Option ℝ) :
    |h.S E f xmin| ≤ amp h d * ε := by
  obtain ⟨lo, hm⟩ := g.grid
  unfold HM.S splineIntegral amp
  rw [hE, if_pos rfl]
  have hl : (fun i => Real.log (h.m i)) = fun i : ℕ => lo * Real.log 10 + i * (d * Real.log 10) := by
    funext i
    rw [hm]
    simp only [mesh_exp, Real.log_exp]
  have hlast : Real.log (h.m (h.nm - 1)) = lo * Real.log 10 + ((h.nm - 1 : ℕ):ℝ) * (d * Real.log 10) := congrFun hl (h.nm - 1)
  rw [Option.elim_none, hlast, hl]
  exact spline_bounded g.many _ (mul_pos g.step L10) hf _

/-- C79: two functions of mass that differ little at the tabulated masses have integrals that differ little: the difference is at most `amp` times the largest difference of
`m f(m)`. -/
theorem C79_integrals (hE : E.isp = cubicSpl) (g : LogMasses h d) {f f' : ℕ → ℝ} {ε : ℝ} (hf : ∀ i < h.nm, |h.m i * f' i - h.m i * f i| ≤ ε) (xmin : Option ℝ) :
    |h.S E f' xmin - h.S E f xmin| ≤ amp h d * ε := by
  have hs : SplLin E.isp := hE ▸ cubicSpl_lin
  have e : h.S E f' xmin - h.S E f xmin = h.S E (fun i => f' i + -1 * f i) xmin := by
    have h1 := si_add hs g.mesh f' (fun i => -1 * f i) xmin none
    have h2 := S_smul (h := h) hs (-1) f xmin
    unfold HM.S at h2 ⊢
    rw [h1, h2]
    ring
  rw [e]
  refine C79_bounded hE g (fun i hi => ?_) xmin
  have := hf i hi
  rwa [show h.m i * (f' i + -1 * f i) = h.m i * f' i - h.m i * f i by ring]

/-- two models over the same masses whose integrals start at the same mass. -/
structure SameTable (h h' : HM) : Prop where
  nm : h'.nm = h.nm
  m : h'.m = h.m
  cut : h'.tracerMmin = h.tracerMmin

theorem S_same (t : SameTable h h') (f : ℕ → ℝ) (xmin : Option ℝ) : h'.S E f xmin = h.S E f xmin := by
  unfold HM.S
  rw [t.nm, t.m]

theorem S_tracer_close (hE : E.isp = cubicSpl) (g : LogMasses h d) (t : SameTable h h') {f f' : ℕ → ℝ} {ε : ℝ} (hf : ∀ i < h.nm, |h.m i * f' i - h.m i * f i| ≤ ε) :
    |h'.S E f' h'.tracerMmin - h.S E f h.tracerMmin| ≤ amp h d * ε := by
  rw [S_same t, t.cut]
  exact C79_integrals hE g hf _

theorem ten_massEff (h : HM) (hn : 0 < h.meanTracerDen E) (hM : 0 < h.S E (fun i => h.m i * h.dndm i * h.totOccInt i) h.tracerMmin) :
    (10:ℝ) ^ h.massEff E = h.S E (fun i => h.m i * h.dndm i * h.totOccInt i) h.tracerMmin / h.meanTracerDen E := by
  unfold HM.massEff HOD.log10 Real.logb
  rw [Real.rpow_def_of_pos (by norm_num : (0:ℝ) < 10), mul_div_cancel₀ _ L10.ne', Real.exp_log (div_pos hM hn)]

/-- C79: two models over the same masses (other mass functions, biases, occupations) whose `m dn/dm N(m)` differ by at most `ε` at each tabulated mass: the mean tracer densities
differ by at most `amp ε`; if that is below the density, effective biases, satellite and central fractions and effective masses differ by at most
`amp (δ + |value| ε) / (density - amp ε)`, with `δ` the largest difference of their own integrands. -/
theorem C79_tracer (hE : E.isp = cubicSpl) (g : LogMasses h d) (t : SameTable h h') {ε : ℝ}
    (hN : ∀ i < h.nm, |h.m i * (h'.dndm i * h'.totOccInt i) - h.m i * (h.dndm i * h.totOccInt i)| ≤ ε) :
    |h'.meanTracerDen E - h.meanTracerDen E| ≤ amp h d * ε ∧
    (amp h d * ε < h.meanTracerDen E → ∀ δ,
      ((∀ i < h.nm, |h.m i * (h'.dndm i * h'.totOccInt i * h'.bias i) - h.m i * (h.dndm i * h.totOccInt i * h.bias i)| ≤ δ) →
        |h'.biasEffTracer E - h.biasEffTracer E| ≤ (amp h d * δ + |h.biasEffTracer E| * (amp h d * ε)) / (h.meanTracerDen E - amp h d * ε)) ∧
      ((∀ i < h.nm, |h.m i * (h'.dndm i * h'.hod.satOcc (h.m i)) - h.m i * (h.dndm i * h.hod.satOcc (h.m i))| ≤ δ) →
        |h'.satFrac E - h.satFrac E| ≤ (amp h d * δ + |h.satFrac E| * (amp h d * ε)) / (h.meanTracerDen E - amp h d * ε) ∧
        |h'.cenFrac E - h.cenFrac E| ≤ (amp h d * δ + |h.satFrac E| * (amp h d * ε)) / (h.meanTracerDen E - amp h d * ε)) ∧
      ((∀ i < h.nm, |h.m i * (h.m i * h'.dndm i * h'.totOccInt i) - h.m i * (h.m i * h.dndm i * h.totOccInt i)| ≤ δ) →
        amp h d * δ < h.S E (fun i => h.m i * h.dndm i * h.totOccInt i) h.tracerMmin →
        |(10:ℝ) ^ h'.massEff E - (10:ℝ) ^ h.massEff E| ≤ (amp h d * δ + |(10:ℝ) ^ h.massEff E| * (amp h d * ε)) / (h.meanTracerDen E - amp h d * ε))) := by
  have h0 : |h'.meanTracerDen E - h.meanTracerDen E| ≤ amp h d * ε := S_tracer_close hE g t hN
  refine ⟨h0, fun hlt δ => ⟨fun hf => ?_, fun hf => ?_, fun hf hpos => ?_⟩⟩
  · exact ratio_error (S_tracer_close hE g t hf) h0 hlt
  · have key : |h'.satFrac E - h.satFrac E| ≤ (amp h d * δ + |h.satFrac E| * (amp h d * ε)) / (h.meanTracerDen E - amp h d * ε) := by
      unfold HM.satFrac
      refine ratio_error (S_tracer_close hE g t fun i hi => ?_) h0 hlt
      rw [t.m]
      exact hf i hi
    refine ⟨key, ?_⟩
    unfold HM.cenFrac
    rw [show 1 - h'.satFrac E - (1 - h.satFrac E) = -(h'.satFrac E - h.satFrac E) by ring, abs_neg]
    exact key
  · have e : (fun i => h'.m i * h'.dndm i * h'.totOccInt i) = fun i => h.m i * h'.dndm i * h'.totOccInt i := by rw [t.m]
    have hS : |h'.S E (fun i => h'.m i * h'.dndm i * h'.totOccInt i) h'.tracerMmin - h.S E (fun i => h.m i * h.dndm i * h.totOccInt i) h.tracerMmin| ≤ amp h d * δ := by
      rw [e]
      exact S_tracer_close hE g t hf
    have hε : 0 ≤ amp h d * ε := (abs_nonneg _).trans h0
    have p1 : 0 < h.meanTracerDen E := by linarith
    have p1' : 0 < h'.meanTracerDen E := by linarith [(abs_le.1 h0).1]
    have hδ : 0 ≤ amp h d * δ := (abs_nonneg _).trans hS
    have p2 : 0 < h.S E (fun i => h.m i * h.dndm i * h.totOccInt i) h.tracerMmin := by linarith
    have p2' : 0 < h'.S E (fun i => h'.m i * h'.dndm i * h'.totOccInt i) h'.tracerMmin := by linarith [(abs_le.1 hS).1]
    rw [ten_massEff h' p1' p2', ten_massEff h p1 p2]
    exact ratio_error hS h0 hlt

/-- relative errors of two factors. -/
theorem rel_two {a a' b b' ε M x : ℝ} (hx : 0 ≤ x) (ha : 0 ≤ a) (hb : 0 ≤ b) (hε : 0 ≤ ε) (h1 : |a' - a| ≤ ε * a) (h2 : |b' - b| ≤ ε * b) (hM : x * (a * b) ≤ M) :
    |x * (a' * b') - x * (a * b)| ≤ ((1 + ε) ^ 2 - 1) * M := by
  have h3 : |a'| ≤ (1 + ε) * a := by
    have := abs_sub_abs_le_abs_sub a' a
    rw [abs_of_nonneg ha] at this
    linarith
  have e : x * (a' * b') - x * (a * b) = x * (a' * (b' - b) + (a' - a) * b) := by ring
  rw [e, abs_mul, abs_of_nonneg hx]
  have h4 : |a' * (b' - b) + (a' - a) * b| ≤ ((1 + ε) ^ 2 - 1) * (a * b) := by
    refine (abs_add_le _ _).trans ?_
    rw [abs_mul, abs_mul, abs_of_nonneg hb]
    have i1 := mul_le_mul h3 h2 (abs_nonneg _) (by positivity)
    have i2 := mul_le_mul_of_nonneg_right h1 hb
    linarith [show (1 + ε) * a * (ε * b) + ε * a * b = ((1 + ε) ^ 2 - 1) * (a * b) by ring]
  have h5 := mul_le_mul_of_nonneg_left h4 hx
  have h6 : (0:ℝ) ≤ (1 + ε) ^ 2 - 1 := by nlinarith
  have h7 := mul_le_mul_of_nonneg_left hM h6
  linarith [show x * (((1 + ε) ^ 2 - 1) * (a * b)) = ((1 + ε) ^ 2 - 1) * (x * (a * b)) by ring]

/-- relative errors of three factors. -/
theorem rel_three {a a' b b' c c' ε M x : ℝ} (hx : 0 ≤ x) (ha : 0 ≤ a) (hb : 0 ≤ b) (hc : 0 ≤ c) (hε : 0 ≤ ε) (h1 : |a' - a| ≤ ε * a) (h2 : |b' - b| ≤ ε * b)
    (h3 : |c' - c| ≤ ε * c) (hM : x * (a * b * c) ≤ M) : |x * (a' * b' * c') - x * (a * b * c)| ≤ ((1 + ε) ^ 3 - 1) * M := by
  have i1 := rel_two (x := 1) zero_le_one ha hb hε h1 h2 (le_refl (1 * (a * b)))
  simp only [one_mul] at i1
  have h3' : |c'| ≤ (1 + ε) * c := by
    have := abs_sub_abs_le_abs_sub c' c
    rw [abs_of_nonneg hc] at this
    linarith
  have e : x * (a' * b' * c') - x * (a * b * c) = x * ((a' * b' - a * b) * c' + a * b * (c' - c)) := by ring
  have hab : 0 ≤ a * b := mul_nonneg ha hb
  rw [e, abs_mul, abs_of_nonneg hx]
  have h6 : (0:ℝ) ≤ (1 + ε) ^ 2 - 1 := by nlinarith
  have h4 : |(a' * b' - a * b) * c' + a * b * (c' - c)| ≤ ((1 + ε) ^ 3 - 1) * (a * b * c) := by
    refine (abs_add_le _ _).trans ?_
    rw [abs_mul, abs_mul (a * b), abs_of_nonneg hab]
    have j1 := mul_le_mul i1 h3' (abs_nonneg _) (by positivity)
    have j2 := mul_le_mul_of_nonneg_left h3 hab
    linarith [show ((1 + ε) ^ 2 - 1) * (a * b) * ((1 + ε) * c) + a * b * (ε * c) = ((1 + ε) ^ 3 - 1) * (a * b * c) by ring]
  have h5 := mul_le_mul_of_nonneg_left h4 hx
  have h7 : (0:ℝ) ≤ (1 + ε) ^ 3 - 1 := by nlinarith [mul_nonneg h6 hε]
  have h8 := mul_le_mul_of_nonneg_left hM h7
  linarith [show x * (((1 + ε) ^ 3 - 1) * (a * b * c)) = ((1 + ε) ^ 3 - 1) * (x * (a * b * c)) by ring]

/-- C79: mass function, occupations and biases known to a relative accuracy `ε` (rounding, tables, other codes): the density is known to `amp ((1+ε)² - 1) M`, the effective bias
accordingly, where `M` bounds `m dn/dm N` and `M'` bounds `m dn/dm N b`. -/
theorem C79_relative (hE : E.isp = cubicSpl) (g : LogMasses h d) (t : SameTable h h') {ε M M' : ℝ} (hε : 0 ≤ ε)
    (hp : ∀ i < h.nm, 0 ≤ h.dndm i ∧ 0 ≤ h.totOccInt i ∧ 0 ≤ h.bias i)
    (hr : ∀ i < h.nm, |h'.dndm i - h.dndm i| ≤ ε * h.dndm i ∧ |h'.totOccInt i - h.totOccInt i| ≤ ε * h.totOccInt i ∧ |h'.bias i - h.bias i| ≤ ε * h.bias i)
    (hM : ∀ i < h.nm, h.m i * (h.dndm i * h.totOccInt i) ≤ M ∧ h.m i * (h.dndm i * h.totOccInt i * h.bias i) ≤ M') :
    let e := amp h d * (((1 + ε) ^ 2 - 1) * M)
    |h'.meanTracerDen E - h.meanTracerDen E| ≤ e ∧
    (e < h.meanTracerDen E →
      |h'.biasEffTracer E - h.biasEffTracer E| ≤ (amp h d * (((1 + ε) ^ 3 - 1) * M') + |h.biasEffTracer E| * e) / (h.meanTracerDen E - e)) := by
  intro e
  have key := C79_tracer (E := E) hE g t (ε := ((1 + ε) ^ 2 - 1) * M) fun i hi =>
    rel_two (g.pos i).le (hp i hi).1 (hp i hi).2.1 hε (hr i hi).1 (hr i hi).2.1 (hM i hi).1
  refine ⟨key.1, fun hlt => (key.2 hlt _).1 fun i hi => ?_⟩
  exact rel_three (g.pos i).le (hp i hi).1 (hp i hi).2.1 (hp i hi).2.2 hε (hr i hi).1 (hr i hi).2.1 (hr i hi).2.2 (hM i hi).2

/-- C79: the effective bias of matter. -/
theorem C79_matter_bias (hE : E.isp = cubicSpl) (g : LogMasses h d) (t : SameTable h h') (hr : h'.rhoGtm = h.rhoGtm) (hu : h'.forceUnity = h.forceUnity) (h0 : 0 < h.rhoGtm)
    {δ : ℝ} (hδ : 0 ≤ δ) (hf : ∀ i < h.nm, |h.m i * (h.m i * h'.dndm i * h'.bias i) - h.m i * (h.m i * h.dndm i * h.bias i)| ≤ δ) :
    |h'.biasEffMatter E - h.biasEffMatter E| ≤ amp h d * δ / h.rhoGtm := by
  have hA := amp_pos g
  unfold HM.biasEffMatter
  rw [hu, hr]
  split_ifs
  · rw [sub_self, abs_zero]; positivity
  · rw [S_same t, t.m, ← sub_div, abs_div, abs_of_pos h0]
    exact div_le_div_of_nonneg_right (C79_integrals hE g hf none) h0.le

/-- C79: the one-halo spectra at a tabulated wavenumber. Matter: the difference is at most `amp` times that of the integrand, over the squared density. Tracers (satellite pairs and
central-satellite pairs): with `n` the mean density, known to `e = amp ε`, at most `(amp δ + |value| e (2 n + e)) / (n - e)²`. -/
theorem C79_one_halo (hE : E.isp = cubicSpl) (g : LogMasses h d) (t : SameTable h h') (j : ℕ) (hk : h'.k j = h.k j) (hd : h'.meanDensity0 = h.meanDensity0) (ho : h'.overdensity = h.overdensity)
    (htu : h'.turnover = h.turnover) (hmm : h'.hod.mmin = h.hod.mmin) {δ : ℝ} :
    ((∀ i < h.nm, |h.m i * (h'.dndm i * h.m i ^ 2 * h'.uh j i ^ 2) - h.m i * (h.dndm i * h.m i ^ 2 * h.uh j i ^ 2)| ≤ δ) → h.meanDensity0 ≠ 0 →
      |h'.power1hMatterTab E j - h.power1hMatterTab E j| ≤ amp h d * δ / h.meanDensity0 ^ 2) ∧
    ∀ ε, (∀ i < h.nm, |h.m i * (h'.dndm i * h'.totOccInt i) - h.m i * (h.dndm i * h.totOccInt i)| ≤ ε) → amp h d * ε < h.meanTracerDen E →
      ((∀ i < h.nm, |h.m i * (h'.ut j i ^ 2 * h'.dndm i * h'.hod.ssPairs (h.m i)) - h.m i * (h.ut j i ^ 2 * h.dndm i * h.hod.ssPairs (h.m i))| ≤ δ) →
        |h'.power1hSSTab E j - h.power1hSSTab E j| ≤
          (amp h d * δ + |h.power1hSSTab E j| * (amp h d * ε * (2 * h.meanTracerDen E + amp h d * ε))) / (h.meanTracerDen E - amp h d * ε) ^ 2) ∧
      ((∀ i < h.nm, |h.m i * (h'.dndm i * 2 * h'.hod.csPairs (h.m i) * h'.ut j i) - h.m i * (h.dndm i * 2 * h.hod.csPairs (h.m i) * h.ut j i)| ≤ δ) →
        |h'.power1hCSTab E j - h.power1hCSTab E j| ≤
          (amp h d * δ + |h.power1hCSTab E j| * (amp h d * ε * (2 * h.meanTracerDen E + amp h d * ε))) / (h.meanTracerDen E - amp h d * ε) ^ 2) := by
  have hmin (x : ℝ) : h'.oneHaloMmin x j = h.oneHaloMmin x j := by
    unfold HM.oneHaloMmin
    rw [hd, ho, htu, hk]
  refine ⟨fun hf h0 => ?_, fun ε hN hlt => ?_⟩
  · unfold HM.power1hMatterTab HM.do1halo
    rw [hmin, hd, S_same t, t.m, ← sub_div, abs_div, abs_of_pos (by positivity : 0 < h.meanDensity0 ^ 2)]
    exact div_le_div_of_nonneg_right (C79_integrals hE g hf _) (by positivity)
  · have hn := (C79_tracer (E := E) hE g t hN).1
    set n := h.meanTracerDen E
    set n' := h'.meanTracerDen E
    set e := amp h d * ε
    have he : 0 ≤ e := (abs_nonneg _).trans hn
    have hn0 : 0 < n := he.trans_lt hlt
    have hlo : n - e ≤ n' := by linarith [(abs_le.1 hn).1]
    have hp : 0 < n - e := sub_pos.2 hlt
    have hn' : 0 < n' := hp.trans_le hlo
    have core (a a' : ℝ) (ha : |a' - a| ≤ amp h d * δ) : |a' / n' ^ 2 - a / n ^ 2| ≤ (amp h d * δ + |a / n ^ 2| * (e * (2 * n + e))) / (n - e) ^ 2 := by
      have h2 : |n' ^ 2 - n ^ 2| ≤ e * (2 * n + e) := by
        rw [show n' ^ 2 - n ^ 2 = (n' - n) * (n' + n) by ring, abs_mul, abs_of_pos (by linarith : 0 < n' + n)]
        exact mul_le_mul hn (by linarith [(abs_le.1 hn).2]) (by linarith) he
      have : a' / n' ^ 2 - a / n ^ 2 = ((a' - a) - a / n ^ 2 * (n' ^ 2 - n ^ 2)) / n' ^ 2 := by field_simp; ring
      rw [this, abs_div, abs_of_pos (by positivity : 0 < n' ^ 2)]
      refine div_le_div₀ (add_nonneg ((abs_nonneg _).trans ha) (by positivity)) ?_ (by positivity) (pow_le_pow_left₀ hp.le hlo 2)
      refine (abs_sub _ _).trans (add_le_add ha ?_)
      rw [abs_mul]
      exact mul_le_mul_of_nonneg_left h2 (abs_nonneg _)
    refine ⟨fun hf => ?_, fun hf => ?_⟩
    · unfold HM.power1hSSTab HM.do1halo
      rw [hmin, hmm, S_same t, t.m]
      exact core _ _ (C79_integrals hE g hf _)
    · unfold HM.power1hCSTab HM.do1halo
      rw [hmin, hmm, S_same t, t.m]
      exact core _ _ (C79_integrals hE g hf _)


open Halomod.Exclusion in
/-- the integrals the two-halo terms use (Simpson's rule, or the spline above a cut). -/
theorem splineIntegrate_close (g : LogMasses h d) (x : Excl) (hn : x.n = h.nm) (hm : x.m = h.m) {f f' : ℕ → ℝ} {δ : ℝ} (hf : ∀ i < h.nm, |f' i - f i| ≤ δ) :
    |x.splineIntegrate (fun n x y a c => splIntegral cubicSpl n x y a c) f' - x.splineIntegrate (fun n x y a c => splIntegral cubicSpl n x y a c) f| ≤ 2 * amp h d * δ := by
  have hδ : 0 ≤ δ := (abs_nonneg _).trans (hf 0 (by have := g.many; omega))
  have hA := amp_pos g
  obtain ⟨lo, hg⟩ := g.grid
  have hl : (fun i => Real.log (h.m i)) = fun i : ℕ => lo * Real.log 10 + i * (d * Real.log 10) := by
    funext i
    rw [hg]
    simp only [mesh_exp, Real.log_exp]
  have hs := mul_pos g.step L10
  unfold Excl.splineIntegrate
  cases x.xmin with
  | none =>
    dsimp only
    have hd : x.dlnx = d * Real.log 10 := by
      unfold Excl.dlnx
      rw [hm, Real.log_div (g.pos 1).ne' (g.pos 0).ne', congrFun hl 1, congrFun hl 0]
      push_cast
      ring
    rw [hn, hd]
    refine (simpson_rule.diff _ δ h.nm f' f (by have := g.many; omega) hs hf).trans ?_
    unfold amp
    refine mul_le_mul_of_nonneg_right ?_ hδ
    refine mul_le_mul_of_nonneg_left (mul_le_mul_of_nonneg_right (by linarith) hs.le) (by norm_num)
  | some v =>
    dsimp only
    have hlast : Real.log (h.m (h.nm - 1)) = lo * Real.log 10 + ((h.nm - 1 : ℕ):ℝ) * (d * Real.log 10) := congrFun hl (h.nm - 1)
    rw [hn, hm, hlast, hl]
    have e : ∀ c b, splIntegral cubicSpl h.nm (fun i : ℕ => lo * Real.log 10 + i * (d * Real.log 10)) f' c b - splIntegral cubicSpl h.nm (fun i : ℕ => lo * Real.log 10 + i * (d * Real.log 10)) f c b =
        splIntegral cubicSpl h.nm (fun i : ℕ => lo * Real.log 10 + i * (d * Real.log 10)) (fun i => f' i + -1 * f i) c b := by
      intro c b
      rw [splIntegral_add cubicSpl_lin _ _ _ _ (lin_inc _ hs _), splIntegral_smul cubicSpl_ok]
      ring
    rw [e]
    refine (spline_bounded g.many _ hs (ε := δ) (fun i hi => ?_) _).trans ?_
    · rw [show f' i + -1 * f i = f' i - f i by ring]
      exact hf i hi
    · have : amp h d * δ = (h.nm + 40) * (d * Real.log 10) * δ := rfl
      nlinarith [mul_nonneg hA.le hδ]

open Halomod.Exclusion in
/-- C79: the two-halo spectra at a tabulated wavenumber, without exclusion, are the spectrum of halo centres times the square of a bias; the biases of two models with the same
spectrum of halo centres differ by at most `(2 amp δ + |bias| amp ε) / (density - amp ε)` (tracers) and `2 amp δ / density` (matter). -/
theorem C79_two_halo (hE : E.isp = cubicSpl) (g : LogMasses h d) (t : SameTable h h') (ho : h.Ok) (ho' : h'.Ok) (hnk : h'.nk = h.nk) (hk : h'.k = h.k) (hc : h'.phc = h.phc)
    {j : ℕ} (hj : j < h.nk) {δ : ℝ} :
    (∀ ε, (∀ i < h.nm, |h.m i * (h'.dndm i * h'.totOccInt i) - h.m i * (h.dndm i * h.totOccInt i)| ≤ ε) → amp h d * ε < h.meanTracerDen E →
      (∀ i < h.nm, |h.m i * (h'.dndm i * h'.totOccInt i * h'.ut j i * h'.bias i) - h.m i * (h.dndm i * h.totOccInt i * h.ut j i * h.bias i)| ≤ δ) →
      ∃ P P' b b', h.power2hTracer E = some P ∧ h'.power2hTracer E = some P' ∧ P (h.k j) = b ^ 2 * h.phc (h.k j) ∧ P' (h.k j) = b' ^ 2 * h.phc (h.k j) ∧
        |b' - b| ≤ (2 * amp h d * δ + |b| * (amp h d * ε)) / (h.meanTracerDen E - amp h d * ε)) ∧
    (h.forceUnity = false → h'.forceUnity = false → h'.rhoGtm = h.rhoGtm → 0 < h.rhoGtm →
      (∀ i < h.nm, |h.m i * (h'.dndm i * h.m i * h'.uh j i * h'.bias i) - h.m i * (h.dndm i * h.m i * h.uh j i * h.bias i)| ≤ δ) →
      ∃ P P' b b', h.power2hMatter E = some P ∧ h'.power2hMatter E = some P' ∧ P (h.k j) = b ^ 2 * h.phc (h.k j) ∧ P' (h.k j) = b' ^ 2 * h.phc (h.k j) ∧
        |b' - b| ≤ 2 * amp h d * δ / h.rhoGtm) := by
  have hs : SplOk E.isp := hE ▸ cubicSpl_ok
  set ius : Ius := fun n x y a c => splIntegral cubicSpl n x y a c with hius
  have hi : IusOk ius := by
    have := ius_ok (E := E) (hE ▸ cubicSpl_lin)
    rwa [hE] at this
  have prim (h : HM) (ho : h.Ok) (x : Excl) (b : ℕ → ℝ) (eb : ℝ) (hb : x.bias = .d1 b) (j : ℕ) (hj : j < h.nk) : ∃ P, h.power2hPrim E (noExclRes E x b) eb false 0 = some P ∧
      P (h.k j) = (x.splineIntegrate ius fun i => x.pint j i * b i * x.m i) ^ 2 * h.phc (h.k j) := by
    unfold HM.power2hPrim
    obtain ⟨P, h1, h2, -⟩ := mkES_ok E hs { n := h.nk, x := h.k, y := h.power2hTab E (noExclRes E x b) eb false 0, lower := .callable h.linPow, matchLower := true, upper := if (noExclRes E x b).isNone && !h.filtered then .powerLaw else .callable fun _ => 0 }
      rfl rfl ho.k (by simp) (by dsimp only; split <;> simp)
    refine ⟨P, h1, (h2 j hj).trans ?_⟩
    simp only [HM.power2hTab, noExclRes, noExclIntegrate, noExclDensityMod, hb, hE, Bool.false_eq_true, if_false, mul_one]
    rfl
  constructor
  · intro ε hN hlt hf
    have hn := (C79_tracer (E := E) hE g t hN).1
    obtain ⟨P, h1, h2⟩ := prim h ho (h.tracerExcl E) h.bias (h.biasEffTracer E) rfl j hj
    obtain ⟨P', h1', h2'⟩ := prim h' ho' (h'.tracerExcl E) h'.bias (h'.biasEffTracer E) rfl j (hnk ▸ hj)
    have form (h : HM) : ((h.tracerExcl E).splineIntegrate ius fun i => (h.tracerExcl E).pint j i * h.bias i * (h.tracerExcl E).m i) =
        (h.tracerExcl E).splineIntegrate ius (fun i => h.m i * (h.dndm i * h.totOccInt i * h.ut j i * h.bias i)) / h.meanTracerDen E := by
      rw [div_eq_inv_mul, ← splineIntegrate_smul hi]
      congr 1
      funext i
      change h.dndm i * h.totOccInt i / h.meanTracerDen E * h.ut j i * h.bias i * h.m i = _
      ring
    rw [form] at h2 h2'
    rw [hk, hc] at h2'
    refine ⟨P, P', _, _, h1, h1', h2, h2', ratio_error ?_ hn hlt⟩
    have e : (h'.tracerExcl E).splineIntegrate ius (fun i => h'.m i * (h'.dndm i * h'.totOccInt i * h'.ut j i * h'.bias i)) =
        (h.tracerExcl E).splineIntegrate ius fun i => h.m i * (h'.dndm i * h'.totOccInt i * h'.ut j i * h'.bias i) := by
      unfold Excl.splineIntegrate Excl.xmin Excl.dlnx
      simp only [HM.tracerExcl, t.nm, t.m, t.cut]
      rfl
    rw [e]
    exact splineIntegrate_close g _ rfl rfl hf
  · intro hu hu' hr h0 hf
    obtain ⟨P, h1, h2⟩ := prim h ho h.matterExcl h.bias (h.biasEffMatter E) rfl j hj
    obtain ⟨P', h1', h2'⟩ := prim h' ho' h'.matterExcl h'.bias (h'.biasEffMatter E) rfl j (hnk ▸ hj)
    have form (h : HM) : (h.matterExcl.splineIntegrate ius fun i => h.matterExcl.pint j i * h.bias i * h.matterExcl.m i) =
        h.matterExcl.splineIntegrate ius (fun i => h.m i * (h.dndm i * h.m i * h.uh j i * h.bias i)) / h.rhoGtm := by
      rw [div_eq_inv_mul, ← splineIntegrate_smul hi]
      congr 1
      funext i
      change h.dndm i * h.m i / h.rhoGtm * h.uh j i * h.bias i * h.m i = _
      ring
    rw [form] at h2 h2'
    rw [hk, hc, hr] at h2'
    refine ⟨P, P', _, _, by unfold HM.power2hMatter; rw [hu]; exact h1, by unfold HM.power2hMatter; rw [hu']; exact h1', h2, h2', ?_⟩
    have e : h'.matterExcl.splineIntegrate ius (fun i => h'.m i * (h'.dndm i * h'.m i * h'.uh j i * h'.bias i)) =
        h.matterExcl.splineIntegrate ius fun i => h.m i * (h'.dndm i * h.m i * h'.uh j i * h'.bias i) := by
      unfold Excl.splineIntegrate Excl.xmin Excl.dlnx
      simp only [HM.matterExcl, t.nm, t.m]
    rw [e, ← sub_div, abs_div, abs_of_pos h0]
    exact div_le_div_of_nonneg_right (splineIntegrate_close g _ rfl rfl hf) h0.le

/-- C79: the two-halo spectra in terms of the spectra alone: the root of their ratio to the (positive) power of halo centres moves by at most the bound. -/
theorem C79_two_halo_root (hE : E.isp = cubicSpl) (g : LogMasses h d) (t : SameTable h h') (ho : h.Ok) (ho' : h'.Ok) (hnk : h'.nk = h.nk) (hk : h'.k = h.k) (hc : h'.phc = h.phc)
    {j : ℕ} (hj : j < h.nk) (hp : 0 < h.phc (h.k j)) {δ : ℝ} :
    let root := fun P : ℝ → ℝ => Real.sqrt (P (h.k j) / h.phc (h.k j))
    (∀ ε, (∀ i < h.nm, |h.m i * (h'.dndm i * h'.totOccInt i) - h.m i * (h.dndm i * h.totOccInt i)| ≤ ε) → amp h d * ε < h.meanTracerDen E →
      (∀ i < h.nm, |h.m i * (h'.dndm i * h'.totOccInt i * h'.ut j i * h'.bias i) - h.m i * (h.dndm i * h.totOccInt i * h.ut j i * h.bias i)| ≤ δ) →
      ∃ P P', h.power2hTracer E = some P ∧ h'.power2hTracer E = some P' ∧
        |root P' - root P| ≤ (2 * amp h d * δ + root P * (amp h d * ε)) / (h.meanTracerDen E - amp h d * ε)) ∧
    (h.forceUnity = false → h'.forceUnity = false → h'.rhoGtm = h.rhoGtm → 0 < h.rhoGtm →
      (∀ i < h.nm, |h.m i * (h'.dndm i * h.m i * h'.uh j i * h'.bias i) - h.m i * (h.dndm i * h.m i * h.uh j i * h.bias i)| ≤ δ) →
      ∃ P P', h.power2hMatter E = some P ∧ h'.power2hMatter E = some P' ∧ |root P' - root P| ≤ 2 * amp h d * δ / h.rhoGtm) := by
  intro root
  have hr : ∀ {P : ℝ → ℝ} {b : ℝ}, P (h.k j) = b ^ 2 * h.phc (h.k j) → root P = |b| := fun {P b} hb => by
    simp only [root]
    rw [hb, mul_div_assoc, div_self hp.ne', mul_one, Real.sqrt_sq_eq_abs]
  obtain ⟨k1, k2⟩ := C79_two_halo hE g t ho ho' hnk hk hc hj (δ := δ)
  refine ⟨fun ε h1 h2 h3 => ?_, fun h1 h2 h3 h4 h5 => ?_⟩
  · obtain ⟨P, P', b, b', e1, e2, e3, e4, e5⟩ := k1 ε h1 h2 h3
    refine ⟨P, P', e1, e2, ?_⟩
    rw [hr e3, hr e4]
    exact (abs_abs_sub_abs_le_abs_sub b' b).trans e5
  · obtain ⟨P, P', b, b', e1, e2, e3, e4, e5⟩ := k2 h1 h2 h3 h4 h5
    refine ⟨P, P', e1, e2, ?_⟩
    rw [hr e3, hr e4]
    exact (abs_abs_sub_abs_le_abs_sub b' b).trans e5

end

/-- one tracer in every halo of a table of sixty masses. -/
noncomputable def stabHM : HM :=
  { demoHM with nm := 60, m := fun i => (10:ℝ) ^ ((11.5:ℝ) + i * (0.1:ℝ)), dndm := fun i => 1 / (10:ℝ) ^ ((11.5:ℝ) + i * (0.1:ℝ)), hod := constant {} false }

theorem stab_occ (i : ℕ) : stabHM.totOccInt i = 1 := by
  have h : (10:ℝ) ^ (11:ℝ) < (10:ℝ) ^ ((11.5:ℝ) + i * (0.1:ℝ)) := Real.rpow_lt_rpow_of_exponent_lt (by norm_num) (by have : (0:ℝ) ≤ i := Nat.cast_nonneg i; linarith)
  simp only [HM.totOccInt, HM.cenOccInt, stabHM, constant, bulk, satelliteOccupation, constSat, Bool.false_and, Bool.false_eq_true, if_false]
  rw [if_pos h]
  simp

theorem stab_density (us : USpl) (hk : (ℝ → ℝ) → ℝ → ℝ) : stabHM.meanTracerDen { isp := cubicSpl, us := us, hankel := hk } = 59 * (0.1 * Real.log 10) := by
  have hL := L10
  have hm : (fun i => Real.log (stabHM.m i)) = fun i : ℕ => (11.5:ℝ) * Real.log 10 + i * ((0.1:ℝ) * Real.log 10) := by
    funext i
    simp only [stabHM, mesh_exp, Real.log_exp]
  have hc : stabHM.tracerMmin = none := rfl
  have h1 : (fun i => stabHM.m i * (stabHM.dndm i * stabHM.totOccInt i)) = fun _ => (1:ℝ) := by
    funext i
    rw [stab_occ, mul_one]
    exact mul_one_div_cancel (by change (10:ℝ) ^ ((11.5:ℝ) + i * (0.1:ℝ)) ≠ 0; positivity)
  have hn : stabHM.nm = 60 := rfl
  unfold HM.meanTracerDen HM.S splineIntegral
  rw [hc, if_pos rfl, hm, h1, Option.elim_none, Option.elim_none, congrFun hm 0, congrFun hm (stabHM.nm - 1), hn]
  have hinc := lin_inc ((11.5:ℝ) * Real.log 10) (s := (0.1:ℝ) * Real.log 10) (by positivity) 60
  have hs : ∀ t, cubicSpl 60 (fun i : ℕ => (11.5:ℝ) * Real.log 10 + i * ((0.1:ℝ) * Real.log 10)) (fun _ => (1:ℝ)) t = 1 := by
    intro t
    have := cubicSpl_cubic (n := 60) (by norm_num) hinc ⟨1, 0, 0, 0⟩ t
    simpa [Halomod.Spec.Cub.eval] using this
  rw [splIntegral_inside (by push_cast; nlinarith) (by push_cast; nlinarith) le_rfl]
  simp only [hs]
  rw [intervalIntegral.integral_const, smul_eq_mul]
  push_cast
  ring

/-- the hypotheses of the theorems are met by a model with tracers, and by any change of its mass function and biases; a change of up to a twentieth of the integrand is admitted. -/
example (us : USpl) (hk : (ℝ → ℝ) → ℝ → ℝ) (dn b : ℕ → ℝ) : LogMasses stabHM 0.1 ∧ SameTable stabHM { stabHM with dndm := dn, bias := b } ∧
    amp stabHM 0.1 * 0.05 < stabHM.meanTracerDen { isp := cubicSpl, us := us, hankel := hk } := by
  refine ⟨⟨by norm_num [stabHM], by norm_num, 11.5, rfl⟩, ⟨rfl, rfl, rfl⟩, ?_⟩
  rw [stab_density]
  have hn : stabHM.nm = 60 := rfl
  have hL := L10
  unfold amp
  rw [hn]
  push_cast
  nlinarith

/-- the same model meets the hypotheses of the two-halo statements, with or without changed mass function and biases. -/
example (dn b : ℕ → ℝ) : stabHM.Ok ∧ HM.Ok { stabHM with dndm := dn, bias := b } ∧ 0 < stabHM.phc (stabHM.k 0) := by
  have g : Grid stabHM.nm stabHM.m := LogMasses.mesh (d := 0.1) ⟨by norm_num [stabHM], by norm_num, 11.5, rfl⟩
  have o := demo_ok
  exact ⟨⟨g, o.k, o.r, by norm_num [stabHM], o.nk0, o.nr0⟩, ⟨g, o.k, o.r, by norm_num [stabHM], o.nk0, o.nr0⟩, by norm_num [stabHM, demoHM]⟩

end Halomod.HaloModel
