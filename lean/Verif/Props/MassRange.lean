import Verif.Props.Stability

/-! # C80: the mass range of the table -/
namespace Halomod.HaloModel

open Finset MeasureTheory Halomod.Tools Halomod.HOD

theorem Within.mono {Lo Hi lo hi : ℝ} {f : ℝ → ℝ} {M V : ℝ} (hf : Within Lo Hi f M V) (h1 : Lo ≤ lo) (h2 : hi ≤ Hi) : Within lo hi f M V := by
  have hs : Set.Icc ((10:ℝ) ^ lo) ((10:ℝ) ^ hi) ⊆ Set.Icc ((10:ℝ) ^ Lo) ((10:ℝ) ^ Hi) :=
    Set.Icc_subset_Icc (Real.rpow_le_rpow_of_exponent_le (by norm_num) h1) (Real.rpow_le_rpow_of_exponent_le (by norm_num) h2)
  exact ⟨fun m hm => hf.bound m (hs hm), (eVariationOn.mono _ hs).trans hf.var, hf.pos⟩

theorem Within.integrable {Lo Hi : ℝ} {f : ℝ → ℝ} {M V : ℝ} (hf : Within Lo Hi f M V) (hlh : Lo ≤ Hi) : IntervalIntegrable f volume ((10:ℝ) ^ Lo) ((10:ℝ) ^ Hi) := by
  have hle : (10:ℝ) ^ Lo ≤ (10:ℝ) ^ Hi := Real.rpow_le_rpow_of_exponent_le (by norm_num) hlh
  have h0 : (0:ℝ) < (10:ℝ) ^ Lo := by positivity
  have h := bv_integrable hle (hf.var.trans_lt ENNReal.ofReal_lt_top).ne
  have hc : ContinuousOn (fun m : ℝ => m⁻¹) (Set.uIcc ((10:ℝ) ^ Lo) ((10:ℝ) ^ Hi)) := by
    rw [Set.uIcc_of_le hle]
    exact continuousOn_inv₀.mono fun m hm => (h0.trans_le hm.1).ne'
  refine (h.mul_continuousOn hc).congr ?_
  intro m hm
  rw [Set.uIoc_of_le hle] at hm
  have : m ≠ 0 := (h0.trans hm.1).ne'
  field_simp

/-- `m f(m)` at most `T (a/m)^p` beyond `a`: the integral of `f` over any stretch beyond `a` is at most `T/p`. -/
theorem tail_bound {f : ℝ → ℝ} {a b T p : ℝ} (ha : 0 < a) (hab : a ≤ b) (hp : 0 < p) (hT : 0 ≤ T) (hf : ∀ m ∈ Set.Icc a b, |m * f m| ≤ T * (a / m) ^ p) :
    |∫ m in a..b, f m| ≤ T / p := by
  have hb : 0 < b := ha.trans_le hab
  have h0 : (0:ℝ) ∉ Set.uIcc a b := by
    rw [Set.uIcc_of_le hab]
    exact fun h => absurd h.1 (not_le.2 ha)
  have hg : IntervalIntegrable (fun m => T * a ^ p * m ^ (-p - 1)) volume a b :=
    (intervalIntegral.intervalIntegrable_rpow (Or.inr h0)).const_mul _
  have key : ‖∫ m in a..b, f m‖ ≤ ∫ m in a..b, T * a ^ p * m ^ (-p - 1) := by
    refine intervalIntegral.norm_integral_le_of_norm_le hab (ae_of_all _ fun m hm => ?_) hg
    have hm0 : 0 < m := ha.trans hm.1
    have := hf m ⟨hm.1.le, hm.2⟩
    rw [abs_mul, abs_of_pos hm0, Real.div_rpow ha.le hm0.le] at this
    rw [Real.norm_eq_abs]
    have e : T * a ^ p * m ^ (-p - 1) = T * (a ^ p / m ^ p) / m := by
      rw [Real.rpow_sub hm0, Real.rpow_neg hm0.le, Real.rpow_one]
      have := (Real.rpow_pos_of_pos hm0 p).ne'
      field_simp
    rw [e, le_div_iff₀ hm0, mul_comm]
    exact this
  rw [Real.norm_eq_abs] at key
  refine key.trans ?_
  rw [intervalIntegral.integral_const_mul, integral_rpow (Or.inr ⟨by linarith, h0⟩)]
  have e1 : -p - 1 + 1 = -p := by ring
  rw [e1]
  have hap := Real.rpow_pos_of_pos ha p
  have hbp : 0 ≤ b ^ (-p) := (Real.rpow_pos_of_pos hb _).le
  have e2 : T * a ^ p * ((b ^ (-p) - a ^ (-p)) / -p) = T / p * (1 - a ^ p * b ^ (-p)) := by
    rw [Real.rpow_neg ha.le]
    field_simp
    ring
  rw [e2]
  refine mul_le_of_le_one_right (by positivity) ?_
  have := mul_nonneg hap.le hbp
  linarith

theorem gap_zero {f : ℝ → ℝ} {a b : ℝ} (h : ∀ m, min a b ≤ m → m < max a b → f m = 0) : ∫ m in a..b, f m = 0 := by
  have : ∫ m in a..b, f m = ∫ _ in a..b, (0:ℝ) := by
    refine intervalIntegral.integral_congr_ae ?_
    have hn : ∀ᵐ m : ℝ ∂volume, m ≠ max a b := by
      rw [ae_iff]
      simp
    filter_upwards [hn] with m hm hi
    exact h m hi.1.le (lt_of_le_of_ne hi.2 hm)
  rw [this, intervalIntegral.integral_zero]

/-- two tables of halo masses with the same physics, both inside the range `10**Lo` to `10**Hi`, at least five steps each, the cut of the occupation below their upper ends. -/
structure TwoTables (hod : Hod) (Lo Hi lo hi d lo' hi' d' : ℝ) : Prop where
  step : 0 < d
  step' : 0 < d'
  many : 5 * d < hi - lo
  many' : 5 * d' < hi' - lo'
  inside : Lo ≤ lo ∧ Lo ≤ lo' ∧ hi ≤ hi' ∧ hi' ≤ Hi
  cut : hod.sharpCut = true → hod.mmin < hi

variable {E : Env} {h : HM} {Lo Hi lo hi d lo' hi' d' : ℝ} {D B : ℝ → ℝ} {U T Λ : ℕ → ℝ → ℝ}

/-- C80: an integral over halo mass on two tables, when nothing lies between their lower ends (or both reach below the cut) and the integrand falls at least like a power `p` beyond the
lower of their upper ends: they differ by the errors of the two meshes and `τ/p`, where `τ` bounds mass times integrand at that end. -/
theorem C80_integrals (hE : E.isp = cubicSpl) (t : TwoTables h.hod Lo Hi lo hi d lo' hi' d') {f : ℝ → ℝ} {M V τ p : ℝ} (hf : Within Lo Hi f M V)
    (hgap : ∀ m, min (tracerLow h.hod ((10:ℝ) ^ lo)) (tracerLow h.hod ((10:ℝ) ^ lo')) ≤ m → m < max (tracerLow h.hod ((10:ℝ) ^ lo)) (tracerLow h.hod ((10:ℝ) ^ lo')) → f m = 0)
    (hp : 0 < p) (hτ : 0 ≤ τ) (htail : ∀ m ∈ Set.Icc ((10:ℝ) ^ hi) ((10:ℝ) ^ hi'), |m * f m| ≤ τ * ((10:ℝ) ^ hi / m) ^ p) :
    |(mesh h lo' hi' D B U T Λ d').S E (fun i => f ((mesh h lo' hi' D B U T Λ d').m i)) (mesh h lo' hi' D B U T Λ d').tracerMmin -
      (mesh h lo hi D B U T Λ d).S E (fun i => f ((mesh h lo hi D B U T Λ d).m i)) (mesh h lo hi D B U T Λ d).tracerMmin| ≤
      (41 * M + V) * ((d + d') * Real.log 10) + τ / p := by
  obtain ⟨i1, i2, i3, i4⟩ := t.inside
  have m1 := t.many
  have m2 := t.many'
  have s1 := t.step
  have s2 := t.step'
  have e1 := mesh_S_error E hE h t.step t.many t.cut D B U T Λ (hf.mono i1 (i3.trans i4))
  have e2 := mesh_S_error E hE h t.step' t.many' (fun hc => (t.cut hc).trans_le i3) D B U T Λ (hf.mono i2 i4)
  have mono : ∀ {x y : ℝ}, x ≤ y → (10:ℝ) ^ x ≤ (10:ℝ) ^ y := fun hxy => Real.rpow_le_rpow_of_exponent_le (by norm_num) hxy
  have hlow : ∀ {l : ℝ}, Lo ≤ l → l ≤ hi' → (h.hod.sharpCut = true → h.hod.mmin < hi') → tracerLow h.hod ((10:ℝ) ^ l) ∈ Set.Icc ((10:ℝ) ^ Lo) ((10:ℝ) ^ Hi) := by
    intro l a b hc
    unfold tracerLow
    split_ifs with hb
    · have hs : h.hod.sharpCut = true := by
        rw [Bool.and_eq_true] at hb
        exact hb.1
      exact ⟨(mono a).trans (le_max_left _ _), max_le (mono (b.trans i4)) (mono ((hc hs).le.trans i4))⟩
    · exact ⟨mono a, mono (b.trans i4)⟩
  have hl := hlow i1 (by linarith) fun hc => (t.cut hc).trans_le i3
  have hl' := hlow i2 (by linarith) fun hc => (t.cut hc).trans_le i3
  have hLH : Lo ≤ Hi := by linarith
  have hint := hf.integrable hLH
  have sub : ∀ {x y : ℝ}, x ∈ Set.Icc ((10:ℝ) ^ Lo) ((10:ℝ) ^ Hi) → y ∈ Set.Icc ((10:ℝ) ^ Lo) ((10:ℝ) ^ Hi) → IntervalIntegrable f volume x y := fun hx hy =>
    hint.mono_set (by rw [Set.uIcc_of_le (mono hLH)]; exact Set.uIcc_subset_Icc hx hy)
  have hh : (10:ℝ) ^ hi ∈ Set.Icc ((10:ℝ) ^ Lo) ((10:ℝ) ^ Hi) := ⟨mono (by linarith), mono (i3.trans i4)⟩
  have hh' : (10:ℝ) ^ hi' ∈ Set.Icc ((10:ℝ) ^ Lo) ((10:ℝ) ^ Hi) := ⟨mono (by linarith), mono i4⟩
  have g0 := gap_zero hgap
  have a1 := intervalIntegral.integral_add_adjacent_intervals (sub hl hl') (sub hl' hh)
  have a2 := intervalIntegral.integral_add_adjacent_intervals (sub hl' hh) (sub hh hh')
  have tb := tail_bound (f := f) (by positivity : (0:ℝ) < (10:ℝ) ^ hi) (mono i3) hp hτ htail
  rw [g0, zero_add] at a1
  rw [← a1] at e1
  rw [← a2] at e2
  rw [abs_le] at *
  constructor <;> linarith [e1.1, e1.2, e2.1, e2.2, tb.1, tb.2]

/-- C80: the averages over tracers on two tables of halo masses. Tracers live above the lower ends of both tables (or both reach below the cut of the occupation) and, beyond the lower of
the upper ends, mass times integrand falls at least like a power `p`. Then the mean tracer density computed on one table is within `e` of that computed on the other, where `e` is the
sum of the errors of the meshes and of the tail; while `e` is below that density, so are effective bias, satellite and central fraction and effective mass, up to `(e' + |value| e) / (density - e)`. -/
theorem C80_tracer (hE : E.isp = cubicSpl) (t : TwoTables h.hod Lo Hi lo hi d lo' hi' d') {M V τ p : ℝ} (hf : Within Lo Hi (fun m => D m * tracerNumber h.hod m) M V)
    (hgap : ∀ m, min (tracerLow h.hod ((10:ℝ) ^ lo)) (tracerLow h.hod ((10:ℝ) ^ lo')) ≤ m → m < max (tracerLow h.hod ((10:ℝ) ^ lo)) (tracerLow h.hod ((10:ℝ) ^ lo')) →
      tracerNumber h.hod m = 0 ∧ h.hod.satOcc m = 0)
    (hp : 0 < p) (hτ : 0 ≤ τ) (htail : ∀ m ∈ Set.Icc ((10:ℝ) ^ hi) ((10:ℝ) ^ hi'), |m * (D m * tracerNumber h.hod m)| ≤ τ * ((10:ℝ) ^ hi / m) ^ p) :
    let model := mesh h lo hi D B U T Λ d
    let model' := mesh h lo' hi' D B U T Λ d'
    let e := (41 * M + V) * ((d + d') * Real.log 10) + τ / p
    |model'.meanTracerDen E - model.meanTracerDen E| ≤ e ∧
    (e < model.meanTracerDen E → ∀ M' V' τ' p', 0 < p' → 0 ≤ τ' →
      let e' := (41 * M' + V') * ((d + d') * Real.log 10) + τ' / p'
      (Within Lo Hi (fun m => D m * tracerNumber h.hod m * B m) M' V' →
        (∀ m ∈ Set.Icc ((10:ℝ) ^ hi) ((10:ℝ) ^ hi'), |m * (D m * tracerNumber h.hod m * B m)| ≤ τ' * ((10:ℝ) ^ hi / m) ^ p') →
        |model'.biasEffTracer E - model.biasEffTracer E| ≤ (e' + |model.biasEffTracer E| * e) / (model.meanTracerDen E - e)) ∧
      (Within Lo Hi (fun m => D m * h.hod.satOcc m) M' V' →
        (∀ m ∈ Set.Icc ((10:ℝ) ^ hi) ((10:ℝ) ^ hi'), |m * (D m * h.hod.satOcc m)| ≤ τ' * ((10:ℝ) ^ hi / m) ^ p') →
        |model'.satFrac E - model.satFrac E| ≤ (e' + |model.satFrac E| * e) / (model.meanTracerDen E - e) ∧
        |model'.cenFrac E - model.cenFrac E| ≤ (e' + |model.satFrac E| * e) / (model.meanTracerDen E - e)) ∧
      (Within Lo Hi (fun m => m * D m * tracerNumber h.hod m) M' V' →
        (∀ m ∈ Set.Icc ((10:ℝ) ^ hi) ((10:ℝ) ^ hi'), |m * (m * D m * tracerNumber h.hod m)| ≤ τ' * ((10:ℝ) ^ hi / m) ^ p') →
        e' < model.S E (fun i => model.m i * model.dndm i * model.totOccInt i) model.tracerMmin →
        |(10:ℝ) ^ model'.massEff E - (10:ℝ) ^ model.massEff E| ≤ (e' + |(10:ℝ) ^ model.massEff E| * e) / (model.meanTracerDen E - e))) := by
  intro model model' e
  have h0 : |model'.meanTracerDen E - model.meanTracerDen E| ≤ e :=
    C80_integrals hE t hf (fun m a b => by rw [(hgap m a b).1, mul_zero]) hp hτ htail
  refine ⟨h0, ?_⟩
  intro hlt M' V' τ' p' hp' hτ' e'
  refine ⟨fun hf' ht' => ?_, fun hf' ht' => ?_, fun hf' ht' hpos => ?_⟩
  · exact ratio_error (C80_integrals hE t hf' (fun m a b => by rw [(hgap m a b).1, mul_zero, zero_mul]) hp' hτ' ht') h0 hlt
  · have hs : |model'.satFrac E - model.satFrac E| ≤ (e' + |model.satFrac E| * e) / (model.meanTracerDen E - e) :=
      ratio_error (C80_integrals hE t hf' (fun m a b => by rw [(hgap m a b).2, mul_zero]) hp' hτ' ht') h0 hlt
    refine ⟨hs, ?_⟩
    unfold HM.cenFrac
    rw [show 1 - model'.satFrac E - (1 - model.satFrac E) = -(model'.satFrac E - model.satFrac E) by ring, abs_neg]
    exact hs
  · have hS : |model'.S E (fun i => model'.m i * model'.dndm i * model'.totOccInt i) model'.tracerMmin -
        model.S E (fun i => model.m i * model.dndm i * model.totOccInt i) model.tracerMmin| ≤ e' :=
      C80_integrals hE t hf' (fun m a b => by rw [(hgap m a b).1, mul_zero]) hp' hτ' ht'
    have he0 : 0 ≤ e := (abs_nonneg _).trans h0
    have he0' : 0 ≤ e' := (abs_nonneg _).trans hS
    have p1 : 0 < model.meanTracerDen E := he0.trans_lt hlt
    have p1' : 0 < model'.meanTracerDen E := by have := (abs_le.1 h0).1; linarith
    rw [ten_massEff model p1 (he0'.trans_lt hpos), ten_massEff model' p1' (by have := (abs_le.1 hS).1; linarith)]
    exact ratio_error hS h0 hlt

/-- C80: the effective bias of matter and the one-halo matter power when the largest mass of the table is raised from `10**hi` to `10**hi'` (and the step changed). -/
theorem C80_matter (hE : E.isp = cubicSpl) (hu : h.forceUnity = false) (hr : 0 < h.rhoGtm) (h0 : h.meanDensity0 ≠ 0) (hd : 0 < d) (hd' : 0 < d') (h5 : 5 * d < hi - lo)
    (h5' : 5 * d' < hi' - lo) (hh : hi ≤ hi') {M V τ p : ℝ} (hp : 0 < p) (hτ : 0 ≤ τ) :
    (Within lo hi' (fun m => m * D m * B m) M V → (∀ m ∈ Set.Icc ((10:ℝ) ^ hi) ((10:ℝ) ^ hi'), |m * (m * D m * B m)| ≤ τ * ((10:ℝ) ^ hi / m) ^ p) →
      |(mesh h lo hi' D B U T Λ d').biasEffMatter E - (mesh h lo hi D B U T Λ d).biasEffMatter E| ≤ ((41 * M + V) * ((d + d') * Real.log 10) + τ / p) / h.rhoGtm) ∧
    ∀ j, h.oneHaloMmin ((10:ℝ) ^ lo) j ≤ (10:ℝ) ^ hi → Within lo hi' (fun m => D m * m ^ 2 * U j m ^ 2) M V →
      (∀ m ∈ Set.Icc ((10:ℝ) ^ hi) ((10:ℝ) ^ hi'), |m * (D m * m ^ 2 * U j m ^ 2)| ≤ τ * ((10:ℝ) ^ hi / m) ^ p) →
      |(mesh h lo hi' D B U T Λ d').power1hMatterTab E j - (mesh h lo hi D B U T Λ d).power1hMatterTab E j| ≤
        ((41 * M + V) * ((d + d') * Real.log 10) + τ / p) / h.meanDensity0 ^ 2 := by
  have mono : ∀ {x y : ℝ}, x ≤ y → (10:ℝ) ^ x ≤ (10:ℝ) ^ y := fun hxy => Real.rpow_le_rpow_of_exponent_le (by norm_num) hxy
  have hlo : ∀ j, (10:ℝ) ^ lo ≤ h.oneHaloMmin ((10:ℝ) ^ lo) j := by
    intro j
    unfold HM.oneHaloMmin
    dsimp only
    split_ifs
    · exact le_max_left _ _
    · exact le_rfl
  have key : ∀ {f : ℝ → ℝ} {c r : ℝ} {a a' : ℝ}, 0 < r → (10:ℝ) ^ lo ≤ c → c ≤ (10:ℝ) ^ hi → Within lo hi' f M V →
      (∀ m ∈ Set.Icc ((10:ℝ) ^ hi) ((10:ℝ) ^ hi'), |m * f m| ≤ τ * ((10:ℝ) ^ hi / m) ^ p) →
      |a - (∫ m in c..(10:ℝ) ^ hi, f m) / r| ≤ (41 * M + V) * (d * Real.log 10) / r →
      |a' - (∫ m in c..(10:ℝ) ^ hi', f m) / r| ≤ (41 * M + V) * (d' * Real.log 10) / r →
      |a' - a| ≤ ((41 * M + V) * ((d + d') * Real.log 10) + τ / p) / r := by
    intro f c r a a' hr c1 c2 hf ht e1 e2
    have hint := hf.integrable (by linarith)
    have hl := mono (show lo ≤ hi' by linarith)
    have sub : ∀ {x y : ℝ}, x ∈ Set.Icc ((10:ℝ) ^ lo) ((10:ℝ) ^ hi') → y ∈ Set.Icc ((10:ℝ) ^ lo) ((10:ℝ) ^ hi') → IntervalIntegrable f volume x y := fun hx hy =>
      hint.mono_set (by rw [Set.uIcc_of_le hl]; exact Set.uIcc_subset_Icc hx hy)
    have a2 := intervalIntegral.integral_add_adjacent_intervals (sub (x := c) ⟨c1, c2.trans (mono hh)⟩ (y := (10:ℝ) ^ hi) ⟨mono (by linarith), mono hh⟩)
      (sub (y := (10:ℝ) ^ hi') ⟨mono (by linarith), mono hh⟩ ⟨hl, le_rfl⟩)
    have tb := tail_bound (f := f) (by positivity : (0:ℝ) < (10:ℝ) ^ hi) (mono hh) hp hτ ht
    have tr : |(∫ m in (10:ℝ) ^ hi..(10:ℝ) ^ hi', f m) / r| ≤ τ / p / r := by
      rw [abs_div, abs_of_pos hr]
      exact div_le_div_of_nonneg_right tb hr.le
    rw [← a2, add_div] at e2
    have e3 : ((41 * M + V) * ((d + d') * Real.log 10) + τ / p) / r = (41 * M + V) * (d * Real.log 10) / r + (41 * M + V) * (d' * Real.log 10) / r + τ / p / r := by
      rw [← add_div, ← add_div]
      ring
    rw [e3]
    rw [abs_le] at *
    constructor <;> linarith [e1.1, e1.2, e2.1, e2.2, tr.1, tr.2]
  refine ⟨fun hf ht => ?_, fun j hj hf ht => ?_⟩
  · exact key hr le_rfl (mono (by linarith)) hf ht (C75_matter_bias E hE h hu hr hd h5 D B U T Λ (hf.mono le_rfl hh)) (C75_matter_bias E hE h hu hr hd' h5' D B U T Λ hf)
  · exact key (sq_pos_of_ne_zero h0) (hlo j) hj hf ht (C75_one_halo_power E hE h h0 hd h5 D B U T Λ j hj (hf.mono le_rfl hh))
      (C75_one_halo_power E hE h h0 hd' h5' D B U T Λ j (hj.trans (mono hh)) hf)

/-- C80: raising the largest mass has a limit: with tracers fixed below and a fall-off like a power `p`, the densities for all larger upper ends (at the same step) stay within the sum of
the two mesh errors and a tail that falls like `10**(-p hi)`. -/
theorem C80_upper_end (hE : E.isp = cubicSpl) (hd : 0 < d) (hlh : 5 * d < hi - lo) (hcut : h.hod.sharpCut = true → h.hod.mmin < hi) {M V τ p x0 : ℝ} (hp : 0 < p) (hτ : 0 ≤ τ)
    (h0 : 0 < x0) (hx : x0 ≤ (10:ℝ) ^ hi) (hf : ∀ Hi, Within lo Hi (fun m => D m * tracerNumber h.hod m) M V) (htail : ∀ m, x0 ≤ m → |m * (D m * tracerNumber h.hod m)| ≤ τ * (x0 / m) ^ p) :
    ∀ hi', hi ≤ hi' → |(mesh h lo hi' D B U T Λ d).meanTracerDen E - (mesh h lo hi D B U T Λ d).meanTracerDen E| ≤
      (41 * M + V) * (2 * d * Real.log 10) + τ * (x0 / (10:ℝ) ^ hi) ^ p / p := by
  intro hi' hh
  have hT : (0:ℝ) < (10:ℝ) ^ hi := by positivity
  have t : TwoTables h.hod lo hi' lo hi d lo hi' d := ⟨hd, hd, hlh, by linarith, ⟨le_rfl, le_rfl, hh, le_rfl⟩, hcut⟩
  have key := (C80_tracer (B := B) (U := U) (T := T) (Λ := Λ) hE t (hf hi') (fun m a b => by rw [min_self] at a; rw [max_self] at b; exact absurd b (not_lt.2 a)) hp
    (τ := τ * (x0 / (10:ℝ) ^ hi) ^ p) (by positivity) fun m hm => by
      have hm0 : 0 < m := hT.trans_le hm.1
      rw [mul_assoc, ← Real.mul_rpow (by positivity) (by positivity), div_mul_div_cancel₀ hT.ne']
      exact htail m (hx.trans hm.1)).1
  rwa [show (d + d) = 2 * d by ring] at key

/-- C80: the default HOD (`Zehavi05`): if the mass function times mass falls like a power `q > alpha` beyond a mass `x0` of at least `10**M_1`, raising `Mmax` beyond it changes the
density by two mesh errors and a tail that falls like `10**(-(q - alpha) Mmax)`. -/
theorem C80_default (hE : E.isp = cubicSpl) (P : ZehaviP) (central : Bool) (hh : h.hod = zehavi05 P central) (ha : 0 ≤ P.alpha) (hd : 0 < d) (hlh : 5 * d < hi - lo) (hcut : P.M_min < hi)
    {M V τ q x0 : ℝ} (hq : P.alpha < q) (hτ : 0 ≤ τ) (h0 : (10:ℝ) ^ P.M_1 ≤ x0) (hx : x0 ≤ (10:ℝ) ^ hi) (hf : ∀ Hi, Within lo Hi (fun m => D m * tracerNumber h.hod m) M V)
    (htail : ∀ m, x0 ≤ m → |m * D m| ≤ τ * (x0 / m) ^ q) :
    ∀ hi', hi ≤ hi' → |(mesh h lo hi' D B U T Λ d).meanTracerDen E - (mesh h lo hi D B U T Λ d).meanTracerDen E| ≤
      (41 * M + V) * (2 * d * Real.log 10) + 2 * τ * (x0 / 10 ^ P.M_1) ^ P.alpha * (x0 / (10:ℝ) ^ hi) ^ (q - P.alpha) / (q - P.alpha) := by
  have hM1 : (0:ℝ) < 10 ^ P.M_1 := by positivity
  have hx0 : 0 < x0 := hM1.trans_le h0
  have hr : 1 ≤ x0 / 10 ^ P.M_1 := (one_le_div hM1).2 h0
  refine C80_upper_end (B := B) (U := U) (T := T) (Λ := Λ) hE hd hlh (fun _ => by rw [hh]; exact hcut) (sub_pos.2 hq)
    (mul_nonneg (mul_nonneg zero_le_two hτ) (Real.rpow_nonneg (by positivity) _)) hx0 hx hf fun m hm => ?_
  have hm0 : 0 < m := hx0.trans_le hm
  have hs1 : 1 ≤ (m / 10 ^ P.M_1) ^ P.alpha := Real.one_le_rpow ((one_le_div hM1).2 (h0.trans hm)) ha
  have hc : 0 ≤ zehaviCen P.M_min m ∧ zehaviCen P.M_min m ≤ 1 := by
    unfold zehaviCen
    split_ifs <;> norm_num
  have hnum : tracerNumber h.hod m = if central then 1 + zehaviCen P.M_min m * (m / 10 ^ P.M_1) ^ P.alpha else zehaviCen P.M_min m + (m / 10 ^ P.M_1) ^ P.alpha := by
    rw [hh]
    cases central <;> simp [tracerNumber, zehavi05, poisson, satelliteOccupation, zehaviSat]
  have hN : |tracerNumber h.hod m| ≤ 2 * (m / 10 ^ P.M_1) ^ P.alpha := by
    rw [hnum, abs_le]
    split_ifs <;> constructor <;> nlinarith [mul_nonneg hc.1 (zero_le_one.trans hs1), mul_nonneg (sub_nonneg.2 hc.2) (zero_le_one.trans hs1)]
  rw [← mul_assoc, abs_mul]
  refine (mul_le_mul (htail m hm) hN (abs_nonneg _) (by positivity)).trans (le_of_eq ?_)
  have e1 : (m / 10 ^ P.M_1) ^ P.alpha = (x0 / 10 ^ P.M_1) ^ P.alpha * (m / x0) ^ P.alpha := by
    rw [← Real.mul_rpow (by positivity) (by positivity)]
    congr 1
    field_simp
  have e2 : (x0 / m) ^ q = (x0 / m) ^ (q - P.alpha) * (x0 / m) ^ P.alpha := by
    rw [← Real.rpow_add (by positivity)]
    congr 1
    ring
  have e3 : (x0 / m) ^ P.alpha * (m / x0) ^ P.alpha = 1 := by
    rw [← Real.mul_rpow (by positivity) (by positivity), div_mul_div_cancel₀ hm0.ne', div_self hx0.ne', Real.one_rpow]
  rw [e1, e2]
  linear_combination (2 * τ * (x0 / m) ^ (q - P.alpha) * (x0 / 10 ^ P.M_1) ^ P.alpha) * e3

/-- C75: `Zheng05`, with any scatter. -/
theorem C75_zheng (E : Env) (hE : E.isp = cubicSpl) (h : HM) (p : ZhengP) (central : Bool) (hh : h.hod = zheng05 p central) (ha : 0 ≤ p.alpha) (hs : 0 < p.sig_logm) {lo hi d : ℝ} (hd : 0 < d)
    (h5 : 5 * d < hi - lo) (D B : ℝ → ℝ) (U T Λ : ℕ → ℝ → ℝ) (h0 : ∀ m ∈ Set.Icc ((10:ℝ) ^ lo) ((10:ℝ) ^ hi), 0 ≤ D m)
    (hD : AntitoneOn (fun m => m * D m) (Set.Icc ((10:ℝ) ^ lo) ((10:ℝ) ^ hi))) :
    |(mesh h lo hi D B U T Λ d).meanTracerDen E - ∫ m in (10:ℝ) ^ lo..(10:ℝ) ^ hi, D m * ((zheng05 p central).cenOcc m + (zheng05 p central).satOcc m)| ≤
      43 * ((10:ℝ) ^ lo * D (10 ^ lo)) * (1 + ((10:ℝ) ^ hi / 10 ^ p.M_1) ^ p.alpha) * (d * Real.log 10) := by
  have hlh : lo < hi := by linarith
  have hsc : h.hod.sharpCut = false := by rw [hh]; cases central <;> rfl
  obtain ⟨c1, c2, -, -⟩ := C03_zheng_central p hs central
  obtain ⟨s1, s2, s3, s4, s5⟩ := C03_zheng_satellite p ha hs
  have hnum : ∀ m, tracerNumber h.hod m = (zheng05 p central).cenOcc m + (zheng05 p central).satOcc m := fun m => by
    unfold tracerNumber
    rw [hsc, Bool.false_and, if_neg Bool.false_ne_true, hh]
  have hlow : tracerLow h.hod ((10:ℝ) ^ lo) = (10:ℝ) ^ lo := by
    unfold tracerLow
    rw [hsc, Bool.false_and, if_neg Bool.false_ne_true]
  have key := C75_increasing_hod E hE h hd h5 (fun hc => absurd hc (by rw [hsc]; exact Bool.false_ne_true)) D B U T Λ
    (fun m hm => ⟨h0 m hm, by rw [hnum]; exact add_nonneg (c1 m).1.le (s3 m central)⟩) hD fun u hu v hv huv => by
      have u0 : 0 < u := lt_of_lt_of_le (by positivity) hu.1
      rw [hnum, hnum]
      refine add_le_add ?_ (s4 u v central u0 huv)
      rcases huv.eq_or_lt with e | e
      · rw [e]
      · exact (c2 u v u0 e).le
  simp only [hnum, hlow] at key
  refine key.trans ?_
  have hW : 0 ≤ (10:ℝ) ^ lo * D (10 ^ lo) := mul_nonneg (by positivity) (h0 _ ⟨le_rfl, (pow_lt hlh).le⟩)
  have hl : 0 ≤ d * Real.log 10 := (mul_pos hd L10).le
  have hsat : (zheng05 p central).satOcc (10 ^ hi) ≤ ((10:ℝ) ^ hi / 10 ^ p.M_1) ^ p.alpha := by
    refine (s5 _ central).trans ?_
    by_cases hm : (10:ℝ) ^ p.M_0 < 10 ^ hi
    · rw [s2 _ hm]
      refine Real.rpow_le_rpow (div_nonneg (by linarith) (by positivity)) ?_ ha
      have : (0:ℝ) ≤ 10 ^ p.M_0 := by positivity
      exact div_le_div_of_nonneg_right (by linarith) (by positivity)
    · rw [s1 _ false (not_lt.1 hm)]
      positivity
  have hle : (zheng05 p central).cenOcc (10 ^ hi) + (zheng05 p central).satOcc (10 ^ hi) ≤ 1 + ((10:ℝ) ^ hi / 10 ^ p.M_1) ^ p.alpha := add_le_add (c1 _).2.le hsat
  have := mul_le_mul_of_nonneg_right (mul_le_mul_of_nonneg_left hle (mul_nonneg (by norm_num : (0:ℝ) ≤ 43) hW)) hl
  exact this

theorem range_number (m : ℝ) (hm : (10:ℝ) ^ (11.5:ℝ) ≤ m) : tracerNumber stabHM.hod m = 1 := by
  have h : (10:ℝ) ^ (11:ℝ) < m := (Real.rpow_lt_rpow_of_exponent_lt (by norm_num) (by norm_num)).trans_le hm
  simp only [tracerNumber, stabHM, constant, bulk, satelliteOccupation, constSat, Bool.false_and, Bool.false_eq_true, if_false, Bool.and_false, Bool.or_self]
  rw [if_pos h]
  simp

/-- the hypotheses are met, for every upper end, by one tracer in every halo and a mass function that falls like `m⁻²`: the bounds are `1`, `2` and the power is one. -/
example : (∀ Hi, Within 11.5 Hi (fun m => 10 ^ (11.5:ℝ) / m ^ 2 * tracerNumber stabHM.hod m) 1 2) ∧
    (∀ m, (10:ℝ) ^ (11.5:ℝ) ≤ m → |m * (10 ^ (11.5:ℝ) / m ^ 2 * tracerNumber stabHM.hod m)| ≤ 1 * ((10:ℝ) ^ (11.5:ℝ) / m) ^ (1:ℝ)) ∧
    TwoTables stabHM.hod 11.5 16 11.5 15 0.1 12 16 0.05 ∧ (stabHM.hod.sharpCut = true → stabHM.hod.mmin < 15) := by
  have c : stabHM.hod.sharpCut = true → stabHM.hod.mmin < 15 := fun _ => by change (11:ℝ) < 15; norm_num
  set a := (10:ℝ) ^ (11.5:ℝ) with ha
  have a0 : 0 < a := by positivity
  have big : ∀ Hi, 11.5 ≤ Hi → Within 11.5 Hi (fun m => a / m ^ 2 * tracerNumber stabHM.hod m) 1 2 := by
    intro Hi hH
    have hle : a ≤ (10:ℝ) ^ Hi := Real.rpow_le_rpow_of_exponent_le (by norm_num) hH
    have w := Within.of_mul (lo := 11.5) (hi := Hi) hH (D := fun m => a / m ^ 2) (N := tracerNumber stabHM.hod) (fun m hm => ⟨by positivity, by rw [range_number m hm.1]; exact zero_le_one⟩)
      (fun u hu v hv huv => by
        have u0 : 0 < u := a0.trans_le hu.1
        have v0 : 0 < v := a0.trans_le hv.1
        have e : ∀ {w : ℝ}, 0 < w → w * (a / w ^ 2) = a / w := fun hw => by field_simp
        beta_reduce
        rw [e u0, e v0]
        exact div_le_div_of_nonneg_left a0.le u0 huv)
      (fun u hu v hv _ => by rw [range_number u hu.1, range_number v hv.1])
    rw [range_number _ hle, ← ha] at w
    have e1 : a * (a / a ^ 2) * 1 = 1 := by field_simp
    rw [e1, mul_one] at w
    exact w
  refine ⟨fun Hi => ?_, fun m hm => ?_, ⟨by norm_num, by norm_num, by norm_num, by norm_num, by norm_num, c⟩, c⟩
  · rcases le_total 11.5 Hi with h | h
    · exact big Hi h
    · exact (big 11.5 le_rfl).mono le_rfl h
  · have m0 : 0 < m := a0.trans_le hm
    have e : m * (a / m ^ 2 * 1) = a / m := by field_simp
    rw [range_number m hm, e, Real.rpow_one, one_mul, abs_of_pos (div_pos a0 m0)]

/-- the hypotheses of `C80_default` are met: satellites proportional to mass and a mass function that falls like `m⁻³`. -/
example : let P : ZehaviP := { M_min := 11, M_1 := 12, alpha := 1 }
    (∀ Hi, Within 12 Hi (fun m => (10:ℝ) ^ (12:ℝ) / m ^ 3 * tracerNumber (zehavi05 P false) m) 2 2) ∧ P.alpha < 2 ∧
      ∀ m, (10:ℝ) ^ P.M_1 ≤ m → |m * ((10:ℝ) ^ (12:ℝ) / m ^ 3)| ≤ 1 * ((10:ℝ) ^ P.M_1 / m) ^ (2:ℝ) := by
  intro P
  have hP1 : P.M_1 = 12 := rfl
  have hN : ∀ m, (10:ℝ) ^ (12:ℝ) ≤ m → tracerNumber (zehavi05 P false) m = 1 + m / (10:ℝ) ^ (12:ℝ) := fun m hm => by
    have h11 : (10:ℝ) ^ (11:ℝ) ≤ m := (Real.rpow_le_rpow_of_exponent_le (by norm_num) (by norm_num)).trans hm
    simp only [tracerNumber, zehavi05, poisson, satelliteOccupation, zehaviSat, zehaviCen, P, Bool.false_and, Bool.false_eq_true, if_false, Bool.or_self, Bool.and_false, Real.rpow_one]
    rw [if_neg (not_lt.2 h11)]
  have ha1 : (1:ℝ) ≤ (10:ℝ) ^ (12:ℝ) := Real.one_le_rpow (by norm_num) (by norm_num)
  rw [hP1]
  have hmono : ∀ u v : ℝ, (10:ℝ) ^ (12:ℝ) ≤ u → u ≤ v → v * ((10:ℝ) ^ (12:ℝ) / v ^ 3 * tracerNumber (zehavi05 P false) v) ≤ u * ((10:ℝ) ^ (12:ℝ) / u ^ 3 * tracerNumber (zehavi05 P false) u) := by
    intro u v hu huv
    rw [hN u hu, hN v (hu.trans huv)]
    generalize (10:ℝ) ^ (12:ℝ) = a at *
    have a0 : 0 < a := zero_lt_one.trans_le ha1
    have u0 : 0 < u := a0.trans_le hu
    have e : ∀ w : ℝ, 0 < w → w * (a / w ^ 3 * (1 + w / a)) = a / w ^ 2 + 1 / w := fun w hw => by field_simp
    rw [e u u0, e v (u0.trans_le huv)]
    gcongr
  have hpos : ∀ u : ℝ, (10:ℝ) ^ (12:ℝ) ≤ u → 0 ≤ u * ((10:ℝ) ^ (12:ℝ) / u ^ 3 * tracerNumber (zehavi05 P false) u) := by
    intro u hu
    rw [hN u hu]
    have u0 : 0 < u := lt_of_lt_of_le (by positivity) hu
    positivity
  have hfst : (10:ℝ) ^ (12:ℝ) * ((10:ℝ) ^ (12:ℝ) / ((10:ℝ) ^ (12:ℝ)) ^ 3 * tracerNumber (zehavi05 P false) ((10:ℝ) ^ (12:ℝ))) ≤ 2 := by
    rw [hN _ le_rfl]
    generalize (10:ℝ) ^ (12:ℝ) = a at *
    have a0 : 0 < a := zero_lt_one.trans_le ha1
    have e : a * (a / a ^ 3 * (1 + a / a)) = 2 / a := by field_simp; norm_num
    rw [e, div_le_iff₀ a0]
    linarith
  have big : ∀ Hi, 12 ≤ Hi → Within 12 Hi (fun m => (10:ℝ) ^ (12:ℝ) / m ^ 3 * tracerNumber (zehavi05 P false) m) 2 2 := by
    intro Hi hH
    have hle : (10:ℝ) ^ (12:ℝ) ≤ (10:ℝ) ^ Hi := Real.rpow_le_rpow_of_exponent_le (by norm_num) hH
    refine ⟨fun m hm => ?_, ?_, zero_le_two⟩
    · rw [abs_of_nonneg (hpos m hm.1)]
      exact (hmono _ m le_rfl hm.1).trans hfst
    · refine (var_le (P := fun m => -(m * ((10:ℝ) ^ (12:ℝ) / m ^ 3 * tracerNumber (zehavi05 P false) m))) hle fun u hu v hv huv => ?_).trans (ENNReal.ofReal_le_ofReal ?_)
      · have := hmono u v hu.1 huv
        rw [abs_of_nonpos (sub_nonpos.2 this)]
        linarith
      · have := hpos _ hle
        linarith [hfst]
  refine ⟨fun Hi => ?_, by norm_num [P], fun m hm => ?_⟩
  · rcases le_total 12 Hi with h | h
    · exact big Hi h
    · exact (big 12 le_rfl).mono le_rfl h
  · generalize (10:ℝ) ^ (12:ℝ) = a at *
    have a0 : 0 < a := zero_lt_one.trans_le ha1
    have m0 : 0 < m := a0.trans_le hm
    rw [abs_of_nonneg (by positivity), one_mul, Real.rpow_two]
    have e : m * (a / m ^ 3) = a / m ^ 2 := by field_simp
    rw [e, div_pow]
    refine div_le_div_of_nonneg_right ?_ (by positivity)
    nlinarith

end Halomod.HaloModel
