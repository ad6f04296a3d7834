import Verif.Props.MassRange

/-! # C75, C80 continued: the one-halo power of tracers -/
namespace Halomod.HaloModel

open Finset MeasureTheory Halomod.Tools Halomod.HOD

theorem square_error {a a' n n' e e' : ℝ} (ha : |a' - a| ≤ e') (hn : |n' - n| ≤ e) (hlt : e < n) :
    |a' / n' ^ 2 - a / n ^ 2| ≤ (e' + |a / n ^ 2| * (e * (2 * n + e))) / (n - e) ^ 2 := by
  have he : 0 ≤ e := (abs_nonneg _).trans hn
  have hn0 : 0 < n := he.trans_lt hlt
  have hlo : n - e ≤ n' := by linarith [(abs_le.1 hn).1]
  have hp : 0 < n - e := sub_pos.2 hlt
  have hn' : 0 < n' := hp.trans_le hlo
  have h2 : |n' ^ 2 - n ^ 2| ≤ e * (2 * n + e) := by
    rw [show n' ^ 2 - n ^ 2 = (n' - n) * (n' + n) by ring, abs_mul, abs_of_pos (by linarith : 0 < n' + n)]
    exact mul_le_mul hn (by linarith [(abs_le.1 hn).2]) (by linarith) he
  have : a' / n' ^ 2 - a / n ^ 2 = ((a' - a) - a / n ^ 2 * (n' ^ 2 - n ^ 2)) / n' ^ 2 := by field_simp; ring
  rw [this, abs_div, abs_of_pos (by positivity : 0 < n' ^ 2)]
  refine div_le_div₀ (add_nonneg ((abs_nonneg _).trans ha) (by positivity)) ?_ (by positivity) (pow_le_pow_left₀ hp.le hlo 2)
  refine (abs_sub _ _).trans (add_le_add ha ?_)
  rw [abs_mul]
  exact mul_le_mul_of_nonneg_left h2 (abs_nonneg _)

/-- C75: the one-halo power of tracers at a tabulated wavenumber: satellite pairs and central-satellite pairs. With `ε₀` the error bound of the density and `ε'` that of the integral over
pairs (from the lower limit the code uses), the table is within `(ε' + |value| ε₀ (2 dens + ε₀)) / (dens - ε₀)²` of the documented quotient. -/
theorem C75_one_halo_tracer (E : Env) (hE : E.isp = cubicSpl) (h : HM) {lo hi d : ℝ} (hd : 0 < d) (h5 : 5 * d < hi - lo)
    (hcut : h.hod.sharpCut = true → h.hod.mmin < hi) (D B : ℝ → ℝ) (U T Λ : ℕ → ℝ → ℝ) {M V M' V' : ℝ}
    (hN : Within lo hi (fun m => D m * tracerNumber h.hod m) M V) (j : ℕ) (hx : 0 < h.oneHaloMmin h.hod.mmin j ∧ h.oneHaloMmin h.hod.mmin j ≤ (10:ℝ) ^ hi) :
    let dens := ∫ m in tracerLow h.hod ((10:ℝ) ^ lo)..(10:ℝ) ^ hi, D m * tracerNumber h.hod m
    let ε₀ := (41 * M + V) * (d * Real.log 10)
    let pairs := fun F : ℝ → ℝ => (∫ m in max ((10:ℝ) ^ lo) (h.oneHaloMmin h.hod.mmin j)..(10:ℝ) ^ hi, F m) / dens ^ 2
    let bound := fun v : ℝ => ((41 * M' + V') * (d * Real.log 10) + |v| * (ε₀ * (2 * dens + ε₀))) / (dens - ε₀) ^ 2
    ε₀ < dens →
      (Within lo hi (fun m => T j m ^ 2 * D m * h.hod.ssPairs m) M' V' →
        |(mesh h lo hi D B U T Λ d).power1hSSTab E j - pairs fun m => T j m ^ 2 * D m * h.hod.ssPairs m| ≤ bound (pairs fun m => T j m ^ 2 * D m * h.hod.ssPairs m)) ∧
      (Within lo hi (fun m => D m * 2 * h.hod.csPairs m * T j m) M' V' →
        |(mesh h lo hi D B U T Λ d).power1hCSTab E j - pairs fun m => D m * 2 * h.hod.csPairs m * T j m| ≤ bound (pairs fun m => D m * 2 * h.hod.csPairs m * T j m)) := by
  intro dens ε₀ pairs bound hlt
  have h0 : |(mesh h lo hi D B U T Λ d).meanTracerDen E - dens| ≤ ε₀ := mesh_S_error E hE h hd h5 hcut D B U T Λ hN
  have key : ∀ {f : ℝ → ℝ}, Within lo hi f M' V' →
      |(mesh h lo hi D B U T Λ d).S E (fun i => f ((mesh h lo hi D B U T Λ d).m i)) (some (h.oneHaloMmin h.hod.mmin j)) -
        ∫ m in max ((10:ℝ) ^ lo) (h.oneHaloMmin h.hod.mmin j)..(10:ℝ) ^ hi, f m| ≤ (41 * M' + V') * (d * Real.log 10) := by
    intro f hf
    unfold HM.S
    rw [hE]
    exact C75_integral hd h5 hf.bound hf.var hf.pos (some (h.oneHaloMmin h.hod.mmin j)) fun x hx' => by
      rw [Option.mem_some_iff] at hx'; subst hx'; exact hx
  refine ⟨fun hf => ?_, fun hf => ?_⟩
  · exact square_error (key hf) h0 hlt
  · exact square_error (key hf) h0 hlt

/-- C80: the one-halo power of tracers when the largest mass of the table is raised and the step changed. -/
theorem C80_one_halo_tracer {E : Env} {h : HM} {lo hi hi' d d' : ℝ} {D B : ℝ → ℝ} {U T Λ : ℕ → ℝ → ℝ} (hE : E.isp = cubicSpl)
    (t : TwoTables h.hod lo hi' lo hi d lo hi' d') {M V τ p M' V' τ' p' : ℝ} (hf : Within lo hi' (fun m => D m * tracerNumber h.hod m) M V)
    (hp : 0 < p) (hτ : 0 ≤ τ) (htail : ∀ m ∈ Set.Icc ((10:ℝ) ^ hi) ((10:ℝ) ^ hi'), |m * (D m * tracerNumber h.hod m)| ≤ τ * ((10:ℝ) ^ hi / m) ^ p)
    (hp' : 0 < p') (hτ' : 0 ≤ τ') (j : ℕ) (hx : 0 < h.oneHaloMmin h.hod.mmin j ∧ h.oneHaloMmin h.hod.mmin j ≤ (10:ℝ) ^ hi) :
    let model := mesh h lo hi D B U T Λ d
    let model' := mesh h lo hi' D B U T Λ d'
    let e := (41 * M + V) * ((d + d') * Real.log 10) + τ / p
    let e' := (41 * M' + V') * ((d + d') * Real.log 10) + τ' / p'
    let bound := fun v : ℝ => (e' + |v| * (e * (2 * model.meanTracerDen E + e))) / (model.meanTracerDen E - e) ^ 2
    e < model.meanTracerDen E →
      (Within lo hi' (fun m => T j m ^ 2 * D m * h.hod.ssPairs m) M' V' →
        (∀ m ∈ Set.Icc ((10:ℝ) ^ hi) ((10:ℝ) ^ hi'), |m * (T j m ^ 2 * D m * h.hod.ssPairs m)| ≤ τ' * ((10:ℝ) ^ hi / m) ^ p') →
        |model'.power1hSSTab E j - model.power1hSSTab E j| ≤ bound (model.power1hSSTab E j)) ∧
      (Within lo hi' (fun m => D m * 2 * h.hod.csPairs m * T j m) M' V' →
        (∀ m ∈ Set.Icc ((10:ℝ) ^ hi) ((10:ℝ) ^ hi'), |m * (D m * 2 * h.hod.csPairs m * T j m)| ≤ τ' * ((10:ℝ) ^ hi / m) ^ p') →
        |model'.power1hCSTab E j - model.power1hCSTab E j| ≤ bound (model.power1hCSTab E j)) := by
  intro model model' e e' bound hlt
  have h0 : |model'.meanTracerDen E - model.meanTracerDen E| ≤ e :=
    (C80_tracer (B := B) (U := U) (T := T) (Λ := Λ) hE t hf (fun m a b => by rw [min_self] at a; rw [max_self] at b; exact absurd b (not_lt.2 a)) hp hτ htail).1
  have m1 := t.many
  have m2 := t.many'
  have s1 := t.step
  have s2 := t.step'
  have hh := t.inside.2.2.1
  have mono : ∀ {x y : ℝ}, x ≤ y → (10:ℝ) ^ x ≤ (10:ℝ) ^ y := fun hxy => Real.rpow_le_rpow_of_exponent_le (by norm_num) hxy
  have key : ∀ {f : ℝ → ℝ}, Within lo hi' f M' V' → (∀ m ∈ Set.Icc ((10:ℝ) ^ hi) ((10:ℝ) ^ hi'), |m * f m| ≤ τ' * ((10:ℝ) ^ hi / m) ^ p') →
      |model'.S E (fun i => f (model'.m i)) (some (h.oneHaloMmin h.hod.mmin j)) - model.S E (fun i => f (model.m i)) (some (h.oneHaloMmin h.hod.mmin j))| ≤ e' := by
    intro f hf ht
    have w := hf.mono le_rfl hh
    have e1 := C75_integral s1 m1 w.bound w.var w.pos (some (h.oneHaloMmin h.hod.mmin j)) fun x hx' => by
      rw [Option.mem_some_iff] at hx'; subst hx'; exact hx
    have e2 := C75_integral s2 m2 hf.bound hf.var hf.pos (some (h.oneHaloMmin h.hod.mmin j)) fun x hx' => by
      rw [Option.mem_some_iff] at hx'; subst hx'; exact ⟨hx.1, hx.2.trans (mono hh)⟩
    rw [Option.getD_some] at e1 e2
    set c := max ((10:ℝ) ^ lo) (h.oneHaloMmin h.hod.mmin j) with hc
    have c1 : (10:ℝ) ^ lo ≤ c := le_max_left _ _
    have c2 : c ≤ (10:ℝ) ^ hi := max_le (mono (by linarith)) hx.2
    have hl : lo ≤ hi' := by linarith
    have hint := hf.integrable hl
    have sub : ∀ {x y : ℝ}, x ∈ Set.Icc ((10:ℝ) ^ lo) ((10:ℝ) ^ hi') → y ∈ Set.Icc ((10:ℝ) ^ lo) ((10:ℝ) ^ hi') → IntervalIntegrable f volume x y := fun hx hy =>
      hint.mono_set (by rw [Set.uIcc_of_le (mono hl)]; exact Set.uIcc_subset_Icc hx hy)
    have a2 := intervalIntegral.integral_add_adjacent_intervals (sub ⟨c1, c2.trans (mono hh)⟩ (y := (10:ℝ) ^ hi) ⟨mono (by linarith), mono hh⟩)
      (sub (y := (10:ℝ) ^ hi') ⟨mono (by linarith), mono hh⟩ ⟨mono hl, le_rfl⟩)
    have tb := tail_bound (f := f) (by positivity : (0:ℝ) < (10:ℝ) ^ hi) (mono hh) hp' hτ' ht
    rw [← a2] at e2
    unfold HM.S
    rw [hE]
    change |splineIntegral cubicSpl (arangeN lo hi' d') (fun i : ℕ => (10:ℝ) ^ (lo + i * d')) (fun i : ℕ => f ((10:ℝ) ^ (lo + i * d'))) (some (h.oneHaloMmin h.hod.mmin j)) none true -
      splineIntegral cubicSpl (arangeN lo hi d) (fun i : ℕ => (10:ℝ) ^ (lo + i * d)) (fun i : ℕ => f ((10:ℝ) ^ (lo + i * d))) (some (h.oneHaloMmin h.hod.mmin j)) none true| ≤
        (41 * M' + V') * ((d + d') * Real.log 10) + τ' / p'
    rw [abs_le] at *
    constructor <;> linarith [e1.1, e1.2, e2.1, e2.2, tb.1, tb.2]
  exact ⟨fun hf ht => square_error (key hf ht) h0 hlt, fun hf ht => square_error (key hf ht) h0 hlt⟩

/-- the conditions on the lower limit hold where the turnover is off; those on the density are those of `C80_upper_end`. -/
example (j : ℕ) : 0 < ({ stabHM with turnover := false } : HM).oneHaloMmin stabHM.hod.mmin j ∧ ({ stabHM with turnover := false } : HM).oneHaloMmin stabHM.hod.mmin j ≤ (10:ℝ) ^ (15:ℝ) := by
  have e : ({ stabHM with turnover := false } : HM).oneHaloMmin stabHM.hod.mmin j = 11 := by
    unfold HM.oneHaloMmin
    dsimp only
    rw [if_neg Bool.false_ne_true]
    rfl
  rw [e]
  refine ⟨by norm_num, ?_⟩
  have : (10:ℝ) ^ (2:ℝ) ≤ (10:ℝ) ^ (15:ℝ) := Real.rpow_le_rpow_of_exponent_le (by norm_num) (by norm_num)
  norm_num at this ⊢

end Halomod.HaloModel
