import Mathlib.Analysis.Convex.SpecificFunctions.Deriv
import Verif.Props.Profiles
import Verif.Props.Profiles4

/-!
# C77: more concentrated haloes

A profile whose logarithmic slope steepens outwards (every shape of the package except the constant one) puts a larger
share of the halo's mass inside any given fraction of its radius when its concentration is larger, is denser inside
exactly one crossing radius and less dense outside it, and is less suppressed in Fourier space.
-/
namespace Halomod.Profiles

open MeasureTheory Set Filter Topology

noncomputable section

/-- The logarithmic slope steepens strictly with radius: going inwards by a given factor `t` raises the density by
more at large radii than at small ones. -/
def Steep (f : ℝ → ℝ) : Prop :=
  ∀ t y y' : ℝ, 0 < t → t < 1 → 0 < y → y < y' → f (t * y) / f y < f (t * y') / f y'

/-! ### Two weights with a decreasing ratio -/

/-- Integrable, continuous and positive on `(0,1]`. -/
structure Weight (a : ℝ → ℝ) : Prop where
  cont : ContinuousOn a (Ioc 0 1)
  pos : ∀ t, 0 < t → t ≤ 1 → 0 < a t
  integ : IntervalIntegrable a volume 0 1

/-- The weight `b` decreases relative to `a`. -/
def Falls (a b : ℝ → ℝ) : Prop := ∀ s t, 0 < s → s < t → t ≤ 1 → b t * a s < b s * a t

lemma Weight.on {a : ℝ → ℝ} (ha : Weight a) {x y : ℝ} (hx : 0 ≤ x) (hxy : x ≤ y) (hy : y ≤ 1) :
    IntervalIntegrable a volume x y :=
  ha.integ.mono_set (by
    rw [uIcc_of_le hxy, uIcc_of_le zero_le_one]
    exact Icc_subset_Icc hx hy)

lemma Weight.int_pos {a : ℝ → ℝ} (ha : Weight a) {x y : ℝ} (hx : 0 ≤ x) (hxy : x < y) (hy : y ≤ 1) :
    0 < ∫ t in x..y, a t :=
  intervalIntegral.intervalIntegral_pos_of_pos_on (ha.on hx hxy.le hy)
    (fun t ht => ha.pos t (hx.trans_lt ht.1) (ht.2.le.trans hy)) hxy

/-- The share of the weight inside `x` is larger for the steeper weight. -/
lemma share_lt {a b : ℝ → ℝ} (ha : Weight a) (hb : Weight b) (h : Falls a b) {x : ℝ} (h0 : 0 < x) (h1 : x < 1) :
    (∫ t in (0 : ℝ)..x, a t) / (∫ t in (0 : ℝ)..1, a t) < (∫ t in (0 : ℝ)..x, b t) / (∫ t in (0 : ℝ)..1, b t) := by
  have pax := ha.pos x h0 h1.le
  have pbx := hb.pos x h0 h1.le
  have A1 := ha.int_pos le_rfl h0 h1.le
  have A2 := ha.int_pos h0.le h1 le_rfl
  have B1 := hb.int_pos le_rfl h0 h1.le
  have B2 := hb.int_pos h0.le h1 le_rfl
  have sA := intervalIntegral.integral_add_adjacent_intervals (ha.on le_rfl h0.le h1.le) (ha.on h0.le h1.le le_rfl)
  have sB := intervalIntegral.integral_add_adjacent_intervals (hb.on le_rfl h0.le h1.le) (hb.on h0.le h1.le le_rfl)
  have I1 : 0 < ∫ t in (0 : ℝ)..x, (b t * a x - b x * a t) := by
    refine intervalIntegral.intervalIntegral_pos_of_pos_on
      (((hb.on le_rfl h0.le h1.le).mul_const _).sub ((ha.on le_rfl h0.le h1.le).const_mul _)) (fun t ht => ?_) h0
    have := h t x ht.1 ht.2 h1.le
    linarith
  have I2 : 0 < ∫ t in x..1, (b x * a t - b t * a x) := by
    refine intervalIntegral.intervalIntegral_pos_of_pos_on
      (((ha.on h0.le h1.le le_rfl).const_mul _).sub ((hb.on h0.le h1.le le_rfl).mul_const _)) (fun t ht => ?_) h1
    have := h x t h0 ht.1 ht.2.le
    linarith
  rw [intervalIntegral.integral_sub ((hb.on le_rfl h0.le h1.le).mul_const _) ((ha.on le_rfl h0.le h1.le).const_mul _),
    intervalIntegral.integral_mul_const, intervalIntegral.integral_const_mul] at I1
  rw [intervalIntegral.integral_sub ((ha.on h0.le h1.le le_rfl).const_mul _) ((hb.on h0.le h1.le le_rfl).mul_const _),
    intervalIntegral.integral_mul_const, intervalIntegral.integral_const_mul] at I2
  rw [← sA, ← sB]
  generalize (∫ t in (0 : ℝ)..x, a t) = p at *
  generalize (∫ t in x..1, a t) = p' at *
  generalize (∫ t in (0 : ℝ)..x, b t) = q at *
  generalize (∫ t in x..1, b t) = q' at *
  rw [div_lt_div_iff₀ (by positivity) (by positivity)]
  have k1 : p * q' < q * p' := by
    have e1 : b x * p * q' ≤ q * a x * q' := by nlinarith
    have e2 : q * (q' * a x) < q * (b x * p') := by nlinarith
    have : b x * (p * q') < b x * (q * p') := by nlinarith
    exact lt_of_mul_lt_mul_left this pbx.le
  nlinarith

/-- The normalised weights cross exactly once. -/
lemma cross_once {a b : ℝ → ℝ} (ha : Weight a) (hb : Weight b) (h : Falls a b) :
    ∃ x, 0 < x ∧ x < 1 ∧
      (∀ t, 0 < t → t < x → a t / (∫ t in (0 : ℝ)..1, a t) < b t / (∫ t in (0 : ℝ)..1, b t)) ∧
      (∀ t, x < t → t ≤ 1 → b t / (∫ t in (0 : ℝ)..1, b t) < a t / (∫ t in (0 : ℝ)..1, a t)) := by
  have hA := ha.int_pos le_rfl one_pos le_rfl
  have hB := hb.int_pos le_rfl one_pos le_rfl
  set A := ∫ t in (0 : ℝ)..1, a t with hAd
  set B := ∫ t in (0 : ℝ)..1, b t with hBd
  have hz : ∫ t in (0 : ℝ)..1, (b t * A - a t * B) = 0 := by
    rw [intervalIntegral.integral_sub (hb.integ.mul_const _) (ha.integ.mul_const _),
      intervalIntegral.integral_mul_const, intervalIntegral.integral_mul_const, ← hAd, ← hBd]
    ring
  have hi : IntervalIntegrable (fun t => b t * A - a t * B) volume 0 1 :=
    (hb.integ.mul_const _).sub (ha.integ.mul_const _)
  have hc : ContinuousOn (fun t => b t * A - a t * B) (Ioo 0 1) :=
    ((hb.cont.mul continuousOn_const).sub (ha.cont.mul continuousOn_const)).mono Ioo_subset_Ioc_self
  obtain ⟨x, hx, hx0⟩ : ∃ x ∈ Ioo (0 : ℝ) 1, b x * A - a x * B = 0 := by
    by_contra hno
    push Not at hno
    by_cases hs : ∃ s ∈ Ioo (0 : ℝ) 1, b s * A - a s * B < 0
    · obtain ⟨s, hs, hs'⟩ := hs
      have : ∀ t ∈ Ioo (0 : ℝ) 1, 0 < -(b t * A - a t * B) := by
        intro t ht
        by_contra hcon
        push Not at hcon
        have hcon : 0 ≤ b t * A - a t * B := by linarith
        obtain ⟨u, hu, hu0⟩ := isPreconnected_Ioo.intermediate_value hs ht hc ⟨hs'.le, hcon⟩
        exact hno u hu hu0
      have := intervalIntegral.intervalIntegral_pos_of_pos_on hi.neg this one_pos
      rw [Pi.neg_def, intervalIntegral.integral_neg] at this
      linarith
    · push Not at hs
      have := intervalIntegral.intervalIntegral_pos_of_pos_on hi
        (fun t ht => lt_of_le_of_ne (hs t ht) (hno t ht).symm) one_pos
      linarith
  have pa := ha.pos x hx.1 hx.2.le
  have pb := hb.pos x hx.1 hx.2.le
  refine ⟨x, hx.1, hx.2, fun t h0 h1 => ?_, fun t h0 h1 => ?_⟩
  · have := h t x h0 h1 hx.2.le
    rw [div_lt_div_iff₀ hA hB]
    have : a x * (a t * B) < a x * (b t * A) := by
      have e : a x * B = b x * A := by linarith
      calc a x * (a t * B) = a t * (a x * B) := by ring
        _ = (b x * a t) * A := by rw [e]; ring
        _ < (b t * a x) * A := by gcongr
        _ = _ := by ring
    exact lt_of_mul_lt_mul_left this pa.le
  · have := h x t hx.1 h0 h1
    rw [div_lt_div_iff₀ hB hA]
    have : a x * (b t * A) < a x * (a t * B) := by
      have e : a x * B = b x * A := by linarith
      calc a x * (b t * A) = (b t * a x) * A := by ring
        _ < (b x * a t) * A := by gcongr
        _ = a t * (a x * B) := by rw [e]; ring
        _ = _ := by ring
    exact lt_of_mul_lt_mul_left this pa.le

/-- The average of a decreasing quantity is larger under the steeper weight. -/
lemma average_lt {a b w : ℝ → ℝ} (ha : Weight a) (hb : Weight b) (h : Falls a b) (hw : ContinuousOn w (Icc 0 1))
    (hd : ∀ s t, 0 < s → s < t → t ≤ 1 → w t < w s) :
    (∫ t in (0 : ℝ)..1, a t * w t) / (∫ t in (0 : ℝ)..1, a t)
      < (∫ t in (0 : ℝ)..1, b t * w t) / (∫ t in (0 : ℝ)..1, b t) := by
  obtain ⟨x, h0, h1, hl, hr⟩ := cross_once ha hb h
  have hA := ha.int_pos le_rfl one_pos le_rfl
  have hB := hb.int_pos le_rfl one_pos le_rfl
  have iaw : IntervalIntegrable (fun t => a t * w t) volume 0 1 :=
    ha.integ.mul_continuousOn (by rwa [uIcc_of_le zero_le_one])
  have ibw : IntervalIntegrable (fun t => b t * w t) volume 0 1 :=
    hb.integ.mul_continuousOn (by rwa [uIcc_of_le zero_le_one])
  set A := ∫ t in (0 : ℝ)..1, a t with hAd
  set B := ∫ t in (0 : ℝ)..1, b t with hBd
  have hi : IntervalIntegrable (fun t => (b t / B - a t / A) * (w t - w x)) volume 0 1 := by
    have : (fun t => (b t / B - a t / A) * (w t - w x))
        = fun t => ((b t * w t) / B - (a t * w t) / A) - (b t / B * w x - a t / A * w x) := by
      ext t
      ring
    rw [this]
    exact ((ibw.div_const _).sub (iaw.div_const _)).sub
      (((hb.integ.div_const _).mul_const _).sub ((ha.integ.div_const _).mul_const _))
  have sub {p q : ℝ} (hp : 0 ≤ p) (hpq : p ≤ q) (hq : q ≤ 1) :
      IntervalIntegrable (fun t => (b t / B - a t / A) * (w t - w x)) volume p q :=
    hi.mono_set (by
      rw [uIcc_of_le hpq, uIcc_of_le zero_le_one]
      exact Icc_subset_Icc hp hq)
  have P1 : 0 < ∫ t in (0 : ℝ)..x, (b t / B - a t / A) * (w t - w x) := by
    refine intervalIntegral.intervalIntegral_pos_of_pos_on (sub le_rfl h0.le h1.le) (fun t ht => ?_) h0
    exact mul_pos (sub_pos.mpr (hl t ht.1 ht.2)) (sub_pos.mpr (hd t x ht.1 ht.2 h1.le))
  have P2 : 0 < ∫ t in x..1, (b t / B - a t / A) * (w t - w x) := by
    refine intervalIntegral.intervalIntegral_pos_of_pos_on (sub h0.le h1.le le_rfl) (fun t ht => ?_) h1
    exact mul_pos_of_neg_of_neg (sub_neg.mpr (hr t ht.1 ht.2.le)) (sub_neg.mpr (hd x t h0 ht.1 ht.2.le))
  have hs := intervalIntegral.integral_add_adjacent_intervals (sub le_rfl h0.le h1.le) (sub h0.le h1.le le_rfl)
  have he : ∫ t in (0 : ℝ)..1, (b t / B - a t / A) * (w t - w x)
      = (∫ t in (0 : ℝ)..1, b t * w t) / B - (∫ t in (0 : ℝ)..1, a t * w t) / A := by
    have : (fun t => (b t / B - a t / A) * (w t - w x))
        = fun t => ((b t * w t) / B - (a t * w t) / A) - (b t / B * w x - a t / A * w x) := by
      ext t
      ring
    rw [this, intervalIntegral.integral_sub ((ibw.div_const _).sub (iaw.div_const _))
        (((hb.integ.div_const _).mul_const _).sub ((ha.integ.div_const _).mul_const _)),
      intervalIntegral.integral_sub (ibw.div_const _) (iaw.div_const _),
      intervalIntegral.integral_sub ((hb.integ.div_const _).mul_const _) ((ha.integ.div_const _).mul_const _),
      intervalIntegral.integral_div, intervalIntegral.integral_div, intervalIntegral.integral_mul_const,
      intervalIntegral.integral_mul_const, intervalIntegral.integral_div, intervalIntegral.integral_div, ← hAd, ← hBd,
      div_self hA.ne', div_self hB.ne']
    ring
  linarith

/-! ### From a shape function to a weight -/

/-- What is asked of a shape function. -/
structure Centred (f : ℝ → ℝ) : Prop where
  cont : ContinuousOn f (Ioi 0)
  pos : ∀ x, 0 < x → 0 < f x
  steep : Steep f
  integ : ∀ c, 0 < c → IntervalIntegrable (fun x => x ^ 2 * f x) volume 0 c

/-- The mass per unit of `t = r/R` of a halo of concentration `c`, up to its normalisation. -/
def shell (f : ℝ → ℝ) (c t : ℝ) : ℝ := (c * t) ^ 2 * f (c * t)

lemma shell_weight {f : ℝ → ℝ} (hf : Centred f) {c : ℝ} (hc : 0 < c) : Weight (shell f c) where
  cont := by
    unfold shell
    refine ContinuousOn.mul (by fun_prop) (hf.cont.comp (by fun_prop) fun t ht => ?_)
    have : 0 < t := ht.1
    exact mul_pos hc this
  pos t h0 _ := by
    have := hf.pos (c * t) (by positivity)
    unfold shell
    positivity
  integ := by
    have h := (hf.integ c hc).comp_mul_left (c := c)
    unfold shell
    simpa [hc.ne'] using h

lemma shell_falls {f : ℝ → ℝ} (hf : Centred f) {c c' : ℝ} (hc : 0 < c) (h : c < c') : Falls (shell f c) (shell f c') := by
  intro s t hs hst _
  have ht : 0 < t := hs.trans hst
  have hc' : 0 < c' := hc.trans h
  have p1 := hf.pos (c * t) (by positivity)
  have p2 := hf.pos (c' * t) (by positivity)
  have k := hf.steep (s / t) (c * t) (c' * t) (by positivity) (by rwa [div_lt_one ht]) (by positivity) (by gcongr)
  rw [show s / t * (c * t) = c * s by field_simp, show s / t * (c' * t) = c' * s by field_simp,
    div_lt_div_iff₀ p1 p2] at k
  unfold shell
  calc (c' * t) ^ 2 * f (c' * t) * ((c * s) ^ 2 * f (c * s)) = (c' * t * c * s) ^ 2 * (f (c * s) * f (c' * t)) := by ring
    _ < (c' * t * c * s) ^ 2 * (f (c' * s) * f (c * t)) := by gcongr
    _ = _ := by ring

lemma massInt_shell (f : ℝ → ℝ) (c x : ℝ) :
    massInt f (x * c) = c * ∫ t in (0 : ℝ)..x, shell f c t := by
  have h := intervalIntegral.mul_integral_comp_mul_left (a := 0) (b := x) (f := fun u => u ^ 2 * f u) c
  unfold massInt shell
  rw [h]
  simp [mul_comm]

lemma fourierInt_shell (f : ℝ → ℝ) {c κ : ℝ} (hc : 0 < c) (hκ : 0 < κ) :
    fourierInt f (κ / c) c = c * ∫ t in (0 : ℝ)..1, shell f c t * Real.sinc (κ * t) := by
  have h := intervalIntegral.mul_integral_comp_mul_left (a := 0) (b := 1)
    (f := fun u => u * f u * Real.sin (κ / c * u)) c
  unfold fourierInt
  rw [mul_zero, mul_one] at h
  rw [← h, ← intervalIntegral.integral_const_mul, ← intervalIntegral.integral_const_mul,
    ← intervalIntegral.integral_const_mul]
  refine integral_congr_Ioc zero_le_one fun t ht => ?_
  have h0 : 0 < t := ht.1
  have : κ / c * (c * t) = κ * t := by field_simp
  rw [this, Real.sinc_of_ne_zero (by positivity)]
  unfold shell
  field_simp

lemma sinc_falls {κ : ℝ} (hκ : 0 < κ) (hπ : κ ≤ Real.pi) {s t : ℝ} (hs : 0 < s) (hst : s < t) (ht : t ≤ 1) :
    Real.sinc (κ * t) < Real.sinc (κ * s) := by
  have ht0 : 0 < t := hs.trans hst
  have hy : 0 < κ * t := by positivity
  have hx : 0 < κ * s := by positivity
  have hle : κ * t ≤ Real.pi := by nlinarith
  rw [Real.sinc_of_ne_zero hy.ne', Real.sinc_of_ne_zero hx.ne', div_lt_div_iff₀ hy hx]
  have q1 : 0 < 1 - s / t := by rw [sub_pos, div_lt_one ht0]; exact hst
  have q2 : 0 < s / t := by positivity
  have hc := strictConcaveOn_sin_Icc.2 (⟨le_rfl, Real.pi_pos.le⟩ : (0 : ℝ) ∈ Icc 0 Real.pi) ⟨hy.le, hle⟩ hy.ne
    q1 q2 (by ring)
  simp only [smul_eq_mul, Real.sin_zero, mul_zero, zero_add] at hc
  have e : s / t * (κ * t) = κ * s := by field_simp
  rw [e] at hc
  calc Real.sin (κ * t) * (κ * s) = (s / t * Real.sin (κ * t)) * (κ * t) := by field_simp
    _ < Real.sin (κ * s) * (κ * t) := by gcongr

/-! ### Statements about shape functions -/

/-- C77: the share of the mass inside a given fraction of the radius grows with the concentration. -/
theorem C77_share {f : ℝ → ℝ} (hf : Centred f) {x c c' : ℝ} (h0 : 0 < x) (h1 : x < 1) (hc : 0 < c) (h : c < c') :
    massInt f (x * c) / massInt f c < massInt f (x * c') / massInt f c' := by
  have hc' := hc.trans h
  have e1 := massInt_shell f c 1
  have e2 := massInt_shell f c' 1
  rw [one_mul] at e1 e2
  rw [massInt_shell f c, massInt_shell f c', e1, e2, mul_div_mul_left _ _ hc.ne', mul_div_mul_left _ _ hc'.ne']
  exact share_lt (shell_weight hf hc) (shell_weight hf hc') (shell_falls hf hc h) h0 h1

lemma transform_lt {f : ℝ → ℝ} (hf : Centred f) {κ c c' : ℝ} (hκ : 0 < κ) (hπ : κ ≤ Real.pi) (hc : 0 < c) (h : c < c') :
    fourierInt f (κ / c) c / massInt f c < fourierInt f (κ / c') c' / massInt f c' := by
  have hc' := hc.trans h
  have e1 := massInt_shell f c 1
  have e2 := massInt_shell f c' 1
  rw [one_mul] at e1 e2
  rw [fourierInt_shell f hc hκ, fourierInt_shell f hc' hκ, e1, e2, mul_div_mul_left _ _ hc.ne',
    mul_div_mul_left _ _ hc'.ne']
  exact average_lt (shell_weight hf hc) (shell_weight hf hc') (shell_falls hf hc h) (by fun_prop)
    fun s t hs hst ht => sinc_falls hκ hπ hs hst ht

/-! ### The package's shapes -/

lemma Centred.of {f g : ℝ → ℝ} (cont : ContinuousOn f (Ioi 0)) (pos : ∀ x, 0 < x → 0 < f x) (steep : Steep f)
    (hg : ContinuousOn g (Ici 0)) (h : ∀ x, 0 ≤ x → x ^ 2 * f x = g x) : Centred f :=
  ⟨cont, pos, steep, fun _ hc => cont_integ hg h hc⟩

lemma one_add_falls {t y y' : ℝ} (h1 : t < 1) (h : y < y') (b : ℝ) (hb : 0 < b) :
    (b + t * y') * (b + y) < (b + t * y) * (b + y') := by
  nlinarith [mul_pos (mul_pos hb (sub_pos.mpr h1)) (sub_pos.mpr h)]

lemma nfw_centred : Centred nfwF := by
  refine Centred.of (g := fun x => x / (1 + x) ^ 2) ?_ C24_nfw_exact.f_pos ?_
    (ContinuousOn.div (by fun_prop) (by fun_prop) fun x (hx : 0 ≤ x) => by positivity) (fun x hx => nfw_sq hx)
  · unfold nfwF
    exact continuousOn_const.div (by fun_prop) fun x (hx : 0 < x) => by positivity
  · intro t y y' h0 h1 hy h
    have hy' := hy.trans h
    have k := one_add_falls h1 h 1 one_pos
    have k2 : ((1 + t * y') * (1 + y)) ^ 2 < ((1 + t * y) * (1 + y')) ^ 2 := by gcongr
    unfold nfwF
    rw [div_div_div_eq, div_div_div_eq, div_lt_div_iff₀ (by positivity) (by positivity)]
    have : (0 : ℝ) < 1.0 * 1.0 * (t * y * y') := by positivity
    nlinarith [mul_lt_mul_of_pos_left k2 this]

lemma hernquist_centred : Centred herF := by
  refine Centred.of (g := fun x => x / (1 + x) ^ 3) ?_ C24_hernquist_exact.f_pos ?_
    (ContinuousOn.div (by fun_prop) (by fun_prop) fun x (hx : 0 ≤ x) => by positivity) (fun x hx => her_sq hx)
  · unfold herF
    exact continuousOn_const.div (by fun_prop) fun x (hx : 0 < x) => by positivity
  · intro t y y' h0 h1 hy h
    have hy' := hy.trans h
    have k := one_add_falls h1 h 1 one_pos
    have k2 : ((1 + t * y') * (1 + y)) ^ 3 < ((1 + t * y) * (1 + y')) ^ 3 := by gcongr
    unfold herF
    rw [div_div_div_eq, div_div_div_eq, div_lt_div_iff₀ (by positivity) (by positivity)]
    have : (0 : ℝ) < 1.0 * 1.0 * (t * y * y') := by positivity
    nlinarith [mul_lt_mul_of_pos_left k2 this]

lemma cored_cont : ContinuousOn coredF (Ici 0) := by
  unfold coredF
  refine (continuousOn_const.div (by fun_prop) ?_).div (by fun_prop) ?_
  · intro x hx
    have : (0 : ℝ) ≤ x := hx
    norm_num
    linarith
  · intro x hx
    have : (0 : ℝ) ≤ x := hx
    positivity

lemma cored_centred : Centred coredF := by
  refine Centred.of (g := fun x => x ^ 2 * coredF x) (cored_cont.mono Ioi_subset_Ici_self) C24_cored_exact.f_pos ?_
    (ContinuousOn.mul (by fun_prop) cored_cont) (fun x hx => rfl)
  intro t y y' h0 h1 hy h
  have hy' := hy.trans h
  have k := one_add_falls h1 h 1 one_pos
  have k1 := one_add_falls h1 h 0.75 (by norm_num)
  have k2 : ((1 + t * y') * (1 + y)) ^ 2 < ((1 + t * y) * (1 + y')) ^ 2 := by gcongr
  have e (x : ℝ) (_ : 0 < x) : coredF x = 1 / ((0.75 + x) * (1 + x) ^ 2) := by
    unfold coredF
    rw [div_div, add_comm x, add_comm x]
    norm_num
  rw [e _ (by positivity), e _ hy, e _ (by positivity), e _ hy', div_div_div_eq, div_div_div_eq,
    div_lt_div_iff₀ (by positivity) (by positivity)]
  have p1 : (0 : ℝ) < (0.75 + t * y') * (0.75 + y) := by positivity
  have p2 : (0 : ℝ) < ((1 + t * y) * (1 + y')) ^ 2 := by positivity
  calc 1 * ((0.75 + y) * (1 + y) ^ 2) * ((0.75 + t * y') * (1 + t * y') ^ 2 * 1)
      = ((0.75 + t * y') * (0.75 + y)) * ((1 + t * y') * (1 + y)) ^ 2 := by ring
    _ < ((0.75 + t * y') * (0.75 + y)) * ((1 + t * y) * (1 + y')) ^ 2 := by gcongr
    _ < ((0.75 + t * y) * (0.75 + y')) * ((1 + t * y) * (1 + y')) ^ 2 := by gcongr
    _ = _ := by ring

lemma einasto_centred {a : ℝ} (ha : 0 < a) : Centred (einastoF a) := by
  have hca : Continuous fun x : ℝ => x ^ a := Real.continuous_rpow_const ha.le
  have hc : Continuous (einastoF a) := by
    unfold einastoF
    exact Real.continuous_exp.comp (continuous_const.mul (hca.sub continuous_const))
  refine Centred.of (g := fun x => x ^ 2 * einastoF a x) hc.continuousOn (fun x _ => Real.exp_pos _) ?_
    (ContinuousOn.mul (by fun_prop) hc.continuousOn) (fun x hx => rfl)
  intro t y y' h0 h1 hy h
  unfold einastoF
  rw [← Real.exp_sub, ← Real.exp_sub, Real.exp_lt_exp, Real.mul_rpow h0.le hy.le,
    Real.mul_rpow h0.le (hy.trans h).le]
  have k1 : t ^ a < 1 := Real.rpow_lt_one h0.le h1 ha
  have k2 : y ^ a < y' ^ a := Real.rpow_lt_rpow hy.le h ha
  have k3 : (-2.0 : ℝ) / a < 0 := div_neg_of_neg_of_pos (by norm_num) ha
  nlinarith [mul_pos_of_neg_of_neg k3 (by nlinarith : (t ^ a - 1) * (y' ^ a - y ^ a) < 0)]

lemma moore_centred : Centred mooreF := by
  have hc1 : Continuous fun x : ℝ => x ^ (1.5 : ℝ) := Real.continuous_rpow_const (by norm_num)
  have hc5 : Continuous fun x : ℝ => x ^ (0.5 : ℝ) := Real.continuous_rpow_const (by norm_num)
  refine Centred.of (g := fun x => x ^ (0.5 : ℝ) / (1 + x ^ (1.5 : ℝ))) ?_ ?_ ?_ ?_ (fun x hx => moore_sq hx)
  · unfold mooreF
    refine continuousOn_const.div (by fun_prop) fun x (hx : 0 < x) => ?_
    have := Real.rpow_pos_of_pos hx 1.5
    positivity
  · intro x hx
    have := Real.rpow_pos_of_pos hx 1.5
    unfold mooreF
    positivity
  · intro t y y' h0 h1 hy h
    have hy' := hy.trans h
    unfold mooreF
    rw [Real.mul_rpow h0.le hy.le, Real.mul_rpow h0.le hy'.le]
    have k0 := Real.rpow_pos_of_pos h0 1.5
    have k1 : t ^ (1.5 : ℝ) < 1 := Real.rpow_lt_one h0.le h1 (by norm_num)
    have k2 : y ^ (1.5 : ℝ) < y' ^ (1.5 : ℝ) := Real.rpow_lt_rpow hy.le h (by norm_num)
    have k3 := Real.rpow_pos_of_pos hy 1.5
    generalize t ^ (1.5 : ℝ) = T at *
    generalize y ^ (1.5 : ℝ) = Y at *
    generalize y' ^ (1.5 : ℝ) = Y' at *
    have k4 := k3.trans k2
    have k := one_add_falls k1 k2 1 one_pos
    rw [div_div_div_eq, div_div_div_eq, div_lt_div_iff₀ (by positivity) (by positivity)]
    have : (0 : ℝ) < 1.0 * 1.0 * (T * Y * Y') := by positivity
    nlinarith [mul_lt_mul_of_pos_left k this]
  · refine hc5.continuousOn.div (by fun_prop) fun x (hx : 0 ≤ x) => ?_
    have := Real.rpow_nonneg hx 1.5
    positivity

lemma gnfw_centred {α : ℝ} (hα : α < 3) : Centred (gnfwF α) where
  cont := by
    unfold gnfwF
    refine continuousOn_const.div (fun x (hx : 0 < x) => ?_) fun x (hx : 0 < x) => ?_
    · have h1 : (1 + x : ℝ) ≠ 0 := by positivity
      exact ((Real.continuousAt_rpow_const x α (Or.inl hx.ne')).mul
        (ContinuousAt.rpow_const (by fun_prop) (Or.inl h1))).continuousWithinAt
    · have := Real.rpow_pos_of_pos hx α
      positivity
  pos x hx := by
    have := Real.rpow_pos_of_pos hx α
    unfold gnfwF
    positivity
  steep t y y' h0 h1 hy h := by
    have hy' := hy.trans h
    unfold gnfwF
    have k := one_add_falls h1 h 1 one_pos
    have k2 : ((1 + t * y') * (1 + y)) ^ (3 - α) < ((1 + t * y) * (1 + y')) ^ (3 - α) :=
      Real.rpow_lt_rpow (by positivity) k (by linarith)
    rw [Real.mul_rpow (by positivity) (by positivity), Real.mul_rpow (by positivity) (by positivity)] at k2
    rw [Real.mul_rpow h0.le hy.le, Real.mul_rpow h0.le hy'.le, div_div_div_eq, div_div_div_eq,
      div_lt_div_iff₀ (by positivity) (by positivity)]
    have : (0 : ℝ) < 1.0 * 1.0 * (t ^ α * y ^ α * y' ^ α) := by positivity
    nlinarith [mul_lt_mul_of_pos_left k2 this]
  integ c hc := by
    have h1 : IntervalIntegrable (fun x : ℝ => x ^ (2 - α)) volume 0 c :=
      intervalIntegral.intervalIntegrable_rpow' (by linarith)
    have h2 : ContinuousOn (fun x : ℝ => 1 / (1 + x) ^ (3 - α)) (uIcc 0 c) := by
      rw [uIcc_of_le hc.le]
      refine continuousOn_const.div (fun x hx => ?_) fun x hx => ?_
      · have h1 : (1 + x : ℝ) ≠ 0 := by linarith [hx.1]
        exact (ContinuousAt.rpow_const (by fun_prop) (Or.inl h1)).continuousWithinAt
      · have : (0 : ℝ) < 1 + x := by linarith [hx.1]
        positivity
    refine (h1.mul_continuousOn h2).congr fun x hx => ?_
    rw [uIoc_of_le hc.le] at hx
    have hx0 : 0 < x := hx.1
    unfold gnfwF
    rw [Real.rpow_sub hx0]
    have := Real.rpow_pos_of_pos hx0 α
    norm_num
    field_simp

lemma pl_centred {a b : ℝ} (ha : 0 < a) (hb : b < 3) : Centred (plF a b) where
  cont := by
    unfold plF
    refine ContinuousOn.mul (continuousOn_const.div (fun x (hx : 0 < x) => ?_) fun x (hx : 0 < x) => ?_) (by fun_prop)
    · exact (Real.continuousAt_rpow_const x b (Or.inl hx.ne')).continuousWithinAt
    · exact (Real.rpow_pos_of_pos hx b).ne'
  pos x hx := by
    have := Real.rpow_pos_of_pos hx b
    unfold plF
    positivity
  steep t y y' h0 h1 hy h := by
    have hy' := hy.trans h
    have q0 := Real.rpow_pos_of_pos h0 b
    have q1 := Real.rpow_pos_of_pos hy b
    have q2 := Real.rpow_pos_of_pos hy' b
    have e (z : ℝ) (hz : 0 < z) : plF a b (t * z) / plF a b z = 1 / t ^ b * Real.exp (a * (1 - t) * z) := by
      have := Real.rpow_pos_of_pos hz b
      unfold plF
      rw [Real.mul_rpow h0.le hz.le, mul_div_mul_comm, ← Real.exp_sub,
        show -a * (t * z) - -a * z = a * (1 - t) * z by ring]
      congr 1
      norm_num
      field_simp
    rw [e y hy, e y' hy']
    have : 0 < a * (1 - t) := mul_pos ha (sub_pos.mpr h1)
    gcongr
  integ c hc := by
    have h1 : IntervalIntegrable (fun x : ℝ => x ^ (2 - b)) volume 0 c :=
      intervalIntegral.intervalIntegrable_rpow' (by linarith)
    refine (h1.mul_continuousOn (g := fun x => Real.exp (-a * x)) (by fun_prop)).congr fun x hx => ?_
    rw [uIoc_of_le hc.le] at hx
    have hx0 : 0 < x := hx.1
    unfold plF
    rw [Real.rpow_sub hx0]
    have := Real.rpow_pos_of_pos hx0 b
    norm_num
    field_simp

/-- C77: the slope of every shape of the package steepens outwards (the constant one excepted), for every
parameter the class admits. -/
theorem C77_shapes :
    Centred nfwF ∧ Centred herF ∧ Centred coredF ∧ Centred mooreF ∧ (∀ a, 0 < a → Centred (einastoF a)) ∧
      (∀ α, α < 3 → Centred (gnfwF α)) ∧ (∀ a b, 0 < a → b < 3 → Centred (plF a b)) :=
  ⟨nfw_centred, hernquist_centred, cored_centred, moore_centred, fun _ h => einasto_centred h, fun _ h => gnfw_centred h,
    fun _ _ h h' => pl_centred h h'⟩

/-! ### Statements about the methods -/

/-- `Einasto`, profiles.py:971-1008, with `a = self.params["alpha"]` and an arbitrary `_p`. -/
def einasto (a : ℝ) (p : ℝ → ℝ → ℝ) : Shape := { f := einastoF a, h := einastoH a, p := p }

/-- Shapes whose `_h` is the mass integral of a steepening `_f`. -/
structure Shape.Peaked (s : Shape) : Prop where
  mass : ∀ c, 0 < c → s.h c = massInt s.f c
  centred : Centred s.f

/-- C77: NFW, Hernquist, cored NFW, Moore and Einasto are of this kind. -/
theorem C77_peaked :
    nfw.Peaked ∧ hernquist.Peaked ∧ coredNfw.Peaked ∧ (∀ p, (moore p).Peaked) ∧ ∀ a p, 0 < a → (einasto a p).Peaked :=
  ⟨⟨C24_nfw_exact.mass, nfw_centred⟩, ⟨C24_hernquist_exact.mass, hernquist_centred⟩,
    ⟨C24_cored_exact.mass, cored_centred⟩, fun _ => ⟨fun _ hc => C24_moore _ hc, moore_centred⟩,
    fun _ _ ha => ⟨fun _ hc => C24_einasto ha hc, einasto_centred ha⟩⟩

lemma share_h {s : Shape} (hs : s.Peaked) {x c c' : ℝ} (h0 : 0 < x) (h1 : x < 1) (hc : 0 < c) (h : c < c') :
    s.h (x * c) / s.h c < s.h (x * c') / s.h c' := by
  have hc' := hc.trans h
  rw [hs.mass _ hc, hs.mass _ hc', hs.mass _ (by positivity), hs.mass _ (by positivity)]
  exact C77_share hs.centred h0 h1 hc h

/-- C77: of two haloes of any masses, the one with the larger concentration keeps the larger share of its mass inside
the same fraction `x` of its radius. -/
theorem C77_fraction {s : Shape} (hs : s.Peaked) (e : Env) {x m m' : ℝ} {c c' : Option ℝ} (h0 : 0 < x) (h1 : x < 1)
    (hc : 0 < s.conc e m c) (h : s.conc e m c < s.conc e m' c') :
    ∃ p q, s.cdf e x c (some m) .s = .ok p ∧ s.cdf e x c' (some m') .s = .ok q ∧ p < q :=
  ⟨_, _, rfl, rfl, share_h hs h0 h1 hc h⟩

/-- C77: where the concentration–mass relation falls, the share of the mass inside a fixed fraction of the radius falls
with the mass of the halo. -/
theorem C77_fraction_mass {s : Shape} (hs : s.Peaked) (hcm : s.cmOf = id) {e : Env} (he : e.Good) {x m m' : ℝ}
    (h0 : 0 < x) (h1 : x < 1) (hm' : 0 < m') (h : e.cmRel m' < e.cmRel m) :
    ∃ p q, s.cdf e x Option.none (some m) .s = .ok p ∧ s.cdf e x Option.none (some m') .s = .ok q ∧ q < p := by
  have k1 : s.conc e m Option.none = e.cmRel m := by simp [Shape.conc, Shape.cm, hcm]
  have k2 : s.conc e m' Option.none = e.cmRel m' := by simp [Shape.conc, Shape.cm, hcm]
  obtain ⟨p, q, hp, hq, hlt⟩ := C77_fraction hs e (m := m') (m' := m) (c := Option.none) (c' := Option.none) h0 h1
    (by rw [k2]; exact he.cm_pos m' hm') (by rw [k1, k2]; exact h)
  exact ⟨q, p, hq, hp, hlt⟩

/-- C77: for the same mass, a larger concentration puts a larger share of the mass inside every radius short of the
halo radius. -/
theorem C77_enclosed {s : Shape} (hs : s.Exact) (hf : Centred s.f) {e : Env} (he : e.Good) (hb : e.etaBloat = 0) {m r : ℝ}
    (hm : 0 < m) {c c' : Option ℝ} (hc : ∀ v, c = some v → 0 < v) (h : s.conc e m c < s.conc e m c') (h0 : 0 < r)
    (h1 : r < e.massToRadius m) :
    ∃ p q, s.cdf e r c (some m) = .ok p ∧ s.cdf e r c' (some m) = .ok q ∧ 0 < p ∧ p < q ∧ q < 1 := by
  have hR := (C23_overdensity he false hm).1
  have hcp := conc_pos hs he hm hc
  have hcp' := hcp.trans h
  have hp : s.Peaked := ⟨hs.mass, hf⟩
  have e1 (v : ℝ) : r / s.rs e m v = r / e.massToRadius m * v := by
    rw [rs_eq hs hb]
    field_simp
  have hx : r / e.massToRadius m < 1 := by rwa [div_lt_one hR]
  have hx0 : 0 < r / e.massToRadius m := by positivity
  refine ⟨_, _, rfl, rfl, ?_, ?_, ?_⟩ <;> dsimp only [Shape.conc] at * <;> rw [e1]
  · rw [hs.mass _ hcp, hs.mass _ (by positivity)]
    exact div_pos (massInt_pos hs (by positivity)) (massInt_pos hs hcp)
  · rw [e1]
    exact share_h hp hx0 hx hcp h
  · rw [hs.mass _ hcp', hs.mass _ (by positivity), massInt_shell]
    have e2 := massInt_shell s.f (c'.getD (s.cm e m)) 1
    rw [one_mul] at e2
    have w := shell_weight hf hcp'
    rw [e2, mul_div_mul_left _ _ hcp'.ne', div_lt_one (w.int_pos le_rfl one_pos le_rfl),
      ← intervalIntegral.integral_add_adjacent_intervals (w.on le_rfl hx0.le hx.le) (w.on hx0.le hx.le le_rfl)]
    linarith [w.int_pos hx0.le hx le_rfl]

/-- C77: for the same mass, the more concentrated halo is denser inside exactly one radius `r0` and less dense from there
to the halo radius. -/
theorem C77_density {s : Shape} (hs : s.Exact) (hf : Centred s.f) {e : Env} (he : e.Good) (hb : e.etaBloat = 0) {m : ℝ}
    (hm : 0 < m) {c c' : Option ℝ} (hc : ∀ v, c = some v → 0 < v) (h : s.conc e m c < s.conc e m c') :
    ∃ r0, 0 < r0 ∧ r0 < e.massToRadius m ∧
      (∀ r, 0 < r → r < r0 → val (s.rho e r m .none c) < val (s.rho e r m .none c')) ∧
      (∀ r, r0 < r → r ≤ e.massToRadius m → val (s.rho e r m .none c') < val (s.rho e r m .none c)) := by
  have hR := (C23_overdensity he false hm).1
  have hcp := conc_pos hs he hm hc
  have hcp' := hcp.trans h
  have hD := he.delta_pos
  have hd := he.dens_pos
  obtain ⟨x, hx0, hx1, hl, hr⟩ := cross_once (shell_weight hf hcp) (shell_weight hf hcp') (shell_falls hf hcp h)
  set R := e.massToRadius m with hRd
  have key (v : Option ℝ) (hv : 0 < s.conc e m v) (r : ℝ) (h0 : 0 < r) (h1 : r ≤ R) :
      val (s.rho e r m .none v) = e.deltaHalo * e.meanDens / (3 * (r / R) ^ 2)
        * (shell s.f (s.conc e m v) (r / R) / ∫ t in (0 : ℝ)..1, shell s.f (s.conc e m v) t) := by
    have e1 : r / s.rs e m (s.conc e m v) = s.conc e m v * (r / R) := by
      rw [rs_eq hs hb, ← hRd]
      field_simp
    have hr1 : s.rho e r m .none v = .ok (if s.conc e m v < r / s.rs e m (s.conc e m v) then 0.0 else
        s.f (r / s.rs e m (s.conc e m v)) * (s.conc e m v ^ 3 * e.deltaHalo * e.meanDens / (3 * s.h (s.conc e m v)))) := rfl
    have hle : ¬ s.conc e m v < s.conc e m v * (r / R) := by
      have : r / R ≤ 1 := by rwa [div_le_one hR]
      nlinarith
    have e2 := massInt_shell s.f (s.conc e m v) 1
    rw [one_mul] at e2
    have hi := (shell_weight hf hv).int_pos le_rfl one_pos le_rfl
    rw [hr1, e1, if_neg hle, hs.mass _ hv, e2]
    change s.f _ * _ = _
    generalize (∫ t in (0 : ℝ)..1, shell s.f (s.conc e m v) t) = I at *
    unfold shell
    generalize s.f (s.conc e m v * (r / R)) = F
    have : 0 < r / R := by positivity
    generalize r / R = t at *
    field_simp
  refine ⟨x * R, by positivity, by nlinarith, fun r h0 h1 => ?_, fun r h0 h1 => ?_⟩
  · have hr1 : r ≤ R := by nlinarith
    rw [key c hcp r h0 hr1, key c' hcp' r h0 hr1]
    exact mul_lt_mul_of_pos_left (hl (r / R) (by positivity) (by rwa [div_lt_iff₀ hR])) (by positivity)
  · have h00 : 0 < r := lt_trans (by positivity) h0
    rw [key c hcp r h00 h1, key c' hcp' r h00 h1]
    exact mul_lt_mul_of_pos_left (hr (r / R) (by rwa [lt_div_iff₀ hR]) (by rwa [div_le_one hR])) (by positivity)

/-- C77: for the same mass, a larger concentration raises the Fourier transform at every wavenumber with `k R ≤ π`. -/
theorem C77_transform {s : Shape} (hs : s.Exact) (hf : Centred s.f) {e : Env} (he : e.Good) (hb : e.etaBloat = 0)
    {m k : ℝ} (hm : 0 < m) {c c' : Option ℝ} (hc : ∀ v, c = some v → 0 < v) (h : s.conc e m c < s.conc e m c') (hk : 0 < k)
    (hkR : k * e.massToRadius m ≤ Real.pi) :
    ∃ p q, s.u e k m .m c = .ok p ∧ s.u e k m .m c' = .ok q ∧ p < q := by
  have hR := (C23_overdensity he false hm).1
  have hcp := conc_pos hs he hm hc
  have hcp' := hcp.trans h
  refine ⟨s.p (k * s.rs e m (s.conc e m c)) (s.conc e m c) / s.h (s.conc e m c),
    s.p (k * s.rs e m (s.conc e m c')) (s.conc e m c') / s.h (s.conc e m c'), rfl, rfl, ?_⟩
  have e1 (v : ℝ) : k * s.rs e m v = k * e.massToRadius m / v := by
    rw [rs_eq hs hb]
    ring
  rw [e1, e1, hs.four _ _ (by positivity) hcp, hs.four _ _ (by positivity) hcp', hs.mass _ hcp, hs.mass _ hcp']
  exact transform_lt hf (by positivity) hkR hcp h

/-- C77: only the shape of the profile matters: for the constant profile the concentration changes nothing. -/
theorem C77_constant {e : Env} (he : e.Good) (hb : e.etaBloat = 0) {m r : ℝ} (hm : 0 < m) {c c' : Option ℝ}
    (hc : 0 < constant.conc e m c) (hc' : 0 < constant.conc e m c') :
    constant.cdf e r c (some m) = constant.cdf e r c' (some m) := by
  have hR := (C23_overdensity he false hm).1
  change Except.ok (constant.h (r / constant.rs e m (constant.conc e m c)) / constant.h (constant.conc e m c))
    = Except.ok (constant.h (r / constant.rs e m (constant.conc e m c')) / constant.h (constant.conc e m c'))
  rw [rs_eq C24_constant_exact hb, rs_eq C24_constant_exact hb]
  congr 1
  generalize constant.conc e m c = v at *
  generalize constant.conc e m c' = v' at *
  simp only [constant, constH]
  field_simp

example : nfw.Exact ∧ Centred nfw.f ∧ fidEnv.Good ∧ fidEnv.etaBloat = 0
    ∧ nfw.conc fidEnv 1 Option.none < nfw.conc fidEnv 1 (some 7) :=
  ⟨C24_nfw_exact, nfw_centred, fidEnv_good, rfl, by norm_num [Shape.conc, Shape.cm, nfw, fidEnv]⟩

end

end Halomod.Profiles
