import Verif.Model.Wdm
import Verif.Props.HaloModel3

/-! # C43: warm dark matter -/
namespace Halomod.Wdm

open Halomod.Tools Halomod.HaloModel

/-! ## the class factory -/

/-- well-formed heap: no existing class mentions a class not yet made. -/
structure Heap.Ok (H : Heap) : Prop where
  mro : ∀ c < H.next, ∀ d ∈ H.mro c, d < H.next

/-- the four parameters the factory adds. -/
def wdmKeys : List String := ["g1", "g2", "beta0", "beta1"]

theorem wdmDefaults_isSome (k : String) : (wdmDefaults k).isSome ↔ k ∈ wdmKeys := by
  unfold wdmDefaults wdmKeys
  simp only [List.mem_cons, List.not_mem_nil, or_false]
  split_ifs <;> simp_all

theorem findSome_congr {l : List ℕ} {f g : ℕ → Option ℕ} (h : ∀ d ∈ l, f d = g d) :
    l.findSome? f = l.findSome? g := by
  induction l with
  | nil => rfl
  | cons a l ih =>
    rw [List.findSome?_cons, List.findSome?_cons, h a (by simp), ih (fun d hd => h d (by simp [hd]))]

/-- where the factory's classes find their defaults: the existing ones as before, the new one where its base
does. -/
theorem factory_ref (H : Heap) (hH : H.Ok) (x : ℕ) (hx : x < H.next) :
    (∀ c < H.next, (factory H x).2.ref c = H.ref c) ∧ (factory H x).2.ref (factory H x).1 = H.ref x ∧
    (factory H x).1 = H.next ∧ (factory H x).2.next = H.next + 1 := by
  have h1 : ∀ (H1 : Heap), H1.mro = (fun c => if c = H.next then H.next :: H.mro x else H.mro c) →
      H1.own = (fun c => if c = H.next then none else H.own c) →
      (∀ c < H.next, H1.ref c = H.ref c) ∧ H1.ref H.next = H.ref x := by
    intro H1 hm ho
    unfold Heap.ref
    rw [hm, ho]
    constructor
    · intro c hc
      simp only [hc.ne, if_false]
      apply findSome_congr
      intro d hd
      rw [if_neg (hH.mro c hc d hd).ne]
    · simp only [if_true, List.findSome?_cons]
      apply findSome_congr
      intro d hd
      rw [if_neg (hH.mro x hx d hd).ne]
  unfold factory
  simp only
  split
  · exact ⟨(h1 _ rfl rfl).1, (h1 _ rfl rfl).2, rfl, rfl⟩
  · exact ⟨(h1 _ rfl rfl).1, (h1 _ rfl rfl).2, rfl, rfl⟩

theorem factory_ok (H : Heap) (hH : H.Ok) (x : ℕ) (hx : x < H.next) : (factory H x).2.Ok := by
  have key : ∀ (H1 : Heap), H1.mro = (fun c => if c = H.next then H.next :: H.mro x else H.mro c) →
      H1.next = H.next + 1 → H1.Ok := by
    intro H1 hm hn
    constructor
    intro c hc d hd
    rw [hm] at hd
    rw [hn] at hc ⊢
    by_cases h : c = H.next
    · simp only [h, if_true, List.mem_cons] at hd
      rcases hd with rfl | hd
      · omega
      · have := hH.mro x hx d hd; omega
    · simp only [h, if_false] at hd
      have := hH.mro c (by omega) d hd; omega
  unfold factory
  simp only
  split <;> exact key _ rfl rfl

theorem factory_dict (H : Heap) (hH : H.Ok) (x : ℕ) (hx : x < H.next) (i : ℕ) :
    (factory H x).2.dict i = if H.ref x = some i then (H.dict i).update wdmDefaults else H.dict i := by
  have hr : (⟨fun c => if c = H.next then H.next :: H.mro x else H.mro c,
      fun c => if c = H.next then none else H.own c, H.dict, H.next + 1⟩ : Heap).ref H.next = H.ref x := by
    unfold Heap.ref
    simp only [if_true, List.findSome?_cons]
    apply findSome_congr
    intro d hd
    rw [if_neg (hH.mro x hx d hd).ne]
  unfold factory
  simp only [hr]
  cases h : H.ref x with
  | none => simp
  | some r =>
    simp only [Option.some.injEq]
    by_cases hi : i = r
    · subst hi; simp
    · rw [if_neg hi, if_neg (Ne.symm hi)]

/-- the default parameters of an existing class after a factory call. -/
theorem factory_defaults (H : Heap) (hH : H.Ok) (x : ℕ) (hx : x < H.next) (c : ℕ) (hc : c < H.next) (k : String) :
    (factory H x).2.defaults c k =
      if H.ref c = H.ref x ∧ (H.ref c).isSome ∧ k ∈ wdmKeys then wdmDefaults k else H.defaults c k := by
  unfold Heap.defaults
  rw [(factory_ref H hH x hx).1 c hc]
  cases h : H.ref c with
  | none => simp
  | some r =>
    simp only [Option.bind_some, factory_dict H hH x hx r, Option.isSome_some, true_and]
    by_cases he : H.ref x = some r
    · rw [if_pos he]
      simp only [he, true_and]
      by_cases hk : k ∈ wdmKeys
      · rw [if_pos hk]
        unfold Dict.update
        have := (wdmDefaults_isSome k).mpr hk
        obtain ⟨v, hv⟩ := Option.isSome_iff_exists.mp this
        rw [hv]; rfl
      · rw [if_neg hk]
        unfold Dict.update
        have : wdmDefaults k = none := by
          rw [← Option.not_isSome_iff_eq_none, wdmDefaults_isSome]; exact hk
        rw [this]; rfl
    · rw [if_neg he, if_neg]
      rintro ⟨h2, _⟩
      exact he h2.symm

/-- C43: the new class has the parameters of its base and the four rescaling parameters. -/
theorem C43_new_class (H : Heap) (hH : H.Ok) (x : ℕ) (hx : x < H.next) (hr : (H.ref x).isSome) (k : String) :
    (factory H x).2.defaults (factory H x).1 k = if k ∈ wdmKeys then wdmDefaults k else H.defaults x k := by
  have e : (factory H x).2.defaults (factory H x).1 k = (factory H x).2.defaults x k := by
    unfold Heap.defaults
    rw [(factory_ref H hH x hx).2.1, (factory_ref H hH x hx).1 x hx]
  rw [e, factory_defaults H hH x hx x hx k]
  simp [hr]

theorem factories_inv (xs : List ℕ) : ∀ (H : Heap), H.Ok → (∀ x ∈ xs, x < H.next) → ∀ c < H.next,
    (factories H xs).ref c = H.ref c ∧
    ∀ k, k ∉ wdmKeys → (factories H xs).defaults c k = H.defaults c k := by
  induction xs with
  | nil => intro H _ _ c _; exact ⟨rfl, fun _ _ => rfl⟩
  | cons x xs ih =>
    intro H hH hx c hc
    have hxl := hx x (by simp)
    have hn := (factory_ref H hH x hxl).2.2.2
    have := ih (factory H x).2 (factory_ok H hH x hxl)
      (fun y hy => by have := hx y (by simp [hy]); omega) c (by omega)
    unfold factories
    refine ⟨this.1.trans ((factory_ref H hH x hxl).1 c hc), fun k hk => ?_⟩
    rw [this.2 k hk, factory_defaults H hH x hxl c hc, if_neg (fun h => hk h.2.2)]

/-- C43, over every history of factory calls on existing classes: no default *value* of any existing class
changes except, possibly, for the four keys `g1`, `g2`, `beta0`, `beta1`.
Partial: those four keys are added to the existing classes themselves — see `C43_base_polluted`. -/
theorem C43_values_kept_partial (H : Heap) (hH : H.Ok) (xs : List ℕ) (hx : ∀ x ∈ xs, x < H.next) (c : ℕ)
    (hc : c < H.next) (k : String) (hk : k ∉ wdmKeys) : (factories H xs).defaults c k = H.defaults c k :=
  (factories_inv xs H hH hx c hc).2 k hk

/-- C43: classes whose defaults live in another dictionary are untouched. -/
theorem C43_other_classes (H : Heap) (hH : H.Ok) (x : ℕ) (hx : x < H.next) (c : ℕ) (hc : c < H.next)
    (hne : H.ref c ≠ H.ref x) : (factory H x).2.defaults c = H.defaults c := by
  funext k
  rw [factory_defaults H hH x hx c hc, if_neg (fun h => hne h.1)]

/-- C43 finding: making the WDM class of `x` changes `x` itself (and every class sharing its dictionary:
parents it inherits `_defaults` from, siblings, aliases): afterwards they have the four WDM parameters among
their defaults, and `x(g1=..)`, which raised before, is accepted. -/
theorem C43_base_polluted (H : Heap) (hH : H.Ok) (x c : ℕ) (hx : x < H.next) (hc : c < H.next)
    (hr : (H.ref x).isSome) (hs : H.ref c = H.ref x) (hno : H.defaults c "g1" = none) (v : ℝ) :
    (factory H x).2.defaults c "g1" = some 60 ∧
    instantiate H c (fun k => if k = "g1" then some v else none) = none ∧
    ∃ p, instantiate (factory H x).2 c (fun k => if k = "g1" then some v else none) = some p ∧
      p "g1" = some v := by
  have h1 : (factory H x).2.defaults c "g1" = some 60 := by
    rw [factory_defaults H hH x hx c hc, if_pos ⟨hs, by rw [hs]; exact hr, by simp [wdmKeys]⟩]
    simp [wdmDefaults]
  refine ⟨h1, ?_, ?_⟩
  · unfold instantiate
    rw [if_neg]
    intro h
    have := h "g1" (by simp)
    rw [hno] at this
    simp at this
  · refine ⟨_, by
      unfold instantiate
      rw [if_pos]
      intro k hk
      by_cases hkk : k = "g1"
      · rw [hkk, h1]; rfl
      · simp [hkk] at hk, ?_⟩
    simp [Dict.update]

/-- C43: a second WDM class of the same base changes no existing class any further. -/
theorem C43_idempotent (H : Heap) (hH : H.Ok) (x c : ℕ) (hx : x < H.next) (hc : c < H.next) :
    (factories H [x, x]).defaults c = (factories H [x]).defaults c := by
  have h1 := factory_ref H hH x hx
  funext k
  change (factory (factory H x).2 x).2.defaults c k = (factory H x).2.defaults c k
  rw [factory_defaults _ (factory_ok H hH x hx) x (by omega) c (by omega), h1.1 c hc, h1.1 x hx,
    factory_defaults H hH x hx c hc]
  split_ifs <;> rfl

/-- C43: `"DuffyWDM"` and `"Duffy"` name the same base relation, for every name. -/
theorem C43_suffix (name : List Char) (h : ¬ "WDM".toList <:+ name) :
    stripWDM (name ++ "WDM".toList) = name ∧ stripWDM name = name := by
  unfold stripWDM
  constructor
  · rw [if_pos]
    · simp
    · rw [List.isSuffixOf_iff_suffix]; exact List.suffix_append _ _
  · rw [if_neg]
    rw [List.isSuffixOf_iff_suffix]; exact h

/-- C43 finding: subclassing a WDM relation cannot be instantiated: `super(self.__class__, self)` finds the
WDM class again at every nested call, forever. -/
theorem C43_subclass_recursion (s K : ℕ) (rest : List ℕ) (hasInit wdm : ℕ → Bool) (hs : hasInit s = false)
    (hK : hasInit K = true) (hw : wdm K = true) (n : ℕ) :
    initTarget (s :: K :: rest) hasInit wdm n = some K := by
  induction n with
  | zero => simp [initTarget, List.find?, hs, hK]
  | succ n ih => simp [initTarget, ih, hw, List.find?, hK]

/-- C43: a WDM class itself is fine: the second call is the base's. -/
theorem C43_direct_instance (K x : ℕ) (rest : List ℕ) (hasInit wdm : ℕ → Bool) (hK : hasInit K = true)
    (hx : hasInit x = true) (hw : wdm K = true) (hwx : wdm x = false) :
    initTarget (K :: x :: rest) hasInit wdm 0 = some K ∧ initTarget (K :: x :: rest) hasInit wdm 1 = some x ∧
    ∀ n, 2 ≤ n → initTarget (K :: x :: rest) hasInit wdm n = none := by
  have h0 : initTarget (K :: x :: rest) hasInit wdm 0 = some K := by simp [initTarget, List.find?, hK]
  have h1 : initTarget (K :: x :: rest) hasInit wdm 1 = some x := by
    simp [initTarget, List.find?, hK, hx, hw]
  refine ⟨h0, h1, fun n hn => ?_⟩
  induction n, hn using Nat.le_induction with
  | base => rw [initTarget, h1]; simp [hwx]
  | succ n _ ih => rw [initTarget, ih]

/-! ## the rescaled concentration -/

/-- C43: up to the redshift `b1/b0` the WDM concentration is never above the CDM one, with equality only for
a vanishing half-mode mass. -/
theorem C43_lowers (base : ℝ → ℝ → ℝ) (g1 g2 b0 b1 mhm m z : ℝ) (hb : 0 < base m z) (hg1 : 0 < g1) (hg2 : 0 < g2)
    (hm : 0 < m) (hh : 0 < mhm) (hz : 0 ≤ z) (hzz : b0 * z ≤ b1) :
    0 < cmWdm base g1 g2 b0 b1 mhm m z ∧ cmWdm base g1 g2 b0 b1 mhm m z < base m z := by
  have hq : 1 < 1 + g1 * mhm / m := by
    have : 0 < g1 * mhm / m := by positivity
    linarith
  have h1 : (1 + g1 * mhm / m) ^ (-g2) < 1 := Real.rpow_lt_one_of_one_lt_of_neg hq (by linarith)
  have h1' : 0 < (1 + g1 * mhm / m) ^ (-g2) := by positivity
  have h2 : (1 + z) ^ (b0 * z - b1) ≤ 1 := Real.rpow_le_one_of_one_le_of_nonpos (by linarith) (by linarith)
  have h2' : 0 < (1 + z) ^ (b0 * z - b1) := by positivity
  unfold cmWdm
  refine ⟨by positivity, ?_⟩
  calc base m z * (1 + g1 * mhm / m) ^ (-g2) * (1 + z) ^ (b0 * z - b1)
      ≤ base m z * (1 + g1 * mhm / m) ^ (-g2) * 1 := by gcongr
    _ < base m z * 1 * 1 := by gcongr
    _ = base m z := by ring

/-- C43: for the default parameters that is every redshift up to 1.5. -/
theorem C43_lowers_default (base : ℝ → ℝ → ℝ) (mhm m z : ℝ) (hb : 0 < base m z) (hm : 0 < m) (hh : 0 < mhm)
    (hz : 0 ≤ z) (hz1 : z ≤ 1.5) : cmWdm base 60 0.17 0.026 0.04 mhm m z < base m z :=
  (C43_lowers base 60 0.17 0.026 0.04 mhm m z hb (by norm_num) (by norm_num) hm hh hz (by linarith)).2

/-- C43: the suppression is stronger for smaller haloes. -/
theorem C43_suppression_monotone (g1 g2 b0 b1 mhm m m' z : ℝ) (hg1 : 0 < g1) (hg2 : 0 < g2) (hh : 0 < mhm)
    (hm : 0 < m) (hmm : m < m') (hz : 0 ≤ z) :
    cmWdm (fun _ _ => 1) g1 g2 b0 b1 mhm m z < cmWdm (fun _ _ => 1) g1 g2 b0 b1 mhm m' z := by
  unfold cmWdm
  have h2' : 0 < (1 + z) ^ (b0 * z - b1) := by positivity
  have hm' : 0 < m' := hm.trans hmm
  have : (1 + g1 * mhm / m) ^ (-g2) < (1 + g1 * mhm / m') ^ (-g2) := by
    apply Real.rpow_lt_rpow_of_neg (by positivity) _ (by linarith)
    have : g1 * mhm / m' < g1 * mhm / m := div_lt_div_of_pos_left (by positivity) hm hmm
    linarith
  have := mul_lt_mul_of_pos_right this h2'
  simpa using this

/-- C43: "the rescaling only lowers concentrations" is false at high redshift: beyond `b1/b0` (about 1.54 for
the defaults) every halo that is massive enough gets a *higher* concentration than in CDM. -/
theorem C43_raises_at_high_z (base : ℝ → ℝ → ℝ) (g1 g2 b0 b1 mhm z : ℝ) (hg1 : 0 < g1) (hg2 : 0 < g2)
    (hh : 0 < mhm) (hz : 0 < z) (hzz : b1 < b0 * z) :
    ∃ M, 0 < M ∧ ∀ m, M ≤ m → 0 < base m z → base m z < cmWdm base g1 g2 b0 b1 mhm m z := by
  set A := (1 + z) ^ (b0 * z - b1) with hA
  have hA1 : 1 < A := Real.one_lt_rpow (by linarith) (by linarith)
  set B := A ^ (1 / (2 * g2)) with hB
  have hB1 : 1 < B := Real.one_lt_rpow hA1 (by positivity)
  refine ⟨g1 * mhm / (B - 1), div_pos (by positivity) (by linarith), fun m hm hb => ?_⟩
  have hM : 0 < g1 * mhm / (B - 1) := div_pos (by positivity) (by linarith)
  have hm0 : 0 < m := hM.trans_le hm
  have hle : 1 + g1 * mhm / m ≤ B := by
    have : g1 * mhm / m ≤ B - 1 := by
      rw [div_le_iff₀ hm0]
      rw [div_le_iff₀ (by linarith)] at hm
      linarith
    linarith
  have hq : 0 < 1 + g1 * mhm / m := by positivity
  have h1 : B ^ (-g2) ≤ (1 + g1 * mhm / m) ^ (-g2) := Real.rpow_le_rpow_of_nonpos hq hle (by linarith)
  have h2 : B ^ (-g2) = A ^ (-(1 / 2) : ℝ) := by
    rw [hB, ← Real.rpow_mul (by linarith)]
    congr 1
    field_simp
  have h3 : A ^ (-(1 / 2) : ℝ) * A = A ^ ((1 / 2) : ℝ) := by
    nth_rewrite 2 [← Real.rpow_one A]
    rw [← Real.rpow_add (by linarith)]
    norm_num
  have h4 : 1 < A ^ ((1 / 2) : ℝ) := Real.one_lt_rpow hA1 (by norm_num)
  have hA0 : 0 < A := by linarith
  have h5 : 1 < (1 + g1 * mhm / m) ^ (-g2) * A := by
    calc (1:ℝ) < A ^ (-(1 / 2) : ℝ) * A := by rw [h3]; exact h4
      _ = B ^ (-g2) * A := by rw [h2]
      _ ≤ _ := by gcongr
  unfold cmWdm
  rw [mul_assoc]
  exact lt_mul_of_one_lt_right hb h5

/-! ## the WDM halo model -/

variable {E : Env} {h : HM}

/-- C43: halo and smooth matter add up to the mean density. -/
theorem C43_densities (md : ℝ) (hmd : md ≠ 0) : meanDensityHalos h + meanDensitySmooth h md = md := by
  unfold meanDensityHalos meanDensitySmooth fHalos
  field_simp
  ring

/-- C43: the mass-weighted bias of halo and smooth matter is one, when not all mass is in haloes. -/
theorem C43_unit_bias (md : ℝ) (hf : fHalos h md ≠ 1) :
    fHalos h md * h.biasEffMatter E + (1 - fHalos h md) * biasSmooth E h md = 1 := by
  unfold biasSmooth
  have : 1 - fHalos h md ≠ 0 := fun e => hf (by linarith)
  field_simp
  ring

/-- C43: with `force_unity_dm_bias` (the default) the smooth component is unbiased. -/
theorem C43_smooth_unbiased (md : ℝ) (hf : fHalos h md ≠ 1) (hu : h.forceUnity = true) : biasSmooth E h md = 1 := by
  unfold biasSmooth HM.biasEffMatter
  have : 1 - fHalos h md ≠ 0 := fun e => hf (by linarith)
  rw [hu, if_pos rfl, mul_one, div_self this]

/-- C43: in the total, the halo-halo term contributes exactly the 1-halo plus 2-halo power. -/
theorem C43_total (md : ℝ) (u : ℕ → ℝ) (p1 p2 k : ℝ) (hmd : md ≠ 0) (hr : h.rhoGtm ≠ 0) :
    powerTotal E h md u p1 p2 k =
      ((1 - fHalos h md) * biasSmooth E h md) ^ 2 * h.phc k
      + 2 * ((1 - fHalos h md) * biasSmooth E h md) *
        (fHalos h md * (simpsonX h.nm h.m (fun i => h.m i * h.dndm i * h.bias i * u i) / h.rhoGtm)) * h.phc k
      + (p1 + p2) := by
  unfold powerTotal powerSS powerSH powerHH
  have e : fHalos h md ^ 2 * ((p1 + p2) * md ^ 2 / h.rhoGtm ^ 2) = p1 + p2 := by
    unfold fHalos
    field_simp
  rw [e]
  ring

/-- C43 finding: the 2-halo matter power is already normalised to the matter in haloes, so the total counts
it without its share of mass.  On large scales (profiles unity; the halo bias by Simpson's rule equal to
`bias_effective_matter = b`; hence 2-halo power `b^2 P`) the total beyond the 1-halo term is
`(1 + b^2 (1 - f^2)) P`, where it should be `P`: it is too high unless all mass is in haloes. -/
theorem C43_large_scale_excess (md : ℝ) (u : ℕ → ℝ) (p1 p2 k b : ℝ) (hmd : md ≠ 0) (hr : h.rhoGtm ≠ 0)
    (hf : fHalos h md ≠ 1) (hb : h.biasEffMatter E = b)
    (hQ : simpsonX h.nm h.m (fun i => h.m i * h.dndm i * h.bias i * u i) / h.rhoGtm = b)
    (h2 : p2 = b ^ 2 * h.phc k) :
    powerTotal E h md u p1 p2 k = p1 + (1 + b ^ 2 * (1 - fHalos h md ^ 2)) * h.phc k ∧
    (0 < fHalos h md → fHalos h md < 1 → b ≠ 0 → 0 < h.phc k → p1 + h.phc k < powerTotal E h md u p1 p2 k) := by
  have hs := C43_unit_bias (E := E) (h := h) md hf
  rw [hb] at hs
  have hs' : (1 - fHalos h md) * biasSmooth E h md = 1 - fHalos h md * b := by linarith
  have e : powerTotal E h md u p1 p2 k = p1 + (1 + b ^ 2 * (1 - fHalos h md ^ 2)) * h.phc k := by
    rw [C43_total md u p1 p2 k hmd hr, hs', hQ, h2]
    ring
  refine ⟨e, fun h0 h1 hb0 hp => ?_⟩
  rw [e]
  have hb2 : 0 < b ^ 2 := by positivity
  have hf2 : 0 < 1 - fHalos h md ^ 2 := by nlinarith
  have := mul_pos (mul_pos hb2 hf2) hp
  nlinarith

/-- C43 finding (given that `hmf`'s `mean_density` is `mean_density0 (1+z)^3` while `rho_gtm` is comoving): the
fraction of mass in haloes is too low by `(1+z)^3`. -/
theorem C43_fraction_redshift (z : ℝ) (hz : 0 ≤ z) (h0 : h.meanDensity0 ≠ 0) :
    fHalos h (h.meanDensity0 * (1 + z) ^ 3) * (1 + z) ^ 3 = h.rhoGtm / h.meanDensity0 := by
  unfold fHalos
  have : (1 + z) ≠ 0 := by linarith
  field_simp

/-! ### non-vacuity -/

/-- `Bullock01Power` (class 1, own dictionary 0), its subclass `Duffy08` (class 2, own dictionary 1), an
alias of it (class 3, the same dictionary 1), all deriving from class 0. -/
def demoHeap : Heap where
  mro := fun c => if c = 0 then [0] else if c = 1 then [1, 0] else if c = 2 then [2, 1, 0]
    else if c = 3 then [3, 0] else []
  own := fun c => if c = 1 then some 0 else if c = 2 then some 1 else if c = 3 then some 1 else none
  dict := fun i k => if i = 1 ∧ k = "ms" then some 2e12 else none
  next := 4

theorem demoHeap_ok : demoHeap.Ok where
  mro := by
    intro c hc d hd
    have : c = 0 ∨ c = 1 ∨ c = 2 ∨ c = 3 := by
      change c < 4 at hc; omega
    change d < 4
    rcases this with rfl | rfl | rfl | rfl <;> simp [demoHeap] at hd <;> omega

/-- making `Duffy08WDM` pollutes the alias (class 3) as well. -/
example : (factory demoHeap 2).2.defaults 3 "g1" = some 60 :=
  (C43_base_polluted demoHeap demoHeap_ok 2 3 (by decide) (by decide) (by decide) (by decide)
    (by simp [Heap.defaults, Heap.ref, demoHeap]) 1).1

/-- but not the parent with its own dictionary (class 1). -/
example : (factory demoHeap 2).2.defaults 1 = demoHeap.defaults 1 :=
  C43_other_classes demoHeap demoHeap_ok 2 (by decide) 1 (by decide) (by decide)

example : cmWdm (fun _ _ => 10) 60 0.17 0.026 0.04 1e8 1e9 1 < 10 :=
  C43_lowers_default (fun _ _ => 10) 1e8 1e9 1 (by norm_num) (by norm_num) (by norm_num) (by norm_num) (by norm_num)

example : demoHM.rhoGtm = 1 → fHalos demoHM 2 = 1 / 2 := by intro e; unfold fHalos; rw [e]

end Halomod.Wdm
