import Verif.Props.HaloModel2
import Verif.Props.HaloModel3
import Verif.Model.Cross

/-!
# C61: values outside the tabulated range

Every power spectrum and correlation function of the halo model is a callable that a user may evaluate at any
wavenumber or separation.  Inside the table it interpolates (C12); here: what it returns outside.
-/
namespace Halomod.HaloModel

open Finset Halomod.Tools Halomod.HOD Halomod.Exclusion

section
variable {E : Env} {h : HM}

/-- the object behind a successfully built extended spline -/
theorem mkES_tails (hs : SplOk E.isp) (a : ESArgs) (hx : Grid a.n a.x) (hn : 0 < a.n) (f : ℝ → ℝ) (hf : mkES E a = some f) (hnu : 0 < a.nUp) :
    (∀ g, a.lower = .callable g → a.matchLower = true → g (a.x 0) ≠ 0 → ∀ t < a.x 0, f t * g (a.x 0) = g t * a.y 0) ∧
    (a.lower = .callable (fun _ => 0) → ∀ t < a.x 0, f t = 0) ∧
    (a.lower = .boundary → ∀ t < a.x 0, f t = a.y 0) ∧
    (a.upper = .callable (fun _ => 0) → ∀ t, a.x (a.n - 1) < t → f t = 0) ∧
    (a.upper = .powerLaw → ∀ t, a.x (a.n - 1) < t → 0 ≤ f t ∧
      (0 < f t ↔ ∀ i, i < a.n → a.n ≤ i + min a.nUp a.n → 0 < a.y i)) := by
  unfold mkES at hf
  obtain ⟨e, he, rfl⟩ := Option.map_eq_some_iff.mp hf
  have hb := C12_branches E.isp E.us hs a e he hx.inc
  have hext := C12_extensions E.isp E.us hs a e he hx.inc hn
  obtain ⟨_, _, _, h4, h5⟩ := esInit_some E.isp E.us a e he
  have hle : a.x 0 ≤ a.x (a.n - 1) := hx.mono (Nat.zero_le _) (by omega)
  refine ⟨?_, ?_, ?_, ?_, ?_⟩
  · intro g hg hm hne t ht
    rw [hb.2.2.1 t ht]
    exact (hext.1 g hg hm hne).2 t
  · intro hg t ht
    rw [hb.2.2.1 t ht]
    rw [hg] at h4
    by_cases hm : a.matchLower = true
    · simp only [extFunc, hm, not_true, if_false, if_true, Option.some.injEq] at h4
      rw [← h4]
    · simp only [extFunc, hm, not_false_eq_true, if_true, Option.some.injEq, Bool.false_eq_true] at h4
      rw [← h4]
  · intro hg t ht
    rw [hb.2.2.1 t ht]
    exact hext.2.2.2.2.1 hg t
  · intro hg t ht
    rw [hb.2.2.2 t (hle.trans ht.le) ht]
    rw [hg] at h5
    by_cases hm : a.matchUpper = true
    · simp only [extFunc, hm, not_true, if_false, if_true, Option.some.injEq] at h5
      rw [← h5]
    · simp only [extFunc, hm, not_false_eq_true, if_true, Option.some.injEq, Bool.false_eq_true] at h5
      rw [← h5]
  · intro hg t ht
    rw [hb.2.2.2 t (hle.trans ht.le) ht]
    rw [hg] at h5
    have hxp : ∀ i < min a.nUp a.n, 0 < a.x (a.n - min a.nUp a.n + i) := fun i hi =>
      hx.pos _ (by have := min_le_right a.nUp a.n; omega)
    have hiff : (∀ i < min a.nUp a.n, 0 < a.y (a.n - min a.nUp a.n + i)) ↔
        ∀ i, i < a.n → a.n ≤ i + min a.nUp a.n → 0 < a.y i := by
      have hmn := min_le_right a.nUp a.n
      constructor
      · intro H i hi hi'
        have := H (i - (a.n - min a.nUp a.n)) (by omega)
        rwa [show a.n - min a.nUp a.n + (i - (a.n - min a.nUp a.n)) = i by omega] at this
      · intro H i hi
        exact H _ (by omega) (by omega)
    rw [← hiff]
    by_cases hy : ∀ i < min a.nUp a.n, 0 < a.y (a.n - min a.nUp a.n + i)
    · rw [C12_power_law_form E.us _ _ _ _ _ _ (by omega) hxp hy, Option.some.injEq] at h5
      rw [← h5]
      exact ⟨(Real.exp_pos _).le, fun _ => hy, fun _ => Real.exp_pos _⟩
    · simp only [extFunc, not_not.mpr hxp, if_false, hy, not_false_eq_true, true_or, if_true, Option.some.injEq] at h5
      rw [← h5]
      exact ⟨le_rfl, fun H => absurd H (lt_irrefl _), fun H => absurd H hy⟩

/-- C61: below the smallest tabulated wavenumber the one-halo powers (matter, satellite-satellite,
central-satellite) are zero if the turnover is forced, and otherwise keep the value of the smallest one. -/
theorem C61_one_halo_low (hs : SplLin E.isp) (ho : h.Ok) :
    ∃ pm ss cs, h.power1hMatter E = some pm ∧ h.power1hSS E = some ss ∧ h.power1hCS E = some cs ∧
      (h.turnover = true → ∀ t < h.k 0, pm t = 0 ∧ ss t = 0 ∧ cs t = 0) ∧
      (h.turnover = false → ∀ t < h.k 0, pm t = pm (h.k 0) ∧ ss t = ss (h.k 0) ∧ cs t = cs (h.k 0)) := by
  classical
  obtain ⟨pm, hm, hmk⟩ := power1hMatter_ok (E := E) (h := h) hs ho
  obtain ⟨ss, hss, hssk⟩ := power1hSS_ok (E := E) (h := h) hs ho
  obtain ⟨cs, hcs, hcsk⟩ := power1hCS_ok (E := E) (h := h) hs ho
  refine ⟨pm, ss, cs, hm, hss, hcs, ?_, ?_⟩
  · intro ht t htk
    have hl : h.oneHaloLower = .callable fun _ => 0 := by unfold HM.oneHaloLower; rw [if_pos ht]
    refine ⟨?_, ?_, ?_⟩
    · exact (mkES_tails hs.toSplOk _ ho.k ho.nk0 pm hm (by norm_num)).2.1 hl t htk
    · exact (mkES_tails hs.toSplOk _ ho.k ho.nk0 ss hss (by norm_num)).2.1 hl t htk
    · exact (mkES_tails hs.toSplOk _ ho.k ho.nk0 cs hcs (by norm_num)).2.1 hl t htk
  · intro ht t htk
    have hl : h.oneHaloLower = .boundary := by unfold HM.oneHaloLower; rw [ht]; rfl
    rw [hmk 0 ho.nk0, hssk 0 ho.nk0, hcsk 0 ho.nk0]
    refine ⟨?_, ?_, ?_⟩
    · exact (mkES_tails hs.toSplOk _ ho.k ho.nk0 pm hm (by norm_num)).2.2.1 hl t htk
    · exact (mkES_tails hs.toSplOk _ ho.k ho.nk0 ss hss (by norm_num)).2.2.1 hl t htk
    · exact (mkES_tails hs.toSplOk _ ho.k ho.nk0 cs hcs (by norm_num)).2.2.1 hl t htk

/-- C61: beyond the largest tabulated wavenumber no one-halo power is ever negative, and it is positive exactly
if the last ten tabulated values are. -/
theorem C61_one_halo_high (hs : SplLin E.isp) (ho : h.Ok) :
    ∃ pm ss cs, h.power1hMatter E = some pm ∧ h.power1hSS E = some ss ∧ h.power1hCS E = some cs ∧
      ∀ t, h.k (h.nk - 1) < t →
        (0 ≤ pm t ∧ (0 < pm t ↔ ∀ j < h.nk, h.nk ≤ j + 10 → 0 < pm (h.k j))) ∧
        (0 ≤ ss t ∧ (0 < ss t ↔ ∀ j < h.nk, h.nk ≤ j + 10 → 0 < ss (h.k j))) ∧
        (0 ≤ cs t ∧ (0 < cs t ↔ ∀ j < h.nk, h.nk ≤ j + 10 → 0 < cs (h.k j))) := by
  classical
  obtain ⟨pm, hm, hmk⟩ := power1hMatter_ok (E := E) (h := h) hs ho
  obtain ⟨ss, hss, hssk⟩ := power1hSS_ok (E := E) (h := h) hs ho
  obtain ⟨cs, hcs, hcsk⟩ := power1hCS_ok (E := E) (h := h) hs ho
  refine ⟨pm, ss, cs, hm, hss, hcs, fun t ht => ?_⟩
  have conv : ∀ (f : ℝ → ℝ) (y : ℕ → ℝ), (∀ j < h.nk, f (h.k j) = y j) →
      ((∀ i, i < h.nk → h.nk ≤ i + min 10 h.nk → 0 < y i) ↔ ∀ j < h.nk, h.nk ≤ j + 10 → 0 < f (h.k j)) := by
    intro f y hy
    constructor
    · intro H j hj hj'
      rw [hy j hj]
      exact H j hj (by omega)
    · intro H j hj hj'
      have := H j hj (by omega)
      rwa [hy j hj] at this
  refine ⟨?_, ?_, ?_⟩
  · have := (mkES_tails hs.toSplOk _ ho.k ho.nk0 pm hm (by norm_num)).2.2.2.2 rfl t ht
    exact ⟨this.1, this.2.trans (conv pm _ hmk)⟩
  · have := (mkES_tails hs.toSplOk _ ho.k ho.nk0 ss hss (by norm_num)).2.2.2.2 rfl t ht
    exact ⟨this.1, this.2.trans (conv ss _ hssk)⟩
  · have T := mkES_tails hs.toSplOk _ ho.k ho.nk0 cs hcs (by norm_num)
    by_cases hy : ∀ j < h.nk, h.nk ≤ j + 10 → 0 < h.power1hCSTab E j
    · have := T.2.2.2.2 (if_pos hy) t ht
      exact ⟨this.1, this.2.trans (conv cs _ hcsk)⟩
    · have h0 : cs t = 0 := T.2.2.2.1 (if_neg hy) t ht
      rw [h0]
      refine ⟨le_rfl, fun H => absurd H (lt_irrefl _), fun H => absurd ?_ hy⟩
      intro j hj hj'
      have := H j hj hj'
      rwa [hcsk j hj] at this

/-- C61: below the table the two-halo powers of matter and tracer have the shape of the linear power, matched to
the smallest tabulated wavenumber; with a filtered halo-centre spectrum they vanish beyond the largest. -/
theorem C61_two_halo (hs : SplLin E.isp) (ho : h.Ok) :
    ∃ pm pt, h.power2hMatter E = some pm ∧ h.power2hTracer E = some pt ∧
      (h.linPow (h.k 0) ≠ 0 → ∀ t < h.k 0, pm t = pm (h.k 0) * (h.linPow t / h.linPow (h.k 0)) ∧
        pt t = pt (h.k 0) * (h.linPow t / h.linPow (h.k 0))) ∧
      (h.filtered = true → ∀ t, h.k (h.nk - 1) < t → pm t = 0 ∧ pt t = 0) ∧
      (h.filtered = false → ∀ t, h.k (h.nk - 1) < t → 0 ≤ pm t ∧ 0 ≤ pt t) := by
  obtain ⟨pm, hm, hmk⟩ := power2hPrim_ok (E := E) (h := h) hs ho (noExclRes E h.matterExcl h.bias) (h.biasEffMatter E) h.forceUnity 0
  obtain ⟨pt, ht, htk⟩ := power2hPrim_ok (E := E) (h := h) hs ho (noExclRes E (h.tracerExcl E) h.bias) (h.biasEffTracer E) false 0
  have Tm := mkES_tails hs.toSplOk _ ho.k ho.nk0 pm hm (by norm_num)
  have Tt := mkES_tails hs.toSplOk _ ho.k ho.nk0 pt ht (by norm_num)
  refine ⟨pm, pt, hm, ht, ?_, ?_, ?_⟩
  · intro hl t htk0
    have e1 := Tm.1 h.linPow rfl rfl hl t htk0
    have e2 := Tt.1 h.linPow rfl rfl hl t htk0
    rw [hmk 0 ho.nk0, htk 0 ho.nk0]
    dsimp only at e1 e2
    constructor
    · field_simp; linarith
    · field_simp; linarith
  · intro hf t htt
    have hu : (if (noExclRes E h.matterExcl h.bias).isNone && !h.filtered then Ext.powerLaw else .callable fun _ => 0)
        = .callable fun _ => 0 := by rw [hf]; simp
    have hu' : (if (noExclRes E (h.tracerExcl E) h.bias).isNone && !h.filtered then Ext.powerLaw else .callable fun _ => 0)
        = .callable fun _ => 0 := by rw [hf]; simp
    exact ⟨Tm.2.2.2.1 hu t htt, Tt.2.2.2.1 hu' t htt⟩
  · intro hf t htt
    have hu : (if (noExclRes E h.matterExcl h.bias).isNone && !h.filtered then Ext.powerLaw else .callable fun _ => 0)
        = .powerLaw := by rw [hf]; rfl
    have hu' : (if (noExclRes E (h.tracerExcl E) h.bias).isNone && !h.filtered then Ext.powerLaw else .callable fun _ => 0)
        = .powerLaw := by rw [hf]; rfl
    exact ⟨(Tm.2.2.2.2 hu t htt).1, (Tt.2.2.2.2 hu' t htt).1⟩

/-- a correlation table is extended by zero -/
theorem corrES_high (hs : SplLin E.isp) (ho : h.Ok) (c : ℕ → ℝ) (f : ℝ → ℝ) (hf : h.corrES E c = some f) (t : ℝ)
    (ht : h.rt (h.nr - 1) < t) : f t = 0 :=
  (mkES_tails hs.toSplOk _ ho.r ho.nr0 f hf (by norm_num)).2.2.2.1 rfl t ht

theorem corr1hMatter_ok (hs : SplLin E.isp) (ho : h.Ok) : ∃ f, h.corr1hMatter E = some f ∧ ∀ t, h.rt (h.nr - 1) < t → f t = 0 := by
  unfold HM.corr1hMatter
  cases hl : h.lamH with
  | some lam =>
    obtain ⟨f, hf, _⟩ := corrES_ok (E := E) (h := h) hs ho fun i =>
      trapzDx h.nm (Real.log 10 * h.dlog10m) (fun j => h.dndm j * h.m j ^ 3 * lam i j) / h.meanDensity0 ^ 2 - 1
    exact ⟨f, hf, corrES_high hs ho _ f hf⟩
  | none =>
    obtain ⟨p, hp, _⟩ := power1hMatter_ok (E := E) (h := h) hs ho
    obtain ⟨f, hf, _⟩ := corrES_ok (E := E) (h := h) hs ho fun i => E.hankel p (h.rt i)
    exact ⟨f, by simp only [hp]; exact hf, corrES_high hs ho _ f hf⟩

theorem corr2h_high (hs : SplLin E.isp) (ho : h.Ok) (e : ExclRes) (he : e.rows = 1) (eb : ℝ) (db : Bool) :
    ∃ f, h.corr2h E e eb db = some f ∧ (∀ t < h.rt 0, f t = 0) ∧ ∀ t, h.rt (h.nr - 1) < t → f t = 0 := by
  obtain ⟨f, p, hf, hp, _, h0⟩ := corr2hMatter_ok (E := E) (h := h) hs ho e he eb db
  refine ⟨f, hf, h0, ?_⟩
  unfold HM.corr2h at hf
  rw [he] at hf
  have : (List.range 1).mapM (fun ir => h.power2hPrim E e eb db ir) = some [p] := by
    simp [List.range_succ, hp]
  rw [this] at hf
  exact (mkES_tails hs.toSplOk _ ho.r ho.nr0 f hf (by norm_num)).2.2.2.1 rfl

/-- C61, finding: beyond the largest tabulated separation both terms of the matter correlation function are
extended by zero, but `1` is added to their sum: the total returned there is 1, not 0. -/
theorem C61_matter_correlation_far (hs : SplLin E.isp) (ho : h.Ok) :
    ∃ a b f, h.corr1hMatter E = some a ∧ h.corr2hMatter E = some b ∧ h.corrMatter E = some f ∧
      ∀ t, h.rt (h.nr - 1) < t → a t = 0 ∧ b t = 0 ∧ f t = 1 := by
  obtain ⟨a, ha, ha0⟩ := corr1hMatter_ok (E := E) (h := h) hs ho
  obtain ⟨b, hb, _, hb0⟩ := corr2h_high (E := E) (h := h) hs ho (noExclRes E h.matterExcl h.bias) rfl (h.biasEffMatter E) h.forceUnity
  refine ⟨a, b, sumCallable a b 1, ha, hb, ?_, ?_⟩
  · unfold HM.corrMatter sumC
    rw [ha, show h.corr2hMatter E = some b from hb]
    rfl
  · intro t ht
    refine ⟨ha0 t ht, hb0 t ht, ?_⟩
    unfold sumCallable
    rw [ha0 t ht, hb0 t ht]
    norm_num

/-- C61: the tracer correlation function beyond the largest tabulated separation is 0 for profiles with an
analytic self-convolution, and (finding) 1 for the others, whose one-halo term is the sum of two tables and 1. -/
theorem C61_tracer_correlation_far (hs : SplLin E.isp) (ho : h.Ok) :
    ∃ f, h.corrTracer E = some f ∧ ∀ t, h.rt (h.nr - 1) < t → f t = if h.lamT.isSome then 0 else 1 := by
  obtain ⟨b, hb, _, hb0⟩ := corr2h_high (E := E) (h := h) hs ho (noExclRes E (h.tracerExcl E) h.bias) rfl (h.biasEffTracer E) false
  have hb' : h.corr2hTracer E = some b := hb
  cases hl : h.lamT with
  | some lam =>
    have : ∃ a, h.corr1hTracer E = some a ∧ ∀ t, h.rt (h.nr - 1) < t → a t = 0 := by
      unfold HM.corr1hTracer
      rw [hl]
      obtain ⟨f, hf, _⟩ := corrES_ok (E := E) (h := h) hs ho fun i =>
        h.S E (fun j => h.dndm j * (h.hod.ssPairs (h.m j) * lam i j + 2 * h.hod.csPairs (h.m j) * h.rhoT i j)
          * (if h.hod.central then h.cenOccInt j else 1)) h.tracerMmin / h.meanTracerDen E ^ 2
      exact ⟨f, hf, corrES_high hs ho _ f hf⟩
    obtain ⟨a, ha, ha0⟩ := this
    refine ⟨fun r => a r + b r, by unfold HM.corrTracer; rw [ha, hb']; rfl, fun t ht => ?_⟩
    dsimp only
    rw [ha0 t ht, hb0 t ht]
    norm_num
  | none =>
    have hcs : ∃ a, h.corr1hCS E = some a ∧ ∀ t, h.rt (h.nr - 1) < t → a t = 0 := by
      unfold HM.corr1hCS
      obtain ⟨f, hf, _⟩ := corrES_ok (E := E) (h := h) hs ho fun i =>
        h.S E (fun j => h.dndm j * 2 * h.hod.csPairs (h.m j) * h.rhoT i j) h.tracerMmin / h.meanTracerDen E ^ 2 - 1
      exact ⟨f, hf, corrES_high hs ho _ f hf⟩
    have hss : ∃ a, h.corr1hSS E = some a ∧ ∀ t, h.rt (h.nr - 1) < t → a t = 0 := by
      unfold HM.corr1hSS
      rw [hl]
      obtain ⟨p, hp, _⟩ := power1hSS_ok (E := E) (h := h) hs ho
      obtain ⟨f, hf, _⟩ := corrES_ok (E := E) (h := h) hs ho fun i => E.hankel p (h.rt i)
      exact ⟨f, by simp only [hp]; exact hf, corrES_high hs ho _ f hf⟩
    obtain ⟨cs, hcs, hcs0⟩ := hcs
    obtain ⟨ss, hss, hss0⟩ := hss
    refine ⟨fun r => sumCallable cs ss 1 r + b r, ?_, fun t ht => ?_⟩
    · unfold HM.corrTracer HM.corr1hTracer sumC
      rw [hl, hb', hcs, hss]
      rfl
    · dsimp only [sumCallable]
      rw [hcs0 t ht, hss0 t ht, hb0 t ht]
      norm_num

/-- C61, finding: the tracer-matter correlation function is likewise 1 beyond the largest separation. -/
theorem C61_cross_correlation_far (hs : SplLin E.isp) (ho : h.Ok) :
    ∃ a b f, h.corr1hCross E = some a ∧ h.corr2hCross E = some b ∧ h.corrCross E = some f ∧
      ∀ t, h.rt (h.nr - 1) < t → a t = 0 ∧ b t = 0 ∧ f t = 1 := by
  obtain ⟨p1, hp1, _⟩ := mkES_ok E hs.toSplOk { n := h.nk, x := h.k, y := h.power1hCrossTab E, lower := .powerLaw, upper := .powerLaw } rfl rfl ho.k (by simp) (by simp)
  obtain ⟨p2, hp2, _⟩ := mkES_ok E hs.toSplOk { n := h.nk, x := h.k, y := h.power2hCrossTab E, lower := .powerLaw, upper := if h.filtered then .callable fun _ => 0 else .powerLaw } rfl rfl ho.k (by simp) (by dsimp only; split <;> simp)
  obtain ⟨a, ha, _⟩ := corrES_ok (E := E) (h := h) hs ho fun i => E.hankel p1 (h.rt i)
  obtain ⟨b, hb, _⟩ := corrES_ok (E := E) (h := h) hs ho fun i => E.hankel p2 (h.rt i)
  have ha' : h.corr1hCross E = some a := by
    unfold HM.corr1hCross HM.power1hCross
    rw [hp1]; exact ha
  have hb' : h.corr2hCross E = some b := by
    unfold HM.corr2hCross HM.power2hCross
    rw [hp2]; exact hb
  refine ⟨a, b, sumCallable a b 1, ha', hb', by unfold HM.corrCross sumC; rw [ha', hb']; rfl, fun t ht => ?_⟩
  have e1 := corrES_high hs ho _ a ha t ht
  have e2 := corrES_high hs ho _ b hb t ht
  refine ⟨e1, e2, ?_⟩
  unfold sumCallable
  rw [e1, e2]
  norm_num

/-- C61, finding: the correlation between two tracer populations is 1 beyond the largest separation. -/
theorem C61_two_tracers_far {h2 : HM} (hs : SplLin E.isp) (ho : h.Ok) (c : Cross.CrossDef) (keep : ℕ → Bool) (hm : h.nm = h2.nm)
    (hk : h.nk = h2.nk) : ∃ f, Cross.corr E c keep h h2 = some f ∧ ∀ t, h.rt (h.nr - 1) < t → f t = 1 := by
  obtain ⟨p1, hp1, _⟩ := mkES_ok E hs.toSplOk { n := h.nk, x := h.k, y := Cross.power1hTab E c keep h h2, lower := .powerLaw, upper := .powerLaw } rfl rfl ho.k (by simp) (by simp)
  obtain ⟨p2, hp2, _⟩ := mkES_ok E hs.toSplOk { n := h.nk, x := h.k, y := Cross.power2hTab E h h2, lower := .callable h.linPow, matchLower := true, upper := .powerLaw } rfl rfl ho.k (by simp) (by simp)
  obtain ⟨a, ha, _⟩ := corrES_ok (E := E) (h := h) hs ho fun i => E.hankel p1 (h.rt i)
  obtain ⟨b, hb, _⟩ := corrES_ok (E := E) (h := h) hs ho fun i => E.hankelFine p2 (h.rt i)
  have ha' : Cross.corr1h E c keep h h2 = some a := by
    unfold Cross.corr1h Cross.power1h
    rw [if_pos ⟨hm, hk⟩, hp1]; exact ha
  have hb' : Cross.corr2h E h h2 = some b := by
    unfold Cross.corr2h Cross.power2h
    rw [if_pos hk, hp2]; exact hb
  refine ⟨fun r => a r + b r + 1, by unfold Cross.corr; rw [ha', hb']; rfl, fun t ht => ?_⟩
  have e1 := corrES_high hs ho _ a ha t ht
  have e2 := corrES_high hs ho _ b hb t ht
  dsimp only
  rw [e1, e2]
  norm_num

end

example : ∃ a b f, demoHM.corr1hMatter demoE = some a ∧ demoHM.corr2hMatter demoE = some b ∧ demoHM.corrMatter demoE = some f ∧
    ∀ t, demoHM.rt (demoHM.nr - 1) < t → a t = 0 ∧ b t = 0 ∧ f t = 1 := C61_matter_correlation_far polySpl_lin demo_ok

end Halomod.HaloModel
