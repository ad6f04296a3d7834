import Verif.Model.ScaleDep
import Verif.Props.HaloModel3
import Mathlib.Tactic

/-! # C54: scale-dependent bias with every exclusion model -/
namespace Halomod.HaloModel

open Finset Halomod.Tools Halomod.Exclusion

section
variable {E : Env} {h : HM}

theorem ius_ok (hs : SplLin E.isp) : IusOk (fun n x y a c => splIntegral E.isp n x y a c) where
  smul := by
    intro n x f a b c
    unfold splIntegral
    rw [← intervalIntegral.integral_const_mul]
    congr 1
    funext t
    by_cases ht : t ∈ Set.Icc (x 0) (x (n - 1))
    · simp only [Set.indicator_of_mem ht]; exact hs.smul n x f c t
    · simp only [Set.indicator_of_notMem ht, mul_zero]
  local' := by
    intro n x f g a b hfg
    unfold splIntegral
    rw [hs.congr n x x f g fun i hi => ⟨rfl, hfg i hi⟩]

theorem masked_mul (p : Prop) (c x : ℝ) : masked p (c * x) = c * masked p x := by
  unfold masked; split_ifs <;> simp

theorem triSum_smul (n : ℕ) (W X : Mat) (c : ℝ) : triSum n W (fun i j => c * X i j) = c * triSum n W X := by
  unfold triSum
  rw [mul_sum]
  apply sum_congr rfl
  intro i _
  rw [mul_add, mul_sum]
  congr 1
  · ring
  · apply sum_congr rfl; intro j _; ring

/-- C54: with a bias that is a separation-dependent factor times a mass-dependent one, the double integral over
haloes of every exclusion class is the one with the mass-dependent bias alone times the squared factor, and the
modified density is unchanged. -/
theorem C54_integral (ius : Ius) (hi : IusOk ius) (junk : Mat) (cls : ExclCls) (e : Excl) (s b : ℕ → ℝ) (ir ik : ℕ) :
    exclIntegrate ius junk cls { e with bias := .d2 fun ir im => s ir * b im } ir ik =
      s ir ^ 2 * exclIntegrate ius junk cls { e with bias := .d1 b } ir ik ∧
    exclDensityMod ius junk cls { e with bias := .d2 fun ir im => s ir * b im } ir =
      exclDensityMod ius junk cls { e with bias := .d1 b } ir := by
  set e2 : Excl := { e with bias := .d2 fun ir im => s ir * b im } with he2
  set e1 : Excl := { e with bias := .d1 b } with he1
  have hraw : ∀ i, e2.raw ir ik i = s ir * e1.raw ir ik i := by
    intro i; simp only [he2, he1, Excl.raw]; ring
  have hsi : ∀ f, e2.splineIntegrate ius f = e1.splineIntegrate ius f := fun f => rfl
  have hn : e2.n = e1.n := rfl
  have hdl : e2.dlnx = e1.dlnx := rfl
  have key : ∀ f : ℕ → ℝ, e2.splineIntegrate ius (fun i => s ir * f i) = s ir * e1.splineIntegrate ius f :=
    fun f => splineIntegrate_smul hi e1 (s ir) f
  have key2 : ∀ f : ℕ → ℝ, e1.splineIntegrate ius (fun i => s ir ^ 2 * f i) = s ir ^ 2 * e1.splineIntegrate ius f :=
    fun f => splineIntegrate_smul hi e1 (s ir ^ 2) f
  constructor
  · cases cls with
    | noExclusion =>
      change noExclIntegrate ius e2 ir ik = s ir ^ 2 * noExclIntegrate ius e1 ir ik
      have h2 : noExclIntegrate ius e2 ir ik = e2.splineIntegrate ius (e2.raw ir ik) ^ 2 := rfl
      have h1 : noExclIntegrate ius e1 ir ik = e1.splineIntegrate ius (e1.raw ir ik) ^ 2 := by
        change e1.splineIntegrate ius (fun im => e.pint ik im * b im * e.m im) ^ 2 = _
        congr 2; funext i; simp only [he1, Excl.raw, one_mul]
      rw [h1, h2, show e2.raw ir ik = fun i => s ir * e1.raw ir ik i from funext hraw, key, mul_pow]
    | sphere =>
      change e2.splineIntegrate ius _ ^ 2 = s ir ^ 2 * e1.splineIntegrate ius _ ^ 2
      simp only [hraw, masked_mul]
      rw [key, mul_pow]; rfl
    | dblSphere =>
      change e2.splineIntegrate ius _ = s ir ^ 2 * e1.splineIntegrate ius _
      rw [← key2, hsi]
      congr 1; funext i
      rw [hn, hdl, ← simpsonDx_mul]
      congr 1; funext j
      rw [hraw, hraw, ← masked_mul, show s ir * e1.raw ir ik i * (s ir * e1.raw ir ik j) =
        s ir ^ 2 * (e1.raw ir ik i * e1.raw ir ik j) by ring]
      rfl
    | dblSphere_ =>
      change dblSphereIntegrate_ e2 ir ik = s ir ^ 2 * dblSphereIntegrate_ e1 ir ik
      classical
      unfold dblSphereIntegrate_ dblsimps_
      rw [hn, hdl]
      have : (fun i j => if i ≤ j then (if dblSphereMask e2 ir i j then 0 else e2.raw ir ik i * e2.raw ir ik j) else 0) =
          fun i j => s ir ^ 2 * (if i ≤ j then (if dblSphereMask e1 ir i j then 0 else e1.raw ir ik i * e1.raw ir ik j) else 0) := by
        funext i j
        rw [hraw, hraw]
        have : dblSphereMask e2 ir i j = dblSphereMask e1 ir i j := rfl
        rw [this]
        split_ifs <;> ring
      rw [this, triSum_smul]; ring
    | dblEllipsoid =>
      change e2.splineIntegrate ius _ = s ir ^ 2 * e1.splineIntegrate ius _
      rw [← key2, hsi]
      congr 1; funext i
      rw [hn, hdl, ← simpsonDx_mul]
      congr 1; funext j
      rw [hraw, hraw]
      change ellProb (e1.r ir) (e1.rHalo i) (e1.rHalo j) * _ = _
      ring
    | dblEllipsoid_ =>
      change ellIntegrate_ junk e2 ir ik = s ir ^ 2 * ellIntegrate_ junk e1 ir ik
      unfold ellIntegrate_ dbltrapz_
      rw [hn, hdl]
      have : (fun i j => if i ≤ j then e2.raw ir ik i * e2.raw ir ik j * probInner_ junk (e2.r ir) e2.rHalo i j else 0) =
          fun i j => s ir ^ 2 * (if i ≤ j then e1.raw ir ik i * e1.raw ir ik j * probInner_ junk (e1.r ir) e1.rHalo i j else 0) := by
        funext i j
        rw [hraw, hraw]
        have : probInner_ junk (e2.r ir) e2.rHalo i j = probInner_ junk (e1.r ir) e1.rHalo i j := rfl
        rw [this]
        split_ifs <;> ring
      rw [this, triSum_smul]; ring
    | ngMatched =>
      change e2.splineIntegrate ius _ ^ 2 = s ir ^ 2 * e1.splineIntegrate ius _ ^ 2
      simp only [hraw, masked_mul]
      rw [key, mul_pow]; rfl
    | ngMatched_ =>
      change simpsonDx e2.n e2.dlnx _ ^ 2 = s ir ^ 2 * simpsonDx e1.n e1.dlnx _ ^ 2
      simp only [hraw, masked_mul]
      rw [simpsonDx_mul, mul_pow]; rfl
  · cases cls <;> rfl

/-! ## tables -/

/-- what a 1D bias gives at a row. -/
theorem exclRes_sd (hs : SplLin E.isp) (junk : Mat) (cls : ExclCls) (e : Excl) (s b : ℕ → ℝ) (nr ir ik : ℕ) :
    (exclRes E junk cls { e with bias := .d2 fun ir im => s ir * b im } nr).intg ir ik =
      s ir ^ 2 * (exclRes E junk cls { e with bias := .d1 b } nr).intg ir ik ∧
    (exclRes E junk cls { e with bias := .d2 fun ir im => s ir * b im } nr).dmod ir =
      (exclRes E junk cls { e with bias := .d1 b } nr).dmod ir :=
  C54_integral _ (ius_ok hs) junk cls e s b ir ik

theorem splineIntegral_smul (hs : SplLin E.isp) (n : ℕ) (x f : ℕ → ℝ) (c : ℝ) :
    splineIntegral E.isp n x (fun i => c * f i) none none true = c * splineIntegral E.isp n x f none none true := by
  exact si_smul hs.toSplOk c f none none

/-- C54: without normalisation of the bias, the 2-halo table of each separation is the one without
scale-dependent bias times the squared correction of that separation; with normalisation (`force_unity_dm_bias`),
times its square relative to the largest tabulated separation, where the bias stays normalised. -/
theorem C54_tables (hs : SplLin E.isp) (junk : Mat) (cls : ExclCls) (e : Excl) (s b : ℕ → ℝ) (nr : ℕ) (eb : ℝ)
    (ir j : ℕ) (hlast : s (nr - 1) ≠ 0) :
    h.power2hTab E (exclRes E junk cls { e with bias := .d2 fun ir im => s ir * b im } nr) eb false ir j =
      s ir ^ 2 * h.power2hTab E (exclRes E junk cls { e with bias := .d1 b } nr) eb false ir j ∧
    h.power2hTab E (exclRes E junk cls { e with bias := .d2 fun ir im => s ir * b im } nr) eb true ir j =
      (s ir / s (nr - 1)) ^ 2 * h.power2hTab E (exclRes E junk cls { e with bias := .d1 b } nr) eb true ir j := by
  obtain ⟨h1, h2⟩ := exclRes_sd hs junk cls e s b nr ir j
  set R2 := exclRes E junk cls { e with bias := .d2 fun ir im => s ir * b im } nr with hR2
  set R1 := exclRes E junk cls { e with bias := .d1 b } nr with hR1
  have hS : splineIntegral E.isp R2.n R2.m (fun i => R2.density i * R2.biasLast i) none none true =
      s (nr - 1) * splineIntegral E.isp R1.n R1.m (fun i => R1.density i * R1.biasLast i) none none true := by
    rw [← splineIntegral_smul hs]
    change splineIntegral E.isp e.n e.m (fun i => e.density i * (s (nr - 1) * b i)) none none true =
      splineIntegral E.isp e.n e.m (fun i => s (nr - 1) * (e.density i * b i)) none none true
    congr 1; funext i; ring
  unfold HM.power2hTab
  simp only [Bool.false_eq_true, if_false, if_true]
  rw [h1, h2, hS]
  refine ⟨by ring, ?_⟩
  set I := splineIntegral E.isp R1.n R1.m (fun i => R1.density i * R1.biasLast i) none none true
  by_cases hI : I = 0
  · rw [hI]; simp
  · field_simp

/-! ## interpolation commutes with a constant factor -/

/-- extensions that follow a rescaling of the data. -/
def ExtHom (fnc : Ext) (mtch : Bool) (mx : ℝ) : Prop :=
  match fnc with
  | .callable f => (mtch = true ∧ f mx ≠ 0) ∨ ∀ t, f t = 0
  | _ => True

theorem extFunc_smul (us : USpl) (hus : ∀ n x (y : ℕ → ℝ) d t, 0 < n → us n x (fun i => d + y i) t = d + us n x y t)
    (hloc : ∀ n x (y y' : ℕ → ℝ), (∀ i < n, y i = y' i) → us n x y = us n x y')
    (spl : ℝ → ℝ) (fnc : Ext) (n : ℕ) (x y : ℕ → ℝ) (mtch : Bool) (mx c : ℝ) (hc : 0 < c) (hf : ExtHom fnc mtch mx) :
    extFunc us (fun t => c * spl t) fnc n x (fun i => c * y i) mtch mx =
      (extFunc us spl fnc n x y mtch mx).map fun f t => c * f t := by
  classical
  cases fnc with
  | callable f =>
    unfold ExtHom at hf
    simp only at hf
    unfold extFunc
    simp only
    rcases hf with ⟨h1, h2⟩ | h0
    · rw [h1]
      simp only [not_true, if_false, h2, Option.map_some]
      congr 1; funext t; ring
    · have : f = fun _ => 0 := funext h0
      subst this
      split_ifs <;> simp at *
  | powerLaw =>
    unfold extFunc
    have hneg : ∀ z : ℝ, c * z < 0 ↔ z < 0 := fun z => ⟨fun hz => by by_contra hc'; exact absurd hz (not_lt.mpr (mul_nonneg hc.le (not_lt.mp hc'))), fun hz => mul_neg_of_pos_of_neg hc hz⟩
    simp only [mul_pos_iff_of_pos_left hc, hneg]
    split_ifs with h1 h2 h3
    · simp
    · push Not at h2
      simp only [Option.map_some]
      congr 1
      funext t
      rcases Nat.eq_zero_or_pos n with hn | hn
      · subst hn; simp at h2
      · exact absurd (h2.1 0 hn) (by linarith)
    · push Not at h2
      simp only [Option.map_some]
      congr 1
      funext t
      have : us n (fun i => Real.log (x i)) (fun i => Real.log (c * y i * 1)) =
          us n (fun i => Real.log (x i)) (fun i => Real.log c + Real.log (y i * 1)) := by
        apply hloc
        intro i hi
        rw [mul_one, mul_one, Real.log_mul hc.ne' (h2.1 i hi).ne']
      have hn : 0 < n := by obtain ⟨i, hi, -⟩ := h2.2; omega
      rw [this, hus _ _ _ _ _ hn, Real.exp_add, Real.exp_log hc]; ring
    · rfl
  | boundary => simp [extFunc, mul_left_comm]
  | none => simp [extFunc]
  | invalid => simp [extFunc]

/-- assumptions on the least-squares spline used for power-law extensions: adding a constant to the data adds it to
the spline, and only the samples count. -/
structure USplOk (us : USpl) : Prop where
  shift : ∀ n x (y : ℕ → ℝ) d t, 0 < n → us n x (fun i => d + y i) t = d + us n x y t
  local' : ∀ n x (y y' : ℕ → ℝ), (∀ i < n, y i = y' i) → us n x y = us n x y'

theorem mkES_smul (hs : SplLin E.isp) (hus : USplOk E.us) (a : ESArgs) (c : ℝ) (hc : 0 < c)
    (hl : ExtHom a.lower a.matchLower (a.x 0)) (hu : ExtHom a.upper a.matchUpper (a.x (a.n - 1))) :
    mkES E { a with y := fun i => c * a.y i } = (mkES E a).map fun f t => c * f t := by
  unfold mkES esInit
  have hsp : E.isp a.n a.x (fun i => c * a.y i) = fun t => c * E.isp a.n a.x a.y t :=
    funext fun t => hs.smul a.n a.x a.y c t
  simp only
  split_ifs with h1
  · rfl
  · rw [hsp, extFunc_smul E.us hus.shift hus.local' _ a.lower _ a.x a.y _ _ c hc hl,
      extFunc_smul E.us hus.shift hus.local' _ a.upper _ (fun i => a.x (a.n - min a.nUp a.n + i))
        (fun i => a.y (a.n - min a.nUp a.n + i)) _ _ c hc hu]
    generalize extFunc E.us _ a.lower _ _ _ _ _ = L
    generalize extFunc E.us _ a.upper _ _ _ _ _ = U
    cases L <;> cases U <;> simp
    funext t
    unfold ES.call
    simp only
    split_ifs <;> rfl

/-! ## correlations -/

/-- the 2-halo correlation at the tabulated separations is the transform of the row of that separation. -/
theorem corr2h_rows (hs : SplLin E.isp) (ho : h.Ok) (e : ExclRes) (he : e.rows = 1 ∨ e.rows = h.nr) (eb : ℝ) (db : Bool) :
    ∃ f, h.corr2h E e eb db = some f ∧ (∀ t < h.rt 0, f t = 0) ∧ ∀ i < h.nr, ∃ p,
      h.power2hPrim E e eb db (if e.rows = 1 then 0 else i) = some p ∧ f (h.rt i) = E.hankelFine p (h.rt i) := by
  have hall : ∀ l : List ℕ, ∃ ps : List (ℝ → ℝ), l.mapM (fun ir => h.power2hPrim E e eb db ir) = some ps ∧
      ps.length = l.length ∧ ∀ i (hi : i < l.length), h.power2hPrim E e eb db l[i] = some (ps.getD i fun _ => 0) := by
    intro l
    induction l with
    | nil => exact ⟨[], rfl, rfl, by simp⟩
    | cons a t ih =>
      obtain ⟨ps, h1, h2, h3⟩ := ih
      obtain ⟨p, hp, -⟩ := power2hPrim_ok (E := E) (h := h) hs ho e eb db a
      refine ⟨p :: ps, by simp [List.mapM_cons, hp, h1], by simp [h2], ?_⟩
      intro i hi
      cases i with
      | zero => simpa using hp
      | succ i => simpa using h3 i (by simpa using hi)
  obtain ⟨ps, h1, h2, h3⟩ := hall (List.range e.rows)
  simp only [List.length_range] at h2 h3
  set c : ℕ → ℝ := fun i => E.hankelFine (if e.rows = 1 then ps.getD 0 (fun _ => 0) else ps.getD i (fun _ => 0)) (h.rt i) with hcdef
  set a : ESArgs := { n := h.nr, x := h.rt, y := c, lower := .callable (fun _ => 0), upper := .callable fun _ => 0 } with ha
  obtain ⟨f, g1, g2, _⟩ := mkES_ok E hs.toSplOk a rfl rfl ho.r (by simp [ha]) (by simp [ha])
  have hf0 : ∀ t < h.rt 0, f t = 0 := by
    unfold mkES at g1
    obtain ⟨es, hes, rfl⟩ := Option.map_eq_some_iff.mp g1
    intro t ht
    rw [(C12_branches E.isp E.us hs.toSplOk a es hes ho.r.inc).2.2.1 t ht]
    have := (esInit_some E.isp E.us a es hes).2.2.2.1
    simp only [ha, extFunc, not_true, if_false, if_true, Option.some.injEq] at this
    rw [← this]
  refine ⟨f, ?_, hf0, ?_⟩
  · unfold HM.corr2h
    rw [h1]
    exact g1
  · intro i hi
    refine ⟨ps.getD (if e.rows = 1 then 0 else i) (fun _ => 0), ?_, ?_⟩
    · have hlt : (if e.rows = 1 then 0 else i) < e.rows := by
        split_ifs with h' <;> omega
      have := h3 _ hlt
      simpa using this
    · rw [g2 i hi]
      simp only [ha, hcdef]
      split_ifs <;> rfl

theorem power2hPrim_smul (hs : SplLin E.isp) (hus : USplOk E.us) (hlin : h.linPow (h.k 0) ≠ 0) (e e' : ExclRes)
    (heq : e'.isNone = e.isNone) (eb : ℝ) (db : Bool) (ir ir' : ℕ) (c : ℝ) (hc : 0 < c)
    (ht : ∀ j, h.power2hTab E e' eb db ir' j = c * h.power2hTab E e eb db ir j) :
    h.power2hPrim E e' eb db ir' = (h.power2hPrim E e eb db ir).map fun f t => c * f t := by
  unfold HM.power2hPrim
  rw [funext ht, heq]
  exact mkES_smul hs hus { n := h.nk, x := h.k, y := h.power2hTab E e eb db ir, lower := .callable h.linPow, matchLower := true, upper := if e.isNone && !h.filtered then .powerLaw else .callable fun _ => 0 } c hc
    (Or.inl ⟨rfl, hlin⟩) (by dsimp only; split_ifs <;> simp [ExtHom])

theorem corr2h_sd (hs : SplLin E.isp) (hus : USplOk E.us)
    (ho : h.Ok) (hlin : h.linPow (h.k 0) ≠ 0) (junk : Mat) (cls : ExclCls) (e : Excl) (s : ℕ → ℝ)
    (b : ℕ → ℝ) (eb : ℝ) (db : Bool) (hpos : ∀ i < h.nr, s i ≠ 0) (hnr : 0 < h.nr) :
    ∃ f g, h.corr2h E (exclRes E junk cls { e with bias := .d2 fun ir im => s ir * b im } h.nr) eb db = some f ∧
      h.corr2h E (exclRes E junk cls { e with bias := .d1 b } h.nr) eb db = some g ∧
      ∀ i < h.nr, ∃ q, h.power2hPrim E (exclRes E junk cls { e with bias := .d1 b } h.nr) eb db i = some q ∧ g (h.rt i) = E.hankelFine q (h.rt i) ∧
        f (h.rt i) = E.hankelFine (fun t => (if db then s i / s (h.nr - 1) else s i) ^ 2 * q t) (h.rt i) := by
  set R2 := exclRes E junk cls { e with bias := .d2 fun ir im => s ir * b im } h.nr with hR2
  set R1 := exclRes E junk cls { e with bias := .d1 b } h.nr with hR1
  have r2 : R2.rows = h.nr := by rw [hR2]; cases cls <;> rfl
  have r1 : R1.rows = 1 ∨ R1.rows = h.nr := by rw [hR1]; cases cls <;> simp [exclRes, exclRows, noExclRows]
  obtain ⟨f, f1, -, f3⟩ := corr2h_rows hs ho R2 (Or.inr r2) eb db
  obtain ⟨g, g1, -, g3⟩ := corr2h_rows hs ho R1 r1 eb db
  refine ⟨f, g, f1, g1, fun i hi => ?_⟩
  obtain ⟨p, hp, hp'⟩ := f3 i hi
  obtain ⟨q, hq, hq'⟩ := g3 i hi
  set c := (if db then s i / s (h.nr - 1) else s i) ^ 2 with hc
  have hc0 : 0 < c := by
    have h1 := hpos i hi
    have h2 := hpos (h.nr - 1) (by omega)
    rw [hc]; split_ifs <;> positivity
  have hrow : (if R2.rows = 1 then 0 else i) = i := by
    rw [r2]; split_ifs with h1 <;> omega
  have hsame : ∀ j, h.power2hTab E R1 eb db (if R1.rows = 1 then 0 else i) j = h.power2hTab E R1 eb db i j := by
    intro j
    by_cases hr : R1.rows = 1
    · rw [if_pos hr]
      rw [hR1] at hr ⊢
      cases cls with
      | noExclusion => rfl
      | _ => rw [show i = 0 by simp only [exclRes, exclRows] at hr; omega]
    · rw [if_neg hr]
  have htab : ∀ j, h.power2hTab E R2 eb db (if R2.rows = 1 then 0 else i) j = c * h.power2hTab E R1 eb db (if R1.rows = 1 then 0 else i) j := by
    intro j
    rw [hrow, hsame]
    obtain ⟨t1, t2⟩ := C54_tables (h := h) hs junk cls e s b h.nr eb i j (hpos _ (by omega))
    cases db
    · exact t1
    · exact t2
  have := power2hPrim_smul hs hus hlin R1 R2 rfl eb db _ _ c hc0 htab
  rw [hp, hq] at this
  simp only [Option.map_some, Option.some.injEq] at this
  refine ⟨q, ?_, hq', by rw [hp', this]⟩
  rw [← hq]
  unfold HM.power2hPrim
  rw [funext hsame]

/-- C54: with scale-dependent bias the 2-halo tracer correlation at every tabulated separation is the transform of the spectrum without it
times the squared correction at that separation, for every exclusion model. -/
theorem C54_tracer_spectrum (hs : SplLin E.isp) (hus : USplOk E.us) (ho : h.Ok) (hlin : h.linPow (h.k 0) ≠ 0) (junk : Mat) (cls : ExclCls) (s : ℕ → ℝ)
    (hpos : ∀ i < h.nr, s i ≠ 0) (hnr : 0 < h.nr) :
    ∃ f g, h.corr2hTracerX E junk cls (some s) = some f ∧ h.corr2hTracerX E junk cls none = some g ∧
      ∀ i < h.nr, ∃ q, h.power2hPrim E (exclRes E junk cls (h.tracerExclX E none) h.nr) (h.biasEffTracer E) false i = some q ∧
        g (h.rt i) = E.hankelFine q (h.rt i) ∧ f (h.rt i) = E.hankelFine (fun t => s i ^ 2 * q t) (h.rt i) := by
  obtain ⟨f, g, h1, h2, h3⟩ := corr2h_sd hs hus ho hlin junk cls (h.tracerExcl E) s h.bias (h.biasEffTracer E) false hpos hnr
  exact ⟨f, g, h1, h2, fun i hi => h3 i hi⟩

/-- C54: for matter, with `force_unity_dm_bias` the factor is relative to the largest tabulated separation, where the correlation is the one without
scale-dependent bias; otherwise the factor is as for tracers. -/
theorem C54_matter_spectrum (hs : SplLin E.isp) (hus : USplOk E.us) (ho : h.Ok) (hlin : h.linPow (h.k 0) ≠ 0) (junk : Mat) (cls : ExclCls) (s : ℕ → ℝ)
    (hpos : ∀ i < h.nr, s i ≠ 0) (hnr : 0 < h.nr) :
    ∃ f g, h.corr2hMatterX E junk cls (some s) = some f ∧ h.corr2hMatterX E junk cls none = some g ∧
      (∀ i < h.nr, ∃ q, h.power2hPrim E (exclRes E junk cls (h.matterExclX none) h.nr) (h.biasEffMatter E) h.forceUnity i = some q ∧
        g (h.rt i) = E.hankelFine q (h.rt i) ∧
        f (h.rt i) = E.hankelFine (fun t => (if h.forceUnity then s i / s (h.nr - 1) else s i) ^ 2 * q t) (h.rt i)) ∧
      (h.forceUnity = true → f (h.rt (h.nr - 1)) = g (h.rt (h.nr - 1))) := by
  obtain ⟨f, g, h1, h2, h3⟩ := corr2h_sd hs hus ho hlin junk cls h.matterExcl s h.bias (h.biasEffMatter E) h.forceUnity hpos hnr
  refine ⟨f, g, h1, h2, h3, fun hf => ?_⟩
  obtain ⟨q, -, hg, hf'⟩ := h3 (h.nr - 1) (by omega)
  rw [hf', hg, hf, if_pos rfl, div_self (hpos _ (by omega)), one_pow]
  simp only [one_mul]

/-- C54: with scale-dependent bias the 2-halo tracer correlation at every tabulated separation is the one without it times the squared correction
there, for every exclusion model, wherever the transform of that spectrum follows the rescaling (see C68 for when it does). -/
theorem C54_tracer_partial (hs : SplLin E.isp) (hus : USplOk E.us) (ho : h.Ok) (hlin : h.linPow (h.k 0) ≠ 0) (junk : Mat) (cls : ExclCls) (s : ℕ → ℝ)
    (hpos : ∀ i < h.nr, s i ≠ 0) (hnr : 0 < h.nr) :
    ∃ f g, h.corr2hTracerX E junk cls (some s) = some f ∧ h.corr2hTracerX E junk cls none = some g ∧
      ∀ i < h.nr, (∀ q, h.power2hPrim E (exclRes E junk cls (h.tracerExclX E none) h.nr) (h.biasEffTracer E) false i = some q →
          E.hankelFine (fun t => s i ^ 2 * q t) (h.rt i) = s i ^ 2 * E.hankelFine q (h.rt i)) →
        f (h.rt i) = s i ^ 2 * g (h.rt i) := by
  obtain ⟨f, g, h1, h2, h3⟩ := C54_tracer_spectrum hs hus ho hlin junk cls s hpos hnr
  refine ⟨f, g, h1, h2, fun i hi hh => ?_⟩
  obtain ⟨q, hq, hg, hf⟩ := h3 i hi
  rw [hf, hg, hh q hq]

/-- C54: the same for matter. -/
theorem C54_matter_partial (hs : SplLin E.isp) (hus : USplOk E.us) (ho : h.Ok) (hlin : h.linPow (h.k 0) ≠ 0) (junk : Mat) (cls : ExclCls) (s : ℕ → ℝ)
    (hpos : ∀ i < h.nr, s i ≠ 0) (hnr : 0 < h.nr) :
    ∃ f g, h.corr2hMatterX E junk cls (some s) = some f ∧ h.corr2hMatterX E junk cls none = some g ∧
      ∀ i < h.nr, (∀ c q, h.power2hPrim E (exclRes E junk cls (h.matterExclX none) h.nr) (h.biasEffMatter E) h.forceUnity i = some q →
          E.hankelFine (fun t => c ^ 2 * q t) (h.rt i) = c ^ 2 * E.hankelFine q (h.rt i)) →
        (h.forceUnity = false → f (h.rt i) = s i ^ 2 * g (h.rt i)) ∧
        (h.forceUnity = true → f (h.rt i) = (s i / s (h.nr - 1)) ^ 2 * g (h.rt i)) := by
  obtain ⟨f, g, h1, h2, h3, -⟩ := C54_matter_spectrum hs hus ho hlin junk cls s hpos hnr
  refine ⟨f, g, h1, h2, fun i hi hh => ?_⟩
  obtain ⟨q, hq, hg, hf⟩ := h3 i hi
  constructor
  · intro e
    rw [hf, hg, hh _ q hq, e]; rfl
  · intro e
    rw [hf, hg, hh _ q hq, e]; rfl

/-- C54: each tabulated separation uses its own row: the correlation there is the transform of the power computed with
the haloes allowed at that separation. -/
theorem C54_own_row (hs : SplLin E.isp) (ho : h.Ok) (junk : Mat) (cls : ExclCls) (sd : Option (ℕ → ℝ)) :
    ∃ f, h.corr2hTracerX E junk cls sd = some f ∧ (∀ t < h.rt 0, f t = 0) ∧ ∀ i < h.nr, ∃ p,
      h.power2hPrim E (exclRes E junk cls (h.tracerExclX E sd) h.nr) (h.biasEffTracer E) false i = some p ∧
      f (h.rt i) = E.hankelFine p (h.rt i) := by
  set R := exclRes E junk cls (h.tracerExclX E sd) h.nr with hR
  have r1 : R.rows = 1 ∨ R.rows = h.nr := by
    rw [hR]; cases sd <;> cases cls <;> simp [exclRes, exclRows, noExclRows, HM.tracerExclX, HM.exclBias]
  obtain ⟨f, f1, f2, f3⟩ := corr2h_rows hs ho R r1 (h.biasEffTracer E) false
  refine ⟨f, f1, f2, fun i hi => ?_⟩
  obtain ⟨p, hp, hp'⟩ := f3 i hi
  refine ⟨p, ?_, hp'⟩
  rw [← hp]
  by_cases hr : R.rows = 1
  · rw [if_pos hr]
    rw [hR] at hr ⊢
    cases cls with
    | noExclusion =>
      cases sd with
      | none => rfl
      | some s =>
        have : h.nr = 1 := hr
        rw [show i = 0 by omega]
    | _ => rw [show i = 0 by simp only [exclRes, exclRows] at hr; omega]
  · rw [if_neg hr]

/-- an environment meeting the assumptions: polynomial interpolation, power laws through the first sample, the
identity as transform. -/
noncomputable def sdE : Env := { isp := polySpl, us := fun n _ y _ => if 0 < n then y 0 else 0, hankel := fun f r => f r }

theorem sdE_us : USplOk sdE.us where
  shift := by intro n x y d t hn; simp [sdE, hn]
  local' := by
    intro n x y y' hy
    funext t
    simp only [sdE]
    split_ifs with hn
    · exact hy 0 hn
    · rfl

/-- a concrete model, exclusion class and correction meet the hypotheses of the theorems above. -/
example : ∃ f g, demoHM.corr2hTracerX sdE (fun _ _ => 0) .ngMatched (some fun i : ℕ => 1 + 1 / ((i:ℝ) + 1)) = some f ∧
    demoHM.corr2hTracerX sdE (fun _ _ => 0) .ngMatched none = some g ∧
    ∀ i < demoHM.nr, f (demoHM.rt i) = (1 + 1 / ((i:ℝ) + 1)) ^ 2 * g (demoHM.rt i) := by
  obtain ⟨f, g, h1, h2, h3⟩ := C54_tracer_partial (E := sdE) polySpl_lin sdE_us demo_ok (by simp [demoHM]) (fun _ _ => 0) .ngMatched
    (fun i : ℕ => 1 + 1 / ((i:ℝ) + 1)) (fun i _ => by positivity) demo_ok.nr0
  exact ⟨f, g, h1, h2, fun i hi => h3 i hi fun _ _ => rfl⟩

end
end Halomod.HaloModel
