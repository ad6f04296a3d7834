import Verif.Model.WdmConc
import Verif.Props.Wdm

/-! # C69: the concentration in a WDM model -/
namespace Halomod.Wdm

noncomputable section
variable {ι : Type}

theorem suffix_iff (s : List Char) : ("WDM".toList.isSuffixOf s) = true ↔ "WDM".toList <:+ s := List.isSuffixOf_iff_suffix

theorem haloSetter_wdm (N : Names ι) (s : List Char) (x : ι) (h : N.mod s = some x) : haloSetter N (.name (s ++ "WDM".toList)) = some (.rescaled x) := by
  have hs : ("WDM".toList.isSuffixOf (s ++ "WDM".toList)) = true := (suffix_iff _).mpr ⟨s, rfl⟩
  have h2 : stripWDM (s ++ "WDM".toList) = s := by
    unfold stripWDM
    rw [if_pos hs]
    simp
  unfold haloSetter
  simp only
  rw [if_pos hs, h2, h]
  rfl

/-- the parameter `k` with default `d`. -/
def par (kw : Dict) (k : String) (d : ℝ) : ℝ := (kw k).getD d

theorem mk_rescaled (dflt : ι → Dict) (x : ι) (kw : Dict) (q : Conc ι) (h : mk dflt (.rescaled x) kw = some q) :
    q.cls = .rescaled x ∧ q.mhm = some ((kw "m_hm").getD 1000) ∧
    (q.params "g1").getD 0 = par kw "g1" 60 ∧ (q.params "g2").getD 0 = par kw "g2" 0.17 ∧ (q.params "beta0").getD 0 = par kw "beta0" 0.026 ∧
    (q.params "beta1").getD 0 = par kw "beta1" 0.04 := by
  unfold mk at h
  simp only at h
  split_ifs at h with hc
  have := Option.some.inj h
  subst this
  refine ⟨rfl, rfl, ?_, ?_, ?_, ?_⟩ <;>
  · unfold Dict.update wdmDefaults par
    simp only [String.reduceEq, if_true, if_false]
    generalize kw _ = o
    cases o <;> simp

/-- C69: a concentration named with the suffix "WDM" is that of the named relation, lowered by the documented factor with the half-mode mass *of the model*,
whatever is given for `m_hm`; at the default parameters it is below the relation itself up to redshift 1.5. -/
theorem C69_named (N : Names ι) (dflt : ι → Dict) (rel : ι → Dict → ℝ → ℝ → ℝ) (s : List Char) (x : ι) (hx : N.mod s = some x) (kw : Dict) (mhm : ℝ) :
    haloSetter N (.name (s ++ "WDM".toList)) = some (.rescaled x) ∧ ∀ q, haloConc dflt (.rescaled x) kw mhm = some q → ∀ m z,
      q.cm rel m z = rel x q.params m z * (1 + par kw "g1" 60 * mhm / m) ^ (-par kw "g2" 0.17) * (1 + z) ^ (par kw "beta0" 0.026 * z - par kw "beta1" 0.04) ∧
      (kw "g1" = none → kw "g2" = none → kw "beta0" = none → kw "beta1" = none → 0 < m → 0 < mhm → 0 ≤ z → z ≤ 1.5 → 0 < rel x q.params m z →
        q.cm rel m z < rel x q.params m z) := by
  refine ⟨haloSetter_wdm N s x hx, fun q hq m z => ?_⟩
  unfold haloConc at hq
  obtain ⟨q0, h0, rfl⟩ := Option.map_eq_some_iff.mp hq
  obtain ⟨a1, a2, a3, a4, a5, a6⟩ := mk_rescaled dflt x kw q0 h0
  have key : ({ q0 with mhm := q0.mhm.map fun _ => mhm } : Conc ι).cm rel m z =
      cmWdm (rel x q0.params) (par kw "g1" 60) (par kw "g2" 0.17) (par kw "beta0" 0.026) (par kw "beta1" 0.04) mhm m z := by
    unfold Conc.cm
    simp only [a1, a2, a3, a4, a5, a6, Option.map_some, Option.getD_some]
  refine ⟨key, fun g1 g2 b0 b1 hm hh hz hz1 hr => ?_⟩
  rw [key]
  simp only [par, g1, g2, b0, b1, Option.getD_none]
  exact C43_lowers_default _ mhm m z hr hm hh hz hz1

/-- C69: in a model in which no concentration is given, and with every relation named without the suffix, the relation is used as it is: the half-mode mass of
the model does not enter through the factor. -/
theorem C69_default_not_rescaled (N : Names ι) (dflt : ι → Dict) (rel : ι → Dict → ℝ → ℝ → ℝ) (x : ι) :
    (N.reg "Ludlow2016".toList = some (.plain x) → haloSetter N (haloKw none) = some (.plain x)) ∧
    (∀ s : List Char, ¬ "WDM".toList <:+ s → N.reg s = some (.plain x) → haloSetter N (haloKw (some (.name s))) = some (.plain x)) ∧
    ∀ (kw : Dict) (mhm mhm' : ℝ), haloConc dflt (.plain x) kw mhm = haloConc dflt (.plain x) kw mhm' ∧
      ∀ q, haloConc dflt (.plain x) kw mhm = some q → ∀ m z, q.cm rel m z = rel x q.params m z := by
  have hplain : ∀ (kw : Dict) (mhm : ℝ), haloConc dflt (.plain x) kw mhm = mk dflt (.plain x) kw := by
    intro kw mhm
    unfold haloConc mk
    simp only
    split_ifs <;> rfl
  refine ⟨fun h => ?_, fun s hs h => ?_, fun kw mhm mhm' => ⟨by rw [hplain, hplain], fun q hq m z => ?_⟩⟩
  · unfold haloKw haloSetter
    simp only [Option.getD_none]
    rw [if_neg (by decide), h]
  · unfold haloKw haloSetter
    simp only [Option.getD_some]
    rw [if_neg (fun h' => hs ((suffix_iff s).mp h')), h]
  · rw [hplain] at hq
    unfold mk at hq
    simp only at hq
    split_ifs at hq
    have := Option.some.inj hq
    subst this
    rfl

/-- C69: without a tracer concentration the tracers use that of the haloes. -/
theorem C69_tracer_follows (dflt : ι → Dict) (c : CmCls ι) (kw tkw : Dict) (mhm : ℝ) :
    tracerConc dflt c kw mhm none tkw = haloConc dflt c kw mhm := rfl

/-- C69 finding: a rescaled relation given for the tracers never sees the half-mode mass of the model: it uses the keyword `m_hm`, 1000 by default; so with
the *same* class and parameters as the haloes the tracers have another concentration, unless the half-mode mass happens to be that number. -/
theorem C69_tracer_half_mode (dflt : ι → Dict) (rel : ι → Dict → ℝ → ℝ → ℝ) (x : ι) (kw : Dict) (mhm : ℝ) (q : Conc ι)
    (hq : haloConc dflt (.rescaled x) kw mhm = some q) (m z : ℝ) (hm : 0 < m) (hh : 0 < mhm) (hz : 0 ≤ z) (hr : 0 < rel x q.params m z)
    (hg1 : 0 < par kw "g1" 60) (hg2 : 0 < par kw "g2" 0.17) (h0 : 0 < par kw "m_hm" 1000) :
    ∃ t, tracerConc dflt (.rescaled x) kw mhm (some (.rescaled x)) (fun _ => none) = some t ∧
      t.cm rel m z = rel x q.params m z * (1 + par kw "g1" 60 * par kw "m_hm" 1000 / m) ^ (-par kw "g2" 0.17) *
        (1 + z) ^ (par kw "beta0" 0.026 * z - par kw "beta1" 0.04) ∧
      (t.cm rel m z = q.cm rel m z ↔ mhm = par kw "m_hm" 1000) := by
  unfold haloConc at hq
  obtain ⟨q0, hq0, rfl⟩ := Option.map_eq_some_iff.mp hq
  obtain ⟨a1, a2, a3, a4, a5, a6⟩ := mk_rescaled dflt x kw q0 hq0
  have key : ({ q0 with mhm := q0.mhm.map fun _ => mhm } : Conc ι).cm rel m z =
      cmWdm (rel x q0.params) (par kw "g1" 60) (par kw "g2" 0.17) (par kw "beta0" 0.026) (par kw "beta1" 0.04) mhm m z := by
    unfold Conc.cm
    simp only [a1, a2, a3, a4, a5, a6, Option.map_some, Option.getD_some]
  have key0 : q0.cm rel m z =
      cmWdm (rel x q0.params) (par kw "g1" 60) (par kw "g2" 0.17) (par kw "beta0" 0.026) (par kw "beta1" 0.04) (par kw "m_hm" 1000) m z := by
    unfold Conc.cm
    simp only [a1, a2, a3, a4, a5, a6, Option.getD_some, par]
  refine ⟨q0, ?_, key0, ?_⟩
  · unfold tracerConc
    simp only
    rw [if_pos ⟨fun _ => rfl, rfl⟩, hq0]
  · rw [key, key0]
    unfold cmWdm
    have hz' : 0 < (1 + z) ^ (par kw "beta0" 0.026 * z - par kw "beta1" 0.04) := by positivity
    have hr' : 0 < rel x q0.params m z := hr
    constructor
    · intro e
      have e1 := mul_right_cancel₀ hz'.ne' e
      have e2 := mul_left_cancel₀ hr'.ne' e1
      have b1 : 0 ≤ 1 + par kw "g1" 60 * par kw "m_hm" 1000 / m := by positivity
      have b2 : 0 ≤ 1 + par kw "g1" 60 * mhm / m := by positivity
      have e3 := (Real.rpow_left_inj b1 b2 (neg_ne_zero.mpr hg2.ne')).mp e2
      have e4 := (div_left_inj' hm.ne').mp (add_left_cancel e3)
      exact (mul_left_cancel₀ hg1.ne' e4).symm
    · rintro rfl
      rfl

/-- C69 finding: the names with the suffix that the halo setting accepts are refused for the tracers, unless hmf's registry happens to hold a class of that
name. -/
theorem C69_tracer_names (N : Names ι) (s : List Char) (x : ι) (hx : N.mod s = some x) :
    haloSetter N (.name (s ++ "WDM".toList)) = some (.rescaled x) ∧
    (tracerSetter N (.name (s ++ "WDM".toList)) = none ↔ N.reg (s ++ "WDM".toList) = none) := by
  refine ⟨haloSetter_wdm N s x hx, ?_⟩
  unfold tracerSetter
  simp

/-- C69: the tracers' setting takes `None` (no relation of their own), a class as it is and a registered name as the class registered under it; the halo setting takes a class and a
registered name without the suffix alike, but not `None`. -/
theorem C69_setting_values (N : Names ι) :
    tracerSetter N .none = some none ∧ (∀ c, tracerSetter N (.cls c) = some (some c)) ∧ (∀ s c, N.reg s = some c → tracerSetter N (.name s) = some (some c)) ∧
    haloSetter N .none = none ∧ (∀ c, haloSetter N (.cls c) = some c) ∧ (∀ s, ¬ "WDM".toList <:+ s → haloSetter N (.name s) = N.reg s) := by
  refine ⟨rfl, fun _ => rfl, fun s c h => ?_, rfl, fun _ => rfl, fun s h => ?_⟩
  · simp only [tracerSetter, h, Option.map_some]
  · have : "WDM".toList.isSuffixOf s = false := by
      rw [Bool.eq_false_iff, ne_eq, List.isSuffixOf_iff_suffix]
      exact h
    simp only [haloSetter, this, Bool.false_eq_true, if_false]

/-- the hypotheses above are met: one relation, constant, known as "Ludlow2016". -/
example : ∃ (N : Names Unit) (dflt : Unit → Dict) (rel : Unit → Dict → ℝ → ℝ → ℝ) (q : Conc Unit),
    N.mod "Ludlow2016".toList = some () ∧ N.reg "Ludlow2016".toList = some (.plain ()) ∧ haloConc dflt (.rescaled ()) (fun _ => none) 1e9 = some q ∧
    0 < rel () q.params 1e12 0 ∧ 0 < par (fun _ => none) "g1" 60 ∧ 0 < par (fun _ => none) "m_hm" 1000 := by
  obtain ⟨q, hq⟩ : ∃ q, haloConc (fun (_ : Unit) _ => none) (.rescaled ()) (fun _ => none) 1e9 = some q := by
    unfold haloConc mk
    simp
  exact ⟨⟨fun _ => some (.plain ()), fun _ => some ()⟩, fun _ _ => none, fun _ _ _ _ => 5, q, rfl, rfl, hq, by norm_num, by norm_num [par], by norm_num [par]⟩

end
end Halomod.Wdm
