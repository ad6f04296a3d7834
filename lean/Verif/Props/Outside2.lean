import Verif.Props.Outside
import Verif.Props.ScaleDep

/-!
# C61 continued: the two-halo power behind the correlation functions, for every exclusion class
-/
namespace Halomod.HaloModel

open Finset Halomod.Tools Halomod.HOD Halomod.Exclusion

section
variable {E : Env} {h : HM}

theorem two_halo_rows_tail (hs : SplLin E.isp) (ho : h.Ok) (junk : Mat) (cls : ExclCls) (e : Excl) (eb : ℝ) (db : Bool) :
    ∃ f, h.corr2h E (exclRes E junk cls e h.nr) eb db = some f ∧ ∀ i < h.nr, ∃ p : ℝ → ℝ, f (h.rt i) = E.hankelFine p (h.rt i) ∧
      (¬ (cls = .noExclusion ∧ h.filtered = false) → ∀ t, h.k (h.nk - 1) < t → p t = 0) ∧
      (cls = .noExclusion ∧ h.filtered = false → ∀ t, h.k (h.nk - 1) < t → 0 ≤ p t ∧
        (0 < p t ↔ ∀ j < h.nk, h.nk ≤ j + min 10 h.nk → 0 < p (h.k j))) := by
  have hr : (exclRes E junk cls e h.nr).rows = 1 ∨ (exclRes E junk cls e h.nr).rows = h.nr := by
    cases cls <;> simp only [exclRes, exclRows, noExclRows, or_true] <;> (split <;> simp)
  obtain ⟨f, f1, -, f3⟩ := corr2h_rows hs ho (exclRes E junk cls e h.nr) hr eb db
  refine ⟨f, f1, fun i hi => ?_⟩
  obtain ⟨p, hp, hp'⟩ := f3 i hi
  refine ⟨p, hp', ?_, ?_⟩
  · intro hc t ht
    refine (mkES_tails hs.toSplOk _ ho.k ho.nk0 p hp (by norm_num)).2.2.2.1 ?_ t ht
    dsimp only
    rw [if_neg]
    intro H
    apply hc
    cases cls <;> simp_all [exclRes]
  · rintro ⟨hc, hf⟩ t ht
    have hu : (if (exclRes E junk cls e h.nr).isNone && !h.filtered then Ext.powerLaw else .callable fun _ => 0)
        = .powerLaw := by subst hc; rw [hf]; rfl
    have := (mkES_tails hs.toSplOk _ ho.k ho.nk0 p hp (by norm_num)).2.2.2.2 hu t ht
    refine ⟨this.1, this.2.trans ?_⟩
    obtain ⟨p', hq, hv⟩ := power2hPrim_ok (E := E) (h := h) hs ho (exclRes E junk cls e h.nr) eb db
      (if (exclRes E junk cls e h.nr).rows = 1 then 0 else i)
    have : p' = p := Option.some.inj (hq.symm.trans hp)
    subst this
    dsimp only
    constructor
    · intro H j hj hj'
      rw [hv j hj]; exact H j hj hj'
    · intro H j hj hj'
      have := H j hj hj'
      rwa [hv j hj] at this

/-- C61: the two-halo correlation functions of matter and tracer at every tabulated separation are transforms of a power
spectrum that stops at the largest tabulated wavenumber whenever halo exclusion is applied or the halo-centre spectrum is
filtered, and otherwise is continued by a power law: non-negative, and non-zero exactly when the last ten tabulated
values are positive. -/
theorem C61_two_halo_exclusion (hs : SplLin E.isp) (ho : h.Ok) (junk : Mat) (cls : ExclCls) (sd : Option (ℕ → ℝ)) :
    ∃ fm ft, h.corr2hMatterX E junk cls sd = some fm ∧ h.corr2hTracerX E junk cls sd = some ft ∧
      ∀ i < h.nr, ∃ pm pt : ℝ → ℝ, fm (h.rt i) = E.hankelFine pm (h.rt i) ∧ ft (h.rt i) = E.hankelFine pt (h.rt i) ∧
        (¬ (cls = .noExclusion ∧ h.filtered = false) → ∀ t, h.k (h.nk - 1) < t → pm t = 0 ∧ pt t = 0) ∧
        (cls = .noExclusion ∧ h.filtered = false → ∀ t, h.k (h.nk - 1) < t → 0 ≤ pm t ∧ 0 ≤ pt t ∧
          (0 < pm t ↔ ∀ j < h.nk, h.nk ≤ j + min 10 h.nk → 0 < pm (h.k j)) ∧
          (0 < pt t ↔ ∀ j < h.nk, h.nk ≤ j + min 10 h.nk → 0 < pt (h.k j))) := by
  obtain ⟨fm, m1, m2⟩ := two_halo_rows_tail hs ho junk cls (h.matterExclX sd) (h.biasEffMatter E) h.forceUnity
  obtain ⟨ft, t1, t2⟩ := two_halo_rows_tail hs ho junk cls (h.tracerExclX E sd) (h.biasEffTracer E) false
  refine ⟨fm, ft, m1, t1, fun i hi => ?_⟩
  obtain ⟨pm, a1, a2, a3⟩ := m2 i hi
  obtain ⟨pt, b1, b2, b3⟩ := t2 i hi
  exact ⟨pm, pt, a1, b1, fun hc t ht => ⟨a2 hc t ht, b2 hc t ht⟩,
    fun hc t ht => ⟨(a3 hc t ht).1, (b3 hc t ht).1, (a3 hc t ht).2, (b3 hc t ht).2⟩⟩

/-- the hypotheses are met by the demonstration model. -/
example (junk : Mat) : ∃ fm, demoHM.corr2hMatterX demoE junk .dblSphere none = some fm := by
  obtain ⟨fm, ft, h, -⟩ := C61_two_halo_exclusion (E := demoE)
    polySpl_lin demo_ok junk .dblSphere none
  exact ⟨fm, h⟩

end
end Halomod.HaloModel
