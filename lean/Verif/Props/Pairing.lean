import Verif.Model.Pairing
import Mathlib.Tactic

/-! # C53: the mass function goes with the bias model -/
namespace Halomod.Pairing

/-- the peak-background-split partner of each bias model that has one, read off the papers cited in bias.py:
Press-Schechter for Mo & White, Sheth-Tormen for the Sheth-Tormen family and its refits, Manera for Manera,
Tinker10 for the split of Tinker10. -/
def partner : BiasCls → Option Hmf
  | .mo96 => some .PS
  | .st99 | .smt01 | .tinker05 | .mandelbaum05 => some .SMT
  | .manera10 => some .Manera
  | .tinker10PBSplit => some .Tinker10
  | _ => none

/-- C53: a model constructed without naming a mass function uses the bias model's partner, if it has one; models
without partner use Tinker10, `UnityBias` the first normalised mass function; a mass function that is named is
used. -/
theorem C53_constructed (N : List Hmf) (b : BiasCls) :
    (∀ h, (construct N b (some h)).hmf = h) ∧
    (∀ h, partner b = some h → (construct N b none).hmf = h) ∧
    (partner b = none → b ≠ .unity → (construct N b none).hmf = .Tinker10) ∧
    (b = .unity → ∀ h t, N = h :: t → (construct N b none).hmf = h) := by
  cases b <;> simp [construct, partner, BiasCls.pair, BiasCls.own, BiasCls.parent] <;> aesop

/-- C53: the pair warning of a newly constructed model without an explicit mass function appears exactly for the
bias models without partner (and `UnityBias` when nothing is normalised) — including the default bias model
Tinker10, although it comes with its own mass function. -/
theorem C53_warning (N : List Hmf) (b : BiasCls) :
    ((construct N b none).normWarn N).2 = true ↔ partner b = none ∧ (b = .unity → N = []) := by
  cases b <;> simp [construct, partner, BiasCls.pair, BiasCls.own, BiasCls.parent, Model.normWarn]
  cases N <;> simp

/-- C53: the warning about the mass function appears exactly when the mass function in use is not one of the normalised ones: never for `UnityBias` when
there are any; for a model built without naming a mass function, when its partner (else Tinker10) is not normalised; for a named one, when that is not. -/
theorem C53_mass_function_warning (N : List Hmf) (b : BiasCls) :
    (∀ h, ((construct N b (some h)).normWarn N).1 = true ↔ h ∉ N) ∧
    (∀ h, partner b = some h → (((construct N b none).normWarn N).1 = true ↔ h ∉ N)) ∧
    (partner b = none → b ≠ .unity → (((construct N b none).normWarn N).1 = true ↔ Hmf.Tinker10 ∉ N)) ∧
    (b = .unity → N ≠ [] → ((construct N b none).normWarn N).1 = false) := by
  have hc := C53_constructed N b
  refine ⟨fun h => ?_, fun h hp => ?_, fun hp hb => ?_, fun hb hN => ?_⟩
  · simp [Model.normWarn, hc.1 h]
  · simp [Model.normWarn, hc.2.1 h hp]
  · simp [Model.normWarn, hc.2.2.1 hp hb]
  · obtain ⟨h, t, rfl⟩ := List.exists_cons_of_ne_nil hN
    simp [Model.normWarn, hc.2.2.2 hb h t rfl]

/-- C53 (finding): the mass function follows the bias model only at construction.  After any sequence of
updates that do not name a mass function, the mass function is still the one chosen at construction, so a model updated
to another bias differs from one constructed with it. -/
theorem C53_update_keeps_mass_function (N : List Hmf) (b : BiasCls) (g : Option Hmf)
    (us : List BiasCls) :
    let m := us.foldl (fun m b' => m.update (some b') none) (construct N b g)
    m.hmf = (construct N b g).hmf ∧ m.bias = us.getLast?.getD b := by
  induction us using List.reverseRecOn with
  | nil => simp [construct]
  | append_singleton t a ih =>
    simp only [List.foldl_append, List.foldl_cons, List.foldl_nil, List.getLast?_append, List.getLast?_singleton,
      Option.some_or, Option.getD_some] at ih ⊢
    exact ⟨ih.1, rfl⟩

/-- C53 (finding): changing Mo96 to ST99 leaves Press-Schechter with it. -/
theorem C53_update_unpairs (N : List Hmf) : ((construct N .mo96 none).update (some .st99) none).hmf = .PS ∧
    (construct N .st99 none).hmf = .SMT := ⟨rfl, rfl⟩

/-- C53: naming both keeps any pair consistent. -/
theorem C53_update_both (m : Model) (b : BiasCls) (h : Hmf) : m.update (some b) (some h) = ⟨b, h⟩ := rfl

end Halomod.Pairing
