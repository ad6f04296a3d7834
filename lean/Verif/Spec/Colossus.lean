import Verif.Model.Colossus

/-! # Reference for C52: which cosmology a component was given, and which was given last -/
namespace Halomod.Colossus

/-- the components built by a program, in order: (via colossus?, cosmology given). -/
def built {Cosmo X : Type} (l : List (Ev Cosmo X)) : List (Bool × Cosmo) :=
  l.filterMap fun | .build v c => some (v, c) | .eval _ _ => none

/-- `c` was given to the last colossus-backed component a program builds. -/
def LastColossus {Cosmo X : Type} (l : List (Ev Cosmo X)) (c : Cosmo) : Prop :=
  ∃ l₁ l₂ : List (Ev Cosmo X), l = l₁ ++ .build true c :: l₂ ∧ ∀ c', Ev.build true c' ∉ l₂

end Halomod.Colossus
