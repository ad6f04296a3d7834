import Verif.Spec.Colossus
import Mathlib.Tactic

/-! # C52: components of different models do not influence each other -/
namespace Halomod.Colossus

variable {Cosmo X Y : Type} (F : ℕ → Cosmo → X → Y)

/-- the state after a program. -/
theorem run_objs (l : List (Ev Cosmo X)) (p : Proc Cosmo) :
    (run F p l).1.objs = p.objs ++ (built l).map fun b => ⟨b.1, b.2⟩ := by
  induction l generalizing p with
  | nil => simp [run, built]
  | cons e t ih =>
    cases e with
    | build v c => simp only [run, ih]; simp [Proc.build, built]
    | eval i x => simp only [run, ih]; simp [built]

theorem run_current_none (l : List (Ev Cosmo X)) (p : Proc Cosmo) (h : ∀ c, Ev.build true c ∉ l) :
    (run F p l).1.current = p.current := by
  induction l generalizing p with
  | nil => rfl
  | cons e t ih =>
    have ht : ∀ c, Ev.build true c ∉ t := fun c hc => h c (by simp [hc])
    cases e with
    | build v c =>
      have hv : v = false := by
        cases v with
        | false => rfl
        | true => exact absurd (by simp) (h c)
      simp only [run, ih _ ht]; simp [Proc.build, hv]
    | eval i x => simp only [run, ih _ ht]

theorem run_append (l l' : List (Ev Cosmo X)) (p : Proc Cosmo) :
    run F p (l ++ l') = ((run F (run F p l).1 l').1, (run F p l).2 ++ (run F (run F p l).1 l').2) := by
  induction l generalizing p with
  | nil => simp [run]
  | cons e t ih => cases e <;> simp [run, ih]

theorem run_current (l : List (Ev Cosmo X)) (p : Proc Cosmo) (c : Cosmo) (h : LastColossus l c) :
    (run F p l).1.current = some c := by
  obtain ⟨l₁, l₂, rfl, h2⟩ := h
  rw [run_append]
  simp only [run]
  rw [run_current_none F l₂ _ h2]
  simp [Proc.build]

/-- the empty process at the start of a program. -/
def start : Proc Cosmo := ⟨[], none⟩

/-- C52: after any program, a native component built with cosmology `c` evaluates to its relation in `c`, whatever
else was built before or after it. -/
theorem C52_native_isolated (l : List (Ev Cosmo X)) (i : ℕ) (x : X) (c : Cosmo)
    (hi : (built l)[i]? = some (false, c)) : (run F start l).1.eval F i x = some (F i c x) := by
  have : (run F start l).1.objs[i]? = some ⟨false, c⟩ := by
    rw [run_objs]; simp [start, hi]
  simp [Proc.eval, this]

/-- C52: a colossus-backed component always evaluates, and to its relation in the cosmology of the
colossus-backed component built last, which need not be its own. -/
theorem C52_colossus_last_wins (l : List (Ev Cosmo X)) (i : ℕ) (x : X) (c : Cosmo)
    (hi : (built l)[i]? = some (true, c)) :
    ∃ c', LastColossus l c' ∧ (run F start l).1.eval F i x = some (F i c' x) := by
  have hobj : (run F start l).1.objs[i]? = some ⟨true, c⟩ := by
    rw [run_objs]; simp [start, hi]
  have hmem : Ev.build true c ∈ l := by
    have := List.mem_of_getElem? hi
    simp only [built, List.mem_filterMap] at this
    obtain ⟨e, he, h⟩ := this
    cases e <;> simp at h
    obtain ⟨rfl, rfl⟩ := h; exact he
  have hlast : ∀ l : List (Ev Cosmo X), (∃ c, Ev.build true c ∈ l) → ∃ c', LastColossus l c' := by
    intro l
    induction l with
    | nil => rintro ⟨c, h⟩; simp at h
    | cons e t ih =>
      rintro ⟨c, h⟩
      by_cases ht : ∃ c, Ev.build true c ∈ t
      · obtain ⟨c', l₁, l₂, h1, h2⟩ := ih ht
        exact ⟨c', e :: l₁, l₂, by simp [h1], h2⟩
      · rcases List.mem_cons.1 h with rfl | h
        · exact ⟨c, [], t, rfl, fun c' hc' => ht ⟨c', hc'⟩⟩
        · exact absurd ⟨c, h⟩ ht
  obtain ⟨c', hc'⟩ := hlast l ⟨c, hmem⟩
  refine ⟨c', hc', ?_⟩
  simp [Proc.eval, hobj, run_current F l start c' hc']

/-- C52: so a colossus-backed component is right in every program that gives all colossus-backed components one
cosmology. -/
theorem C52_one_cosmology_partial (l : List (Ev Cosmo X)) (i : ℕ) (x : X) (c : Cosmo)
    (hi : (built l)[i]? = some (true, c)) (hone : ∀ c', Ev.build true c' ∈ l → c' = c) :
    (run F start l).1.eval F i x = some (F i c x) := by
  obtain ⟨c', ⟨l₁, l₂, rfl, h2⟩, h⟩ := C52_colossus_last_wins F l i x c hi
  rw [h, hone c' (by simp)]

/-- C52 (finding): building a second colossus-backed component changes the values of the first, whenever its
relation differs between the two cosmologies. -/
theorem C52_second_model_interferes (c c' : Cosmo) (x : X) (hF : F 0 c x ≠ F 0 c' x) :
    (run F start [.build true c, .eval 0 x, .build true c', .eval 0 x]).2 = [some (F 0 c x), some (F 0 c' x)] ∧
    some (F 0 c x) ≠ some (F 0 c' x) := by
  refine ⟨?_, by simpa using hF⟩
  simp [run, Proc.build, Proc.eval, start]

/-- such relations exist. -/
example : (fun (_ : ℕ) (c x : ℕ) => c * x) 0 1 5 ≠ (fun (_ : ℕ) (c x : ℕ) => c * x) 0 2 5 := by decide

/-- a program in which a native and two colossus-backed components meet the hypotheses. -/
example : (built ([.build false 1, .build true 2, .eval 0 7, .build true 2, .eval 1 7] : List (Ev ℕ ℕ)))[1]?
    = some (true, 2) := rfl

end Halomod.Colossus
