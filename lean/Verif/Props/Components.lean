import Verif.Model.Components
import Verif.Props.HaloModel4
import Mathlib.Data.List.Nodup

/-! # C48: tracer components; C49: validation and the tracer mass mask -/
namespace Halomod.Components

open Halomod.HaloModel

section
variable {C : Type} [DecidableEq C]

/-- C48: with no tracer models given, the tracer uses the very components of the halo, so its Fourier
profile is the halo's at every wavenumber and mass. -/
theorem C48_default (c : Cfg C) (h1 : c.tracerProf = none) (h2 : c.tracerConc = none) (e : Eval C) (k m : ℝ) :
    tracerProfile c = haloProfile c ∧ tracerConcentration c = haloConcentration c ∧
    e.tracerUkm c k m = e.haloUkm c k m ∧ e.tracerOwn c k m = e.haloUkm c k m := by
  have a : tracerProfile c = haloProfile c := by unfold tracerProfile; rw [h1]
  have b : tracerConcentration c = haloConcentration c := by unfold tracerConcentration; rw [h2]
  refine ⟨a, b, ?_, ?_⟩
  · unfold Eval.tracerUkm Eval.haloUkm; rw [a, b]
  · unfold Eval.tracerOwn Eval.haloUkm; rw [a]; rfl

/-- C48: naming the halo's models explicitly for the tracer, without parameters, is the same as naming
none. -/
theorem C48_explicit_same (c : Cfg C) (h1 : c.tracerProf = none ∨ c.tracerProf = some c.haloProf)
    (h2 : c.tracerConc = none ∨ c.tracerConc = some c.haloConc)
    (h3 : c.tracerProfParams = []) (h4 : c.tracerConcParams = []) :
    tracerProfile c = haloProfile c ∧ tracerConcentration c = haloConcentration c := by
  have hp : tracerProfEffParams c c.haloProf = c.haloProfParams := by
    unfold tracerProfEffParams; rw [if_pos ⟨by rw [h3]; rfl, rfl⟩]
  have b : tracerConcentration c = haloConcentration c := by
    unfold tracerConcentration haloConcentration
    rcases h2 with h2 | h2
    · rw [h2]
    · rw [h2, h4]
      simp only [List.isEmpty_nil, and_self, if_true]
      rcases h1 with h1 | h1
      · rw [h1]
      · rw [h1]; simp only [hp]
  refine ⟨?_, b⟩
  unfold tracerProfile
  rcases h1 with h1 | h1
  · rw [h1]
  · rw [h1]; simp only [hp, b]; rfl

/-- C48: which parameters a tracer model gets.  Its own if any are given (not merged with the halo's); if
none are given, the halo's when the model is the halo's, and none (the model's defaults) otherwise. -/
theorem C48_parameters (c : Cfg C) (tp tc : C) (h1 : c.tracerProf = some tp) (h2 : c.tracerConc = some tc) :
    ∃ pp cp rel prof, tracerProfile c = .prof tp rel pp ∧ tracerConcentration c = .conc tc prof cp ∧
      (c.tracerProfParams ≠ [] → pp = c.tracerProfParams) ∧
      (c.tracerProfParams = [] → tp = c.haloProf → pp = c.haloProfParams) ∧
      (c.tracerProfParams = [] → tp ≠ c.haloProf → pp = []) ∧
      (c.tracerConcParams ≠ [] → cp = c.tracerConcParams) ∧
      (c.tracerConcParams = [] → tc = c.haloConc → cp = c.haloConcParams) ∧
      (c.tracerConcParams = [] → tc ≠ c.haloConc → cp = []) := by
  refine ⟨_, _, _, _, by unfold tracerProfile; rw [h1], by unfold tracerConcentration; rw [h2], ?_, ?_, ?_, ?_, ?_, ?_⟩
  · intro h; unfold tracerProfEffParams; rw [if_neg]; rintro ⟨h', -⟩; exact h (List.isEmpty_iff.mp h')
  · intro h h'; unfold tracerProfEffParams; rw [if_pos ⟨by rw [h]; rfl, h'⟩]
  · intro h h'; unfold tracerProfEffParams; rw [if_neg (fun x => h' x.2), h]
  · intro h; rw [if_neg]; rintro ⟨h', -⟩; exact h (List.isEmpty_iff.mp h')
  · intro h h'; rw [if_pos ⟨by rw [h]; rfl, h'⟩]
  · intro h h'; rw [if_neg (fun x => h' x.2), h]

/-- C48: with a tracer profile model given, the tracer profile carries the tracer concentration relation, so
evaluating it without giving concentrations agrees with the spectra's profile; and the relation was built
for a profile of the same class and parameters. -/
theorem C48_consistent (c : Cfg C) (tp : C) (h1 : c.tracerProf = some tp) (e : Eval C) (k m : ℝ) :
    e.tracerOwn c k m = e.tracerUkm c k m ∧
    (∃ pp, tracerProfile c = .prof tp (tracerConcentration c) pp ∧
      ∀ tc, c.tracerConc = some tc → ∃ cp, tracerConcentration c = .conc tc (.prof tp .noRel pp) cp) := by
  have a : tracerProfile c = .prof tp (tracerConcentration c) (tracerProfEffParams c tp) := by
    unfold tracerProfile; rw [h1]
  refine ⟨?_, _, a, ?_⟩
  · unfold Eval.tracerOwn Eval.tracerUkm; rw [a]; rfl
  · intro tc h2
    unfold tracerConcentration
    rw [h2, h1]
    exact ⟨_, rfl⟩

/-- C48 finding: a tracer concentration given without a tracer profile is used by the spectra, but not by
`tracer_profile` itself (hence not when haloes are populated with it), which keeps the halo's relation: the
two evaluations agree at every point for every physics iff the two relations coincide. -/
theorem C48_concentration_alone (c : Cfg C) (h1 : c.tracerProf = none) :
    (∀ (e : Eval C) (k m : ℝ), e.tracerUkm c k m = e.u c.haloProf c.haloProfParams k m (e.cm (tracerConcentration c) m) ∧
      e.tracerOwn c k m = e.u c.haloProf c.haloProfParams k m (e.cm (haloConcentration c) m)) ∧
    ((∀ (e : Eval C) (k m : ℝ), e.tracerUkm c k m = e.tracerOwn c k m) ↔
      tracerConcentration c = haloConcentration c) := by
  have a : tracerProfile c = .prof c.haloProf (haloConcentration c) c.haloProfParams := by
    unfold tracerProfile; rw [h1]; rfl
  have hv : ∀ (e : Eval C) (k m : ℝ), e.tracerUkm c k m = e.u c.haloProf c.haloProfParams k m (e.cm (tracerConcentration c) m) ∧
      e.tracerOwn c k m = e.u c.haloProf c.haloProfParams k m (e.cm (haloConcentration c) m) := by
    intro e k m
    unfold Eval.tracerUkm Eval.tracerOwn
    rw [a]
    exact ⟨rfl, rfl⟩
  refine ⟨hv, ?_, ?_⟩
  · intro h
    classical
    by_contra hne
    have := h ⟨fun x _ => if x = haloConcentration c then 1 else 0, fun _ _ _ _ conc => conc⟩ 0 0
    rw [(hv _ 0 0).1, (hv _ 0 0).2] at this
    simp [hne] at this
  · intro h e k m
    rw [(hv e k m).1, (hv e k m).2, h]

omit [DecidableEq C] in
/-- C48: nothing about the tracer enters the halo components. -/
theorem C48_halo_unaffected (c c' : Cfg C) (h1 : c.haloProf = c'.haloProf) (h2 : c.haloProfParams = c'.haloProfParams)
    (h3 : c.haloConc = c'.haloConc) (h4 : c.haloConcParams = c'.haloConcParams) (e : Eval C) (k m : ℝ) :
    haloProfile c = haloProfile c' ∧ haloConcentration c = haloConcentration c' ∧
    e.haloUkm c k m = e.haloUkm c' k m := by
  have b : haloConcentration c = haloConcentration c' := by unfold haloConcentration; rw [h1, h2, h3, h4]
  have a : haloProfile c = haloProfile c' := by unfold haloProfile; rw [b, h1, h2]
  refine ⟨a, b, ?_⟩
  unfold Eval.haloUkm
  rw [a, b]

/-- a tracer that differs from the halo only by its concentration model (classes 0, 1, 2). -/
example : ∃ c : Cfg (Fin 3), c.tracerProf = none ∧ tracerConcentration c ≠ haloConcentration c :=
  ⟨⟨0, [("a", 1)], 1, [], none, [], some 2, []⟩, rfl, by
    unfold tracerConcentration haloConcentration
    intro h
    simp only [Comp.conc.injEq] at h
    exact absurd h.1 (by decide)⟩

end

/-! ## matter statistics do not depend on the tracer -/

/-- C48: the one- and two-halo matter spectra and correlations of a model do not change when the HOD or any
tracer profile array changes. -/
theorem C48_matter_independent_of_tracer (E : Env) (h h' : HM)
    (hh : h' = { h with hod := h'.hod, ut := h'.ut, rhoT := h'.rhoT, lamT := h'.lamT }) :
    h'.power1hMatter E = h.power1hMatter E ∧ h'.power2hMatter E = h.power2hMatter E ∧
    h'.powerMatter E = h.powerMatter E ∧ h'.corr1hMatter E = h.corr1hMatter E ∧
    h'.corr2hMatter E = h.corr2hMatter E ∧ h'.corrMatter E = h.corrMatter E ∧
    h'.biasEffMatter E = h.biasEffMatter E := by
  generalize h'.hod = a at hh
  generalize h'.ut = b at hh
  generalize h'.rhoT = c at hh
  generalize h'.lamT = d at hh
  subst hh
  exact ⟨rfl, rfl, rfl, rfl, rfl, rfl, rfl⟩

/-! ## C49 -/

/-- C49: the tracer mask keeps exactly the grid masses at or above the HOD's minimum mass, in order; all of
them if the HOD has no minimum mass. -/
theorem C49_mask (nm : ℕ) (m : ℕ → ℝ) :
    (∀ x i, i ∈ tracerMask nm m (some x) ↔ i < nm ∧ (10:ℝ) ^ x ≤ m i) ∧
    tracerMask nm m none = List.range nm ∧
    ∀ o, (tracerMask nm m o).Sublist (List.range nm) := by
  classical
  refine ⟨fun x i => ?_, ?_, fun o => ?_⟩
  · unfold tracerMask
    simp only
    rw [List.mem_filter, List.mem_range, decide_eq_true_eq]
  · unfold tracerMask
    simp only
    rw [List.filter_eq_self]
    intro i hi
    rw [decide_eq_true_eq]
    have hne : (Finset.range nm).Nonempty := ⟨i, Finset.mem_range.mpr (List.mem_range.mp hi)⟩
    obtain ⟨k, hk, hmin⟩ := Finset.exists_min_image (Finset.range nm) m hne
    exact ⟨k, Finset.mem_range.mp hk, fun j hj => hmin j (Finset.mem_range.mpr hj),
      hmin i (Finset.mem_range.mpr (List.mem_range.mp hi))⟩
  · unfold tracerMask
    cases o <;> exact List.filter_sublist

/-- at least two kept masses, by positions. -/
theorem mask_two (nm : ℕ) (m : ℕ → ℝ) (x : ℝ) (hm : ∀ i j, i < j → j < nm → m i < m j) :
    1 < (tracerMask nm m (some x)).length ↔ 2 ≤ nm ∧ (10:ℝ) ^ x ≤ m (nm - 2) := by
  classical
  have hmem := (C49_mask nm m).1 x
  have hnd : (tracerMask nm m (some x)).Nodup := ((C49_mask nm m).2.2 _).nodup List.nodup_range
  have hmono : ∀ i j, i ≤ j → j < nm → m i ≤ m j := fun i j hij hj => by
    rcases hij.lt_or_eq with h | h
    · exact (hm i j h hj).le
    · rw [h]
  constructor
  · intro h
    obtain ⟨a, b, hab, ha, hb⟩ : ∃ a b, a ≠ b ∧ a ∈ tracerMask nm m (some x) ∧ b ∈ tracerMask nm m (some x) := by
      match hL : tracerMask nm m (some x), h with
      | a :: b :: t, _ =>
        rw [hL] at hnd
        refine ⟨a, b, ?_, by simp, by simp⟩
        rw [List.nodup_cons] at hnd
        intro hab; apply hnd.1; rw [hab]; simp
    rw [hmem] at ha hb
    have h2 : 2 ≤ nm := by omega
    refine ⟨h2, ?_⟩
    rcases lt_or_gt_of_ne hab with h' | h'
    · exact ha.2.trans (hmono a (nm - 2) (by omega) (by omega))
    · exact hb.2.trans (hmono b (nm - 2) (by omega) (by omega))
  · rintro ⟨h2, hx⟩
    have i1 : nm - 2 ∈ tracerMask nm m (some x) := (hmem _).mpr ⟨by omega, hx⟩
    have i2 : nm - 1 ∈ tracerMask nm m (some x) :=
      (hmem _).mpr ⟨by omega, hx.trans (hmono _ _ (by omega) (by omega))⟩
    by_contra hlen
    match hL : tracerMask nm m (some x) with
    | [] => rw [hL] at i1; simp at i1
    | [a] =>
      rw [hL] at i1 i2
      simp only [List.mem_singleton] at i1 i2
      omega
    | a :: b :: t => rw [hL] at hlen; simp at hlen

/-- C49: with scalar separations, a positive wavenumber step and an increasing mass grid, a model passes
validation iff the separation range is non-empty with at least one bin, the wavenumber range is non-empty,
and at least *two* grid masses are at or above the HOD's minimum mass. -/
theorem C49_validate (a b : ℝ) (rnum : ℕ) (kmin kmax dk : ℝ) (hdk : 0 < dk) (nm : ℕ) (m : ℕ → ℝ) (x : ℝ)
    (hm : ∀ i j, i < j → j < nm → m i < m j) :
    validateOk ⟨.scalar a b rnum, kmin, kmax, dk, nm, m, some x⟩ ↔
      a < b ∧ 0 < rnum ∧ kmin < kmax ∧ 2 ≤ nm ∧ (10:ℝ) ^ x ≤ m (nm - 2) := by
  unfold validateOk
  simp only [RSpec.len]
  rw [mask_two nm m x hm]
  constructor
  · rintro ⟨h1, h2, h3, -, h5⟩; exact ⟨h1, h2, h3, h5.1, h5.2⟩
  · rintro ⟨h1, h2, h3, h4, h5⟩
    refine ⟨h1, h2, h3, ?_, h4, h5⟩
    unfold arangeLen'
    exact Nat.ceil_pos.mpr (div_pos (by linarith) hdk)

/-- C49: a model that passes validation has a non-empty wavenumber grid that starts at the lower limit,
increases, and stays below the upper limit; a non-positive step never passes. -/
theorem C49_grids (v : VCfg) (hv : validateOk v) :
    0 < v.hmDlog10k ∧ 0 < arangeLen v.hmLogkMin v.hmLogkMax v.hmDlog10k ∧
    powGrid v.hmLogkMin v.hmDlog10k 0 = (10:ℝ) ^ v.hmLogkMin ∧
    (∀ i j, i < j → powGrid v.hmLogkMin v.hmDlog10k i < powGrid v.hmLogkMin v.hmDlog10k j) ∧
    ∀ i < arangeLen v.hmLogkMin v.hmLogkMax v.hmDlog10k,
      powGrid v.hmLogkMin v.hmDlog10k i < (10:ℝ) ^ v.hmLogkMax := by
  obtain ⟨-, -, h3, h4, -⟩ := hv
  have hd : 0 < v.hmDlog10k := by
    by_contra hneg
    unfold arangeLen' at h4
    have : (v.hmLogkMax - v.hmLogkMin) / v.hmDlog10k ≤ 0 :=
      div_nonpos_of_nonneg_of_nonpos (by linarith) (not_lt.mp hneg)
    rw [Nat.ceil_eq_zero.mpr this] at h4
    exact absurd h4 (lt_irrefl _)
  refine ⟨hd, h4, ?_, ?_, ?_⟩
  · unfold powGrid; simp
  · intro i j hij
    unfold powGrid
    apply Real.rpow_lt_rpow_of_exponent_lt (by norm_num)
    have : (i:ℝ) < j := by exact_mod_cast hij
    nlinarith
  · intro i hi
    unfold powGrid
    apply Real.rpow_lt_rpow_of_exponent_lt (by norm_num)
    unfold arangeLen at hi
    have := Nat.lt_ceil.mp hi
    rw [lt_div_iff₀ hd] at this
    linarith

/-- C49 finding: neither the sign of scalar separations nor the order or sign of an array of separations is
checked. -/
theorem C49_separations_unchecked (v : VCfg) (hv : validateOk v) (a b : ℝ) (n : ℕ) (r : List ℝ) :
    (a < b → 0 < n → validateOk { v with r := .scalar a b n }) ∧ (r ≠ [] → validateOk { v with r := .array r }) := by
  obtain ⟨h1, h2, h3, h4, h5⟩ := hv
  exact ⟨fun hab hn => ⟨hab, hn, h3, h4, h5⟩, fun hr => ⟨trivial, List.length_pos_iff.mpr hr, h3, h4, h5⟩⟩

/-- a valid configuration: three masses, a minimum mass below the second one; raising it above the second
one is rejected although one mass remains. -/
example : validateOk ⟨.scalar 0.01 50 10, -2, 1.5, 0.05, 3, fun i => 10 ^ ((11:ℝ) + i), some 11.5⟩ ∧
    ¬ validateOk ⟨.scalar 0.01 50 10, -2, 1.5, 0.05, 3, fun i => 10 ^ ((11:ℝ) + i), some 12.5⟩ := by
  have hm : ∀ i j : ℕ, i < j → j < 3 → (10:ℝ) ^ ((11:ℝ) + i) < 10 ^ ((11:ℝ) + j) := fun i j hij _ => by
    apply Real.rpow_lt_rpow_of_exponent_lt (by norm_num)
    have : (i:ℝ) < j := by exact_mod_cast hij
    linarith
  constructor
  · rw [C49_validate _ _ _ _ _ _ (by norm_num) _ _ _ hm]
    refine ⟨by norm_num, by norm_num, by norm_num, by norm_num, ?_⟩
    apply Real.rpow_le_rpow_of_exponent_le <;> norm_num
  · rw [C49_validate _ _ _ _ _ _ (by norm_num) _ _ _ hm]
    rintro ⟨-, -, -, -, h⟩
    rw [Real.rpow_le_rpow_left_iff (by norm_num)] at h
    norm_num at h

end Halomod.Components
