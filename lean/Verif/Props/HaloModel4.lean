import Verif.Props.HaloModel3

/-! # C45: grids and filtered spectra of the halo model -/
namespace Halomod.HaloModel

open Finset Halomod.Tools

theorem linspace_ends (a b : ℝ) {n : ℕ} (hn : 1 < n) : linspace a b n 0 = a ∧ linspace a b n (n - 1) = b := by
  unfold linspace
  constructor
  · rw [if_neg (by omega)]; simp
  · rw [if_pos ⟨hn, by omega⟩]

theorem linspace_eq (a b : ℝ) {n : ℕ} (hn : 1 < n) (i : ℕ) :
    linspace a b n i = a + i * ((b - a) / (n - 1)) := by
  unfold linspace
  split_ifs with h
  · have hi : (i:ℝ) = n - 1 := by rw [← h.2]; push_cast; ring
    have : (n:ℝ) - 1 ≠ 0 := by
      have : (1:ℝ) < n := by exact_mod_cast hn
      linarith
    rw [hi]; field_simp; ring
  · rfl

theorem linspace_lt (a b : ℝ) (hab : a < b) {n : ℕ} (hn : 1 < n) {i j : ℕ} (hij : i < j) :
    linspace a b n i < linspace a b n j := by
  rw [linspace_eq _ _ hn, linspace_eq _ _ hn]
  have h1 : (1:ℝ) < n := by exact_mod_cast hn
  have h2 : 0 < (b - a) / (n - 1) := div_pos (by linarith) (by linarith)
  have h3 : (i:ℝ) < j := by exact_mod_cast hij
  nlinarith

/-- C45: the separations `r` start at `rmin`, end at `rmax`, are strictly increasing and positive, equally
spaced in `r` or in `ln r` according to `rlog`. -/
theorem C45_separations (rlog : Bool) (rmin rmax : ℝ) (h0 : 0 < rmin) (h : rmin < rmax) {n : ℕ} (hn : 1 < n) :
    rGrid rlog rmin rmax n 0 = rmin ∧ rGrid rlog rmin rmax n (n - 1) = rmax ∧
    Grid n (rGrid rlog rmin rmax n) ∧
    (rlog = false → ∀ i, rGrid rlog rmin rmax n (i + 1) - rGrid rlog rmin rmax n i = (rmax - rmin) / (n - 1)) ∧
    (rlog = true → ∀ i, Real.log (rGrid rlog rmin rmax n (i + 1)) - Real.log (rGrid rlog rmin rmax n i)
      = Real.log (rmax / rmin) / (n - 1)) := by
  have hl : Real.log rmin < Real.log rmax := Real.log_lt_log h0 h
  cases rlog with
  | true =>
    unfold rGrid
    simp only [if_true]
    refine ⟨?_, ?_, ⟨fun i _ => Real.exp_pos _, fun i j hij _ => Real.exp_lt_exp.mpr
      (linspace_lt _ _ hl hn hij)⟩, fun hc => by simp at hc, fun _ i => ?_⟩
    · rw [(linspace_ends _ _ hn).1, Real.exp_log h0]
    · rw [(linspace_ends _ _ hn).2, Real.exp_log (h0.trans h)]
    · rw [Real.log_exp, Real.log_exp, linspace_eq _ _ hn, linspace_eq _ _ hn,
        Real.log_div (h0.trans h).ne' h0.ne']
      push_cast; ring
  | false =>
    unfold rGrid
    simp only [Bool.false_eq_true, if_false]
    refine ⟨(linspace_ends _ _ hn).1, (linspace_ends _ _ hn).2, ⟨fun i _ => ?_, fun i j hij _ =>
      linspace_lt _ _ h hn hij⟩, fun _ i => ?_, fun hc => by simp at hc⟩
    · rw [linspace_eq _ _ hn]
      have h1 : (1:ℝ) < n := by exact_mod_cast hn
      have h2 : 0 < (rmax - rmin) / (n - 1) := div_pos (by linarith) (by linarith)
      positivity
    · rw [linspace_eq _ _ hn, linspace_eq _ _ hn]; push_cast; ring

/-- C45 boundary case: a single separation is `rmin`, whatever `rmax`. -/
theorem C45_single (rlog : Bool) (rmin rmax : ℝ) (h0 : 0 < rmin) : rGrid rlog rmin rmax 1 0 = rmin := by
  cases rlog <;> simp [rGrid, linspace, Real.exp_log h0]

/-- C45: the grids `10 ** arange(lo, hi, step)` (wavenumbers `k_hm`, separation table) are positive and
increasing, start at `10**lo`, stay below `10**hi`, and the next point would not. -/
theorem C45_log_grid (lo hi d : ℝ) (hd : 0 < d) (h : lo < hi) :
    Grid (arangeLen lo hi d) (powGrid lo d) ∧ 0 < arangeLen lo hi d ∧ powGrid lo d 0 = 10 ^ lo ∧
    (∀ i < arangeLen lo hi d, powGrid lo d i < 10 ^ hi) ∧ 10 ^ hi ≤ powGrid lo d (arangeLen lo hi d) := by
  have hq : 0 < (hi - lo) / d := div_pos (by linarith) hd
  refine ⟨⟨fun i _ => by unfold powGrid; positivity, fun i j hij _ => ?_⟩, Nat.ceil_pos.mpr hq, ?_, ?_, ?_⟩
  · unfold powGrid
    apply Real.rpow_lt_rpow_of_exponent_lt (by norm_num)
    have : (i:ℝ) < j := by exact_mod_cast hij
    nlinarith
  · simp [powGrid]
  · intro i hi'
    have := Nat.lt_ceil.mp hi'
    rw [lt_div_iff₀ hd] at this
    unfold powGrid
    apply Real.rpow_lt_rpow_of_exponent_lt (by norm_num)
    linarith
  · have := Nat.le_ceil ((hi - lo) / d)
    rw [div_le_iff₀ hd] at this
    unfold powGrid
    apply Real.rpow_le_rpow_of_exponent_le (by norm_num)
    change hi ≤ lo + (⌈(hi - lo) / d⌉₊ : ℝ) * d
    linarith

/-- C45: a filtered spectrum is non-negative, equals the window times the power before the first sample
where that product is not positive, and is zero from there on; it cannot be built (exception) iff the
product is positive at every sample. -/
theorem C45_filtered (W : Window) (R : ℝ) (nk : ℕ) (k P : ℕ → ℝ) :
    (filteredTab W R nk k P = none ↔ ∀ j < nk, 0 < P j * W (k j * R)) ∧
    ∀ p, filteredTab W R nk k P = some p → ∃ z < nk, P z * W (k z * R) ≤ 0 ∧
      (∀ j < z, p j = P j * W (k j * R) ∧ 0 < p j) ∧ ∀ j, z ≤ j → p j = 0 := by
  classical
  unfold filteredTab
  dsimp only
  constructor
  · split
    · rename_i hex
      obtain ⟨j, hj, hle⟩ := hex
      simp only [reduceCtorEq, false_iff, not_forall]
      exact ⟨j, hj, not_lt.mpr hle⟩
    · rename_i hex
      push Not at hex
      simp only [true_iff]
      exact fun j hj => hex j hj
  · intro p hp
    split at hp
    · rename_i hex
      simp only [Option.some.injEq] at hp
      have hspec := Nat.find_spec hex
      refine ⟨Nat.find hex, hspec.1, hspec.2, fun j hj => ?_, fun j hj => ?_⟩
      · have hmin := Nat.find_min hex hj
        have hpj : p j = P j * W (k j * R) := by rw [← hp]; exact if_neg (not_le.mpr hj)
        refine ⟨hpj, ?_⟩
        rw [hpj]
        by_contra hc
        exact hmin ⟨hj.trans hspec.1, not_lt.mp hc⟩
      · rw [← hp]; exact if_pos hj
    · simp at hp

/-- C45 finding: a grid whose largest wavenumber times the filter scale is below the window's first zero
(window positive there) raises. -/
theorem C45_filtered_needs_large_k (W : Window) (R : ℝ) (nk : ℕ) (k P : ℕ → ℝ) (hP : ∀ j < nk, 0 < P j)
    (hW : ∀ j < nk, 0 < W (k j * R)) : filteredTab W R nk k P = none :=
  ((C45_filtered W R nk k P).1).mpr fun j hj => mul_pos (hP j hj) (hW j hj)

/-- a spectrum whose second sample is filtered to a negative value. -/
example : ∃ p, filteredTab (fun x => 2 - x) 2 3 (fun j => j + 1 / 2) (fun _ => 1) = some p ∧ p 0 = 1 ∧ p 1 = 0 ∧
    p 2 = 0 := by
  obtain ⟨p, hp⟩ := Option.ne_none_iff_exists'.mp (show filteredTab (fun x => 2 - x) 2 3
      (fun j => (j:ℝ) + 1 / 2) (fun _ => 1) ≠ none by
    rw [Ne, (C45_filtered _ _ _ _ _).1]
    intro h
    have := h 1 (by norm_num)
    norm_num at this)
  obtain ⟨z, hz, hz', h1, h2⟩ := (C45_filtered _ _ _ _ _).2 p hp
  have hz0 : z ≠ 0 := by rintro rfl; norm_num at hz'
  have hz1 : z = 1 := by
    by_contra hne
    have := (h1 1 (by omega)).2
    rw [(h1 1 (by omega)).1] at this
    norm_num at this
  subst hz1
  refine ⟨p, hp, ?_, h2 1 le_rfl, h2 2 (by norm_num)⟩
  rw [(h1 0 one_pos).1]; norm_num

end Halomod.HaloModel
