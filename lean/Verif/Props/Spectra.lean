import Verif.Model.Spectra
import Verif.Props.HaloModel4

/-! # C47: power functions and the choice of the halo-centre spectrum -/
namespace Halomod.HaloModel

open Finset Halomod.Tools

noncomputable section

variable {E : Env}

/-- an extended spline with a matched callable below the data, with a domain it fits in. -/
theorem mkES_lower (hs : SplOk E.isp) (a : ESArgs) (f : ℝ → ℝ) (hn : 0 < a.n)
    (hd : a.domLo ≤ (a.x 0 : EReal)) (hu : (a.x (a.n - 1) : EReal) ≤ a.domHi)
    (hx : Grid a.n a.x) (hl : a.lower = .callable f) (hup : a.upper ≠ .invalid) :
    ∃ g, mkES E a = some g ∧ (∀ j < a.n, g (a.x j) = a.y j) ∧
      (∀ t, a.x 0 ≤ t → t ≤ a.x (a.n - 1) → g t = E.isp a.n a.x a.y t) ∧
      (∀ t < a.x 0, g t = if a.matchLower = true ∧ f (a.x 0) ≠ 0 then f t * (a.y 0 / f (a.x 0)) else f t) ∧
      (∀ F, a.upper = .callable F → (∀ t, F t = 0) → ∀ t, a.x (a.n - 1) < t → g t = 0) := by
  obtain ⟨lf, hlf⟩ := extFunc_some E.us (E.isp a.n a.x a.y) a.lower (min a.nLow a.n) a.x a.y a.matchLower
    (a.x 0) (fun i hi => hx.pos i (lt_of_lt_of_le hi (min_le_right _ _))) (by rw [hl]; simp)
  obtain ⟨uf, huf⟩ := extFunc_some E.us (E.isp a.n a.x a.y) a.upper (min a.nUp a.n)
    (fun i => a.x (a.n - min a.nUp a.n + i)) (fun i => a.y (a.n - min a.nUp a.n + i)) a.matchUpper
    (a.x (a.n - 1)) (fun i hi => hx.pos _ (by have := min_le_right a.nUp a.n; omega)) hup
  have he : esInit E.isp E.us a = some
      { xmin := a.x 0, xmax := a.x (a.n - 1), spl := E.isp a.n a.x a.y, lfunc := lf, ufunc := uf } := by
    unfold esInit
    rw [if_neg (by rw [not_or, not_lt, not_lt]; exact ⟨hd, hu⟩)]
    simp only [hlf, huf]
  have hb := C12_branches E.isp E.us hs a _ he hx.inc
  have i0 := hs.interp a.n a.x a.y hx.inc 0 hn
  refine ⟨_, by unfold mkES; rw [he]; rfl, hb.1, hb.2.1, ?_, ?_⟩
  · intro t ht
    rw [hb.2.2.1 t ht]
    rw [hl] at hlf
    simp only [extFunc] at hlf
    by_cases hm : a.matchLower = true
    · rw [if_neg (by simpa using hm)] at hlf
      by_cases h0 : f (a.x 0) = 0
      · rw [if_pos h0] at hlf
        rw [if_neg (by tauto)]
        simp only [Option.some.injEq] at hlf
        rw [← hlf]
      · rw [if_neg h0] at hlf
        rw [if_pos ⟨hm, h0⟩]
        simp only [Option.some.injEq] at hlf
        rw [← hlf, i0]
    · rw [if_pos hm] at hlf
      rw [if_neg (by tauto)]
      simp only [Option.some.injEq] at hlf
      rw [← hlf]
  · intro F hF hF0 t ht
    have hge : a.x 0 ≤ t := (hx.mono (Nat.zero_le _) (by omega)).trans ht.le
    rw [hb.2.2.2 t hge ht]
    rw [hF] at huf
    simp only [extFunc] at huf
    split_ifs at huf <;> simp only [Option.some.injEq] at huf <;> rw [← huf] <;> simp [hF0]

/-- C47: the (linear or nonlinear) power function exists for every positive increasing wavenumber grid, takes
the tabulated values on the grid, and below the grid is exactly the primordial power law `k**n` scaled to
the first sample — in particular it approaches the first sample continuously from below. -/
theorem C47_power_function (hs : SplOk E.isp) (s : Spectra) (P : ℕ → ℝ) (hk : Grid s.nk s.k) (hn : 0 < s.nk) :
    ∃ f, s.powFnc E P = some f ∧ (∀ j < s.nk, f (s.k j) = P j) ∧
      (∀ k, 0 < k → k < s.k 0 → f k = P 0 * (k / s.k 0) ^ s.ns) ∧
      (∀ l k, 0 < l → 0 < k → k < s.k 0 → l * k < s.k 0 → f (l * k) = l ^ s.ns * f k) ∧
      Filter.Tendsto f (nhdsWithin (s.k 0) (Set.Iio (s.k 0))) (nhds (P 0)) := by
  have hk0 := hk.pos 0 hn
  obtain ⟨f, hf, h1, h2, h3, -⟩ := mkES_lower (E := E) hs { n := s.nk, x := s.k, y := P, lower := .callable (powerLawK s.ns), upper := .powerLaw, domLo := 0, domHi := ⊤ }
    (powerLawK s.ns) hn (EReal.coe_nonneg.mpr hk0.le) le_top hk rfl (by simp)
  have hlow : ∀ k, 0 < k → k < s.k 0 → f k = P 0 * (k / s.k 0) ^ s.ns := by
    intro k hk' hlt
    have hne : s.k 0 ^ s.ns ≠ 0 := (Real.rpow_pos_of_pos hk0 _).ne'
    rw [h3 k hlt, if_pos ⟨rfl, hne⟩, Real.div_rpow hk'.le hk0.le]
    unfold powerLawK
    dsimp only
    field_simp
  refine ⟨f, hf, h1, hlow, ?_, ?_⟩
  · intro l k hl hk' hlt hlt'
    rw [hlow _ (mul_pos hl hk') hlt', hlow _ hk' hlt, mul_div_assoc,
      Real.mul_rpow hl.le (div_nonneg hk'.le hk0.le)]
    ring
  · have hc : Filter.Tendsto (fun k => P 0 * (k / s.k 0) ^ s.ns) (nhdsWithin (s.k 0) (Set.Iio (s.k 0)))
        (nhds (P 0)) := by
      have : ContinuousAt (fun k => P 0 * (k / s.k 0) ^ s.ns) (s.k 0) := by
        apply ContinuousAt.mul continuousAt_const
        apply ContinuousAt.rpow_const
        · fun_prop
        · left; rw [div_self hk0.ne']; exact one_ne_zero
      have h' := this.tendsto
      simp only [div_self hk0.ne', Real.one_rpow, mul_one] at h'
      exact h'.mono_left nhdsWithin_le_nhds
    refine hc.congr' ?_
    have : Set.Ioo 0 (s.k 0) ∈ nhdsWithin (s.k 0) (Set.Iio (s.k 0)) := Ioo_mem_nhdsLT hk0
    filter_upwards [this] with k hk'
    exact (hlow k hk'.1 hk'.2).symm

/-- C47: for a positive spectral index the power function vanishes on ever larger scales. -/
theorem C47_vanishes_at_large_scales (hs : SplOk E.isp) (s : Spectra) (P : ℕ → ℝ) (hk : Grid s.nk s.k)
    (hn : 0 < s.nk) (hns : 0 < s.ns) :
    ∃ f, s.powFnc E P = some f ∧ Filter.Tendsto f (nhdsWithin 0 (Set.Ioi 0)) (nhds 0) := by
  have hk0 := hk.pos 0 hn
  obtain ⟨f, hf, -, h2, -, -⟩ := C47_power_function (E := E) hs s P hk hn
  refine ⟨f, hf, ?_⟩
  have hc : Filter.Tendsto (fun k => P 0 * (k / s.k 0) ^ s.ns) (nhdsWithin 0 (Set.Ioi 0)) (nhds 0) := by
    have : ContinuousAt (fun k => P 0 * (k / s.k 0) ^ s.ns) 0 := by
      apply ContinuousAt.mul continuousAt_const
      apply ContinuousAt.rpow_const
      · fun_prop
      · right; exact hns.le
    have h' := this.tendsto
    simp only [zero_div, Real.zero_rpow hns.ne', mul_zero] at h'
    exact h'.mono_left nhdsWithin_le_nhds
  refine hc.congr' ?_
  have : Set.Ioo 0 (s.k 0) ∈ nhdsWithin (0:ℝ) (Set.Ioi 0) := Ioo_mem_nhdsGT hk0
  filter_upwards [this] with k hk'
  exact (h2 k hk'.1 hk'.2).symm

/-- C47: the four documented values of `hc_spectrum` are accepted, nothing else is, and each accepted value
selects its spectrum; `linear`/`nonlinear` never raise on a proper grid. -/
theorem C47_choice (hs : SplOk E.isp) (s : Spectra) (W : Window) (hk : Grid s.nk s.k) (hn : 0 < s.nk)
    (v : String) :
    (hcAccepts v = true ↔ v = "linear" ∨ v = "nonlinear" ∨ v = "filtered-lin" ∨ v = "filtered-nl") ∧
    (hcAccepts v = false → s.hcFnc E W v = none) ∧
    s.hcFnc E W "linear" = s.powFnc E s.power ∧ (s.hcFnc E W "linear").isSome ∧
    s.hcFnc E W "nonlinear" = s.powFnc E s.nlPower ∧ (s.hcFnc E W "nonlinear").isSome := by
  have hA : hcAccepts v = true ↔ v = "linear" ∨ v = "nonlinear" ∨ v = "filtered-lin" ∨ v = "filtered-nl" := by
    unfold hcAccepts; simp
  have h1 : s.hcFnc E W "linear" = s.powFnc E s.power := by
    unfold Spectra.hcFnc
    rw [if_neg (by decide), if_neg (by decide), if_pos rfl]
  have h2 : s.hcFnc E W "nonlinear" = s.powFnc E s.nlPower := by
    unfold Spectra.hcFnc
    rw [if_neg (by decide), if_neg (by decide), if_neg (by decide), if_pos rfl]
  refine ⟨hA, ?_, h1, ?_, h2, ?_⟩
  · intro hf
    have : ¬ (v = "linear" ∨ v = "nonlinear" ∨ v = "filtered-lin" ∨ v = "filtered-nl") := by
      rw [← hA, hf]; simp
    unfold Spectra.hcFnc
    rw [if_neg (by tauto), if_neg (by tauto), if_neg (by tauto), if_neg (by tauto)]
  · rw [h1]; obtain ⟨f, hf, -⟩ := C47_power_function (E := E) hs s s.power hk hn; rw [hf]; rfl
  · rw [h2]; obtain ⟨f, hf, -⟩ := C47_power_function (E := E) hs s s.nlPower hk hn; rw [hf]; rfl

/-- the general shape of the filtered spectra. -/
theorem filtered_shape (hs : SplOk E.isp) (s : Spectra) (W : Window) (R : ℝ) (P : ℕ → ℝ) (hk : Grid s.nk s.k)
    (hn : 0 < s.nk) (hex : ∃ j < s.nk, P j * W (s.k j * R) ≤ 0) :
    ∃ f low z, s.filteredFnc E W R P = some f ∧ s.powFnc E P = some low ∧ z < s.nk ∧
      (P z * W (s.k z * R) ≤ 0) ∧
      (∀ j < z, f (s.k j) = P j * W (s.k j * R) ∧ 0 < f (s.k j)) ∧
      (∀ j, z ≤ j → j < s.nk → f (s.k j) = 0) ∧
      (∀ k, s.k (s.nk - 1) < k → f k = 0) ∧ ∀ k < s.k 0, f k = low k := by
  obtain ⟨low, hlow, -⟩ := C47_power_function (E := E) hs s P hk hn
  have hC := C45_filtered W R s.nk s.k P
  obtain ⟨p, hp⟩ := Option.ne_none_iff_exists'.mp (show filteredTab W R s.nk s.k P ≠ none by
    rw [Ne, hC.1]
    obtain ⟨j, hj, hle⟩ := hex
    exact fun h => not_lt.mpr hle (h j hj))
  obtain ⟨z, hz, hz', a1, a2⟩ := hC.2 p hp
  obtain ⟨f, hf, h1, -, h3, h4⟩ := mkES_lower (E := E) hs { n := s.nk, x := s.k, y := p, lower := .callable low, matchLower := false, upper := .callable fun _ => 0 }
    low hn bot_le le_top hk rfl (by simp)
  refine ⟨f, low, z, ?_, hlow, hz, hz', ?_, ?_, ?_, ?_⟩
  · unfold Spectra.filteredFnc
    rw [hp, hlow]
    exact hf
  · intro j hj
    rw [h1 j (hj.trans hz)]
    exact a1 j hj
  · intro j hj hj'
    rw [h1 j hj']
    exact a2 j hj
  · exact h4 _ rfl fun _ => rfl
  · intro k hk'
    rw [h3 k hk', if_neg (by simp)]

/-- C47: `filtered-lin` is the linear power times the top-hat window of radius 2 up to the first sample where
that product is not positive, zero from there on (no haloes overlap), and the unfiltered linear power
below the grid. -/
theorem C47_filtered_lin (hs : SplOk E.isp) (s : Spectra) (W : Window) (hk : Grid s.nk s.k)
    (hn : 0 < s.nk) (hex : ∃ j < s.nk, s.power j * W (s.k j * 2) ≤ 0) :
    ∃ f low z, s.hcFnc E W "filtered-lin" = some f ∧ s.powFnc E s.power = some low ∧ z < s.nk ∧
      (s.power z * W (s.k z * 2) ≤ 0) ∧
      (∀ j < z, f (s.k j) = s.power j * W (s.k j * 2) ∧ 0 < f (s.k j)) ∧
      (∀ j, z ≤ j → j < s.nk → f (s.k j) = 0) ∧
      (∀ k, s.k (s.nk - 1) < k → f k = 0) ∧ ∀ k < s.k 0, f k = low k := by
  have e : s.hcFnc E W "filtered-lin" = s.filteredFnc E W 2 s.power := by
    unfold Spectra.hcFnc; rw [if_pos rfl]; norm_num
  rw [e]
  exact filtered_shape hs s W 2 s.power hk hn hex

/-- C47 finding: `filtered-nl` filters the nonlinear power with radius 3, not with the documented 2 Mpc/h. -/
theorem C47_filtered_nl_radius_three (hs : SplOk E.isp) (s : Spectra) (W : Window) (hk : Grid s.nk s.k)
    (hn : 0 < s.nk) (hex : ∃ j < s.nk, s.nlPower j * W (s.k j * 3) ≤ 0) :
    ∃ f low z, s.hcFnc E W "filtered-nl" = some f ∧ s.powFnc E s.nlPower = some low ∧ z < s.nk ∧
      (s.nlPower z * W (s.k z * 3) ≤ 0) ∧
      (∀ j < z, f (s.k j) = s.nlPower j * W (s.k j * 3) ∧ 0 < f (s.k j)) ∧
      (∀ j, z ≤ j → j < s.nk → f (s.k j) = 0) ∧
      (∀ k, s.k (s.nk - 1) < k → f k = 0) ∧ ∀ k < s.k 0, f k = low k := by
  have e : s.hcFnc E W "filtered-nl" = s.filteredFnc E W 3 s.nlPower := by
    unfold Spectra.hcFnc; rw [if_neg (by decide), if_pos rfl]; norm_num
  rw [e]
  exact filtered_shape hs s W 3 s.nlPower hk hn hex

/-- C47: a filtered spectrum joins its low-wavenumber extension iff the window is unity at the first
sample: from below it tends to the unfiltered first sample, at the first sample it is the filtered one. -/
theorem C47_filtered_join (hs : SplOk E.isp) (s : Spectra) (W : Window) (hk : Grid s.nk s.k)
    (hn : 0 < s.nk) (hex : ∃ j < s.nk, s.power j * W (s.k j * 2) ≤ 0)
    (h0 : 0 < s.power 0 * W (s.k 0 * 2)) :
    ∃ f, s.hcFnc E W "filtered-lin" = some f ∧
      Filter.Tendsto f (nhdsWithin (s.k 0) (Set.Iio (s.k 0))) (nhds (s.power 0)) ∧
      f (s.k 0) = s.power 0 * W (s.k 0 * 2) ∧ (f (s.k 0) = s.power 0 ↔ W (s.k 0 * 2) = 1) := by
  obtain ⟨f, low, z, e1, e2, hz, hz', a1, a2, a3, a4⟩ := C47_filtered_lin hs s W hk hn hex
  obtain ⟨low', e2', -, -, -, b⟩ := C47_power_function (E := E) hs s s.power hk hn
  rw [e2] at e2'
  simp only [Option.some.injEq] at e2'
  subst e2'
  have hz0 : 0 < z := by
    rcases Nat.eq_zero_or_pos z with h | h
    · subst h; exact absurd h0 (not_lt.mpr hz')
    · exact h
  have hv := (a1 0 hz0).1
  refine ⟨f, e1, ?_, hv, ?_⟩
  · refine b.congr' ?_
    filter_upwards [self_mem_nhdsWithin] with k hk'
    exact (a4 k hk').symm
  · have hP : s.power 0 ≠ 0 := fun h => by rw [h] at h0; simp at h0
    rw [hv]
    exact mul_eq_left₀ hP

/-- C47 finding: `_corr_mm_base_fnc` has no branch for `filtered-lin`: the attribute is `None`. -/
theorem C47_corr_base (s : Spectra) (nr : ℕ) (rt : ℕ → ℝ) :
    corrBase E s nr rt "linear" = some (corrMMFnc E nr rt (s.powFnc E s.power)) ∧
    corrBase E s nr rt "nonlinear" = some (corrMMFnc E nr rt (s.powFnc E s.nlPower)) ∧
    corrBase E s nr rt "filtered-nl" = some (corrMMFnc E nr rt (s.powFnc E s.nlPower)) ∧
    corrBase E s nr rt "filtered-lin" = none := by
  unfold corrBase
  refine ⟨if_pos rfl, ?_, ?_, ?_⟩
  · rw [if_neg (by decide), if_pos (Or.inl rfl)]
  · rw [if_neg (by decide), if_pos (Or.inr rfl)]
  · rw [if_neg (by decide), if_neg (by decide)]

/-- C47: the matter correlation functions are the transform of the power function at the tabulated
separations, and zero beyond them. -/
theorem C47_correlations (hs : SplOk E.isp) (s : Spectra) (P : ℕ → ℝ) (hk : Grid s.nk s.k) (hn : 0 < s.nk)
    (nr : ℕ) (rt : ℕ → ℝ) (hr : Grid nr rt) (hnr : 0 < nr) :
    ∃ p f, s.powFnc E P = some p ∧ corrMMFnc E nr rt (s.powFnc E P) = some f ∧
      (∀ i < nr, f (rt i) = E.hankel p (rt i)) ∧ ∀ r, rt (nr - 1) < r → f r = 0 := by
  obtain ⟨p, hp, -⟩ := C47_power_function (E := E) hs s P hk hn
  set a : ESArgs := { n := nr, x := rt, y := fun i => E.hankel p (rt i), lower := .powerLaw, upper := .callable fun _ => 0 } with ha
  obtain ⟨f, hf, h1, -⟩ := mkES_ok E hs a rfl rfl hr (by simp [ha]) (by simp [ha])
  refine ⟨p, f, hp, by unfold corrMMFnc; rw [hp]; exact hf, h1, ?_⟩
  intro r hr'
  unfold mkES at hf
  rw [Option.map_eq_some_iff] at hf
  obtain ⟨e, he, rfl⟩ := hf
  have hb := C12_branches E.isp E.us hs a e he hr.inc
  rw [hb.2.2.2 r ((hr.mono (Nat.zero_le _) (by omega)).trans hr'.le) hr']
  obtain ⟨-, -, -, -, h5⟩ := esInit_some E.isp E.us a e he
  simp only [ha, extFunc] at h5
  split_ifs at h5 <;> simp only [Option.some.injEq] at h5 <;> rw [← h5]

/-- C47: on scales larger than the table (below the first wavenumber) the two-halo power of tracers and of
matter, without exclusion, is exactly proportional to the primordial power law: it is the first table
value times `(k/k0)**n`. -/
theorem C47_two_halo_low_k (hs : SplOk E.isp) (h : HM) (ho : h.Ok) (s : Spectra) (hnk : s.nk = h.nk)
    (hk : s.k = h.k) (hlin : s.powFnc E s.power = some h.linPow) (hP : s.power 0 ≠ 0)
    (e : ExclRes) (b : ℝ) (debias : Bool) (ir : ℕ) :
    ∃ f, h.power2hPrim E e b debias ir = some f ∧ ∀ k, 0 < k → k < h.k 0 →
      f k = h.power2hTab E e b debias ir 0 * (k / h.k 0) ^ s.ns := by
  have hn := ho.nk0
  have hg : Grid s.nk s.k := by rw [hnk, hk]; exact ho.k
  obtain ⟨low, e2, c1, c2, -, -⟩ := C47_power_function (E := E) hs s s.power hg (by omega)
  rw [hlin] at e2
  simp only [Option.some.injEq] at e2
  subst e2
  obtain ⟨f, hf, h1, -, h3, -⟩ := mkES_lower (E := E) hs { n := h.nk, x := h.k, y := h.power2hTab E e b debias ir, lower := .callable h.linPow, matchLower := true, upper := if e.isNone && !h.filtered then .powerLaw else .callable fun _ => 0 }
    h.linPow hn bot_le le_top ho.k rfl (by dsimp only; split <;> simp)
  refine ⟨f, hf, fun k hk0 hlt => ?_⟩
  have hl0 : h.linPow (h.k 0) = s.power 0 := by rw [← hk]; exact c1 0 (by omega)
  rw [h3 k hlt, if_pos ⟨rfl, by dsimp only; rw [hl0]; exact hP⟩]
  dsimp only
  rw [hl0, c2 k hk0 (by rw [hk]; exact hlt), hk]
  field_simp

/-- hypotheses are met: three wavenumbers, a window that turns negative, polynomial interpolation. -/
example : ∃ s : Spectra, Grid s.nk s.k ∧ 0 < s.nk ∧ 0 < s.ns ∧ (∃ j < s.nk, s.power j * (2 - s.k j * 2) ≤ 0) ∧
    0 < s.power 0 * (2 - s.k 0 * 2) := by
  refine ⟨⟨3, fun j => j + 1 / 2, fun _ => 1, fun _ => 2, 0.96⟩, ⟨fun i _ => by positivity, fun i j hij _ => ?_⟩,
    by norm_num, by norm_num, ⟨1, by norm_num, by norm_num⟩, by norm_num⟩
  have : (i:ℝ) < j := by exact_mod_cast hij
  simp only; linarith

end
end Halomod.HaloModel
