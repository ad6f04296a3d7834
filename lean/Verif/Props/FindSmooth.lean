import Verif.Model.FindSmooth
import Verif.Props.Components
import Verif.Props.Hod

/-! # C50: matching a density with an HOD without a sharp cut -/
namespace Halomod.HaloState

open Halomod.HOD Halomod.Components

noncomputable section

/-- what scipy documents of Nelder-Mead: it evaluates the starting point first, and returns a point it has
evaluated whose value is the least of all evaluated ones. -/
structure OptOk (opt : Optimizer) : Prop where
  start : ∀ f x0, (opt f x0).1.head? = some x0
  mem : ∀ f x0, (opt f x0).2 ∈ (opt f x0).1
  best : ∀ f x0, ∀ x ∈ (opt f x0).1, f (opt f x0).2 ≤ f x

/-- the optimiser that evaluates only the starting point. -/
theorem optOk_trivial : OptOk fun _ x0 => ([x0], x0) :=
  ⟨fun _ _ => rfl, fun _ _ => by simp, fun f x0 x hx => by simp at hx; rw [hx]⟩

/-- C50: a density above the one with `M_min` at the bottom of the mass range raises the dedicated exception,
and only such a density does. -/
theorem C50_density_too_high (opt : Optimizer) (c : Clone) (Mmin ng : ℝ) (hv : c.valid Mmin) :
    findSmooth opt c Mmin ng = .ngException ↔ c.density Mmin < ng := by
  classical
  unfold findSmooth
  rw [if_neg (not_not.mpr hv)]
  split
  · simpa
  · dsimp only; split <;> simp [*]

/-- C50: a returned minimum mass was tried, leaves at least two masses, and gives a density no further from
the requested one than any other tried value — in particular than the starting value 12. -/
theorem C50_result (opt : Optimizer) (ho : OptOk opt) (c : Clone) (Mmin ng x : ℝ)
    (h : findSmooth opt c Mmin ng = .ok x) :
    c.valid x ∧ c.valid 12 ∧ ng ≤ c.density Mmin ∧ |c.density x - ng| ≤ |c.density 12 - ng| ∧
    ∀ y ∈ (opt (fun x => |c.density x - ng|) 12).1, |c.density x - ng| ≤ |c.density y - ng| := by
  classical
  have e : (12.0:ℝ) = 12 := by norm_num
  unfold findSmooth at h
  rw [e] at h
  split at h
  · simp at h
  · split at h
    · simp at h
    · rename_i h1 h2
      dsimp only at h
      split at h
      · rename_i h3
        simp only [SmoothRes.ok.injEq] at h
        subst h
        have hs : (12:ℝ) ∈ (opt (fun x => |c.density x - ng|) 12).1 := List.mem_of_mem_head? (by rw [ho.start]; rfl)
        exact ⟨h3 _ (ho.mem _ _), h3 _ hs, not_lt.mp h2, ho.best _ _ _ hs, fun y hy => ho.best _ _ y hy⟩
      · simp at h

/-- C50: if the optimiser comes within `eps` of the best possible match and some minimum mass gives exactly
the requested density, the density at the returned minimum mass is within `eps` of the requested one. -/
theorem C50_accuracy (opt : Optimizer) (c : Clone) (Mmin ng x eps : ℝ)
    (hopt : ∀ y, |c.density (opt (fun x => |c.density x - ng|) 12).2 - ng| ≤ |c.density y - ng| + eps) (hex : ∃ y, c.density y = ng)
    (h : findSmooth opt c Mmin ng = .ok x) : |c.density x - ng| ≤ eps := by
  classical
  have e : (12.0:ℝ) = 12 := by norm_num
  unfold findSmooth at h
  rw [e] at h
  split at h
  · simp at h
  · split at h
    · simp at h
    · dsimp only at h
      split at h
      · simp only [SmoothRes.ok.injEq] at h
        obtain ⟨y, hy⟩ := hex
        have := hopt y
        rw [hy, sub_self, abs_zero, zero_add, h] at this
        exact this
      · simp at h

/-- C50 finding: the solver always tries `M_min = 12` first; if that leaves fewer than two grid masses (a mass
range ending near `10**12`) it raises for every attainable density. -/
theorem C50_start_must_be_valid (opt : Optimizer) (ho : OptOk opt) (c : Clone) (Mmin ng : ℝ)
    (hv : ¬ c.valid 12) (hd : ng ≤ c.density Mmin) : findSmooth opt c Mmin ng = .assertionError := by
  classical
  have e : (12.0:ℝ) = 12 := by norm_num
  unfold findSmooth
  rw [e]
  split
  · rfl
  · rw [if_neg (not_lt.mpr hd)]
    dsimp only
    rw [if_neg]
    intro hall
    exact hv (hall 12 (List.mem_of_mem_head? (by rw [ho.start]; rfl)))

/-- C50 finding: whether the minimisation converged is never checked.  An optimiser that stops at once (the
iteration limit) makes the solver return 12 for *every* attainable density, however far off. -/
theorem C50_convergence_unchecked (c : Clone) (Mmin : ℝ) (h1 : c.valid Mmin) (h2 : c.valid 12) :
    ∃ opt, OptOk opt ∧ ∀ ng ≤ c.density Mmin, findSmooth opt c Mmin ng = .ok 12 := by
  classical
  refine ⟨_, optOk_trivial, fun ng hng => ?_⟩
  have e : (12.0:ℝ) = 12 := by norm_num
  unfold findSmooth
  rw [e, if_neg (not_not.mpr h1), if_neg (not_lt.mpr hng)]
  simp [h2]

/-- C50: for `Zheng05` the masses the solver leaves out (below its `mmin`, five widths below `M_min`) have a
central occupation below `(1 - erf 5)/2`. -/
theorem C50_zheng_dropped_negligible (p : ZhengP) (hs : 0 < p.sig_logm) (b : Bool) (nm : ℕ) (m : ℕ → ℝ) (i : ℕ)
    (hi : i < nm) (hm : 0 < m i) (hout : i ∉ tracerMask nm m (some (zheng05 p b).mmin)) :
    (zheng05 p b).cenOcc (m i) < (1 - erf 5) / 2 := by
  rw [(C49_mask nm m).1] at hout
  have hlt : m i < 10 ^ (p.M_min - 5 * p.sig_logm) := by
    by_contra hge
    exact hout ⟨hi, not_lt.mp hge⟩
  have hlog : log10 (m i) < p.M_min - 5 * p.sig_logm := by
    have := Real.logb_lt_logb (b := 10) (by norm_num) hm hlt
    rwa [Real.logb_rpow (by norm_num) (by norm_num)] at this
  change 0.5 * (1 + erf ((log10 (m i) - p.M_min) / p.sig_logm)) < _
  have harg : (log10 (m i) - p.M_min) / p.sig_logm < -5 := by
    rw [div_lt_iff₀ hs]; linarith
  have := erf_strictMono harg
  rw [erf_neg] at this
  norm_num
  linarith

/-- C50 finding: for `Contreras13` every grid mass below `M_min` is left out of the matched density although
haloes there host galaxies. -/
theorem C50_contreras_dropped (p : ContrerasP) (hf : 0 < p.fca) (hf1 : p.fca ≤ 1) (hb : 0 ≤ p.fcb) (b : Bool)
    (nm : ℕ) (m : ℕ → ℝ) (i : ℕ) (_hi : i < nm) (hlow : m i < 10 ^ p.M_min) :
    i ∉ tracerMask nm m (some (contreras13 p b).mmin) ∧ 0 < (contreras13 p b).cenOcc (m i) := by
  constructor
  · rw [(C49_mask nm m).1]
    rintro ⟨-, h⟩
    exact absurd h (not_le.mpr hlow)
  · change 0 < contrerasCen p (m i)
    unfold contrerasCen
    have h1 : 0 < 1 + erf (log10 (m i / 10 ^ p.M_min) / p.x / p.sig_logm) := by
      have := erf_lt_one (-(log10 (m i / 10 ^ p.M_min) / p.x / p.sig_logm))
      rw [erf_neg] at this
      linarith
    have h2 : 0 ≤ p.fcb * (1 - p.fca) := mul_nonneg hb (by linarith)
    have := mul_pos hf h1
    have := mul_nonneg h2 (Real.exp_pos (-(log10 (m i / 10 ^ p.M_min) ^ 2) / (2 * (p.x * p.sig_logm) ^ 2))).le
    linarith

/-- the hypotheses are met by the default parameters and a three-point grid `10^10, 10^11, 10^12`, on which
`M_min = 12` leaves two masses for `Zheng05` (its `mmin` is 10.7) but only one for `Contreras13`. -/
example : (⟨3, fun i => 10 ^ ((10:ℝ) + i), fun _ => 1, fun x => zheng05 { M_min := x } true⟩ : Clone).valid 12 ∧
    ¬ (⟨3, fun i => 10 ^ ((10:ℝ) + i), fun _ => 1, fun x => contreras13 { M_min := x } true⟩ : Clone).valid 12 := by
  have hm : ∀ i j : ℕ, i < j → j < 3 → (10:ℝ) ^ ((10:ℝ) + i) < 10 ^ ((10:ℝ) + j) := fun i j hij _ => by
    apply Real.rpow_lt_rpow_of_exponent_lt (by norm_num)
    have : (i:ℝ) < j := by exact_mod_cast hij
    linarith
  constructor
  · change 1 < (tracerMask 3 _ (some _)).length
    rw [mask_two _ _ _ hm]
    refine ⟨by norm_num, ?_⟩
    change (10:ℝ) ^ ((12:ℝ) - 5 * 0.26) ≤ _
    apply Real.rpow_le_rpow_of_exponent_le <;> norm_num
  · change ¬ 1 < (tracerMask 3 _ (some _)).length
    rw [mask_two _ _ _ hm]
    rintro ⟨-, h⟩
    change (10:ℝ) ^ (12:ℝ) ≤ 10 ^ ((10:ℝ) + ((3 - 2 : ℕ) : ℝ)) at h
    rw [Real.rpow_le_rpow_left_iff (by norm_num)] at h
    norm_num at h

end
end Halomod.HaloState
