import Verif.Model.Params
import Verif.Spec.Documented
import Verif.Spec.Bias
import Mathlib.Tactic

/-!
# C63: documented formulas and default parameters
-/
namespace Halomod.Params

open Halomod.Documented (given Known)

/-- what `Component.__init__` does with documented keywords. -/
theorem init_ok {defaults kw : Dict} (h : Known kw (defaults.map Prod.fst)) :
    initParams defaults kw = .ok (defaults.map fun d => (d.1, given kw d.1 d.2)) := by
  unfold initParams
  rw [if_pos]
  · rfl
  · rw [List.all_eq_true]
    intro p hp
    obtain ⟨d, hd, he⟩ := List.mem_map.1 (h p hp)
    rw [← he]
    cases hl : List.lookup d.1 defaults with
    | some v => rfl
    | none =>
      rw [List.lookup_eq_none_iff] at hl
      have := hl d hd
      simp at this

/-- C63: a keyword that is not one of the model's parameters is refused, whatever the others are. -/
theorem C63_unknown_refused (cls : BiasCls) (kw : Dict) (i : BiasIn) (p : String × ℝ) (hp : p ∈ kw)
    (hn : p.1 ∉ (biasDefaults cls).map Prod.fst) : biasCall cls kw i = .error .valueError := by
  unfold biasCall initParams
  rw [if_neg]
  · rfl
  · intro h
    rw [List.all_eq_true] at h
    have := h p hp
    cases hl : List.lookup p.1 (biasDefaults cls) with
    | none => rw [hl] at this; simp at this
    | some v =>
      rw [List.lookup_eq_some_iff] at hl
      obtain ⟨l1, l2, h1, -⟩ := hl
      apply hn
      rw [h1]; simp

/-- C63: `Mo96` is the documented formula. -/
theorem C63_mo96 (i : BiasIn) : biasCall .mo96 [] i = .ok (Documented.mo96 i.delta_c i.nu) := by
  rfl

/-- C63: `Jing98` is the documented formula with the documented defaults when the symbol of its docstring stands for
the square root of the documented peak height. -/
theorem C63_jing98_partial (kw : Dict) (hk : Known kw ["a", "b", "c"]) (i : BiasIn) (hnu : 0 ≤ i.nu) :
    biasCall .jing98 kw i = .ok (Documented.jing98 (given kw "a" 0.5) (given kw "b" 0.06) (given kw "c" 0.02) i.n_eff
      i.delta_c (√i.nu)) := by
  have h4 : (√i.nu) ^ 4 = i.nu ^ 2 := by
    rw [show (4:ℕ) = 2 * 2 from rfl, pow_mul, Real.sq_sqrt hnu]
  unfold biasCall
  rw [init_ok (by simpa [biasDefaults] using hk)]
  simp [biasDefaults, biasOf, get, Documented.jing98, Bias.jing98, bind, Except.bind, List.lookup_cons, h4, Real.sq_sqrt hnu]

/-- C63 finding: the base class documents `nu` as the squared height `δc²/σ²`; with that meaning of the symbol the
`Jing98` docstring is not what is computed. -/
theorem C63_jing98_notation : ∃ i : BiasIn, 0 < i.nu ∧
    biasCall .jing98 [] i ≠ .ok (Documented.jing98 0.5 0.06 0.02 i.n_eff i.delta_c i.nu) := by
  refine ⟨⟨2, 1, 1, 1, 200, 1, 1, 1, 1, 3, 0⟩, by norm_num, ?_⟩
  unfold biasCall
  rw [init_ok (by simp [Known])]
  simp [biasDefaults, biasOf, get, Documented.jing98, Bias.jing98, bind, Except.bind, List.lookup_cons, given]
  norm_num

/-- C63: `ST99` is the documented formula with `q = 0.707`, `p = 0.3` unless the user passes others. -/
theorem C63_st99 (kw : Dict) (hk : Known kw ["q", "p"]) (i : BiasIn) (hnu : 0 ≤ i.nu) (hq : 0 ≤ given kw "q" 0.707) :
    biasCall .st99 kw i = .ok (Documented.st99 (given kw "q" 0.707) (given kw "p" 0.3) i.delta_c i.nu) := by
  unfold biasCall
  rw [init_ok (by simpa [biasDefaults] using hk)]
  simp [biasDefaults, biasOf, st99Of, get, Documented.st99, Bias.st99, bind, Except.bind, List.lookup_cons,
    Real.mul_rpow hq hnu, div_div]

/-- C63 finding: the docstring of `ST99` gives the two default values the other way round. -/
theorem C63_st99_defaults_swapped : ∃ i : BiasIn, 0 < i.nu ∧ 0 < i.delta_c ∧
    biasCall .st99 [] i ≠ .ok (Documented.st99 0.3 0.707 i.delta_c i.nu) := by
  refine ⟨⟨10 / 3, 1, 1, 1, 200, 1, 1, 1, 1, 3, 0⟩, by norm_num, by norm_num, ?_⟩
  rw [C63_st99 [] (by simp [Known]) _ (by norm_num) (by norm_num [given])]
  intro h
  have h := Except.ok.inj h
  simp only [given, List.lookup_nil, Option.getD_none, Documented.st99] at h
  rw [← Real.mul_rpow (by norm_num) (by norm_num)] at h
  rw [← Real.mul_rpow (by norm_num) (by norm_num)] at h
  rw [show (0.3 : ℝ) * (10 / 3) = 1 by norm_num, Real.one_rpow] at h
  have hp : 0 < ((0.707 : ℝ) * (10 / 3)) ^ (0.3 : ℝ) := by positivity
  have h3 : 0 < 2 * (0.3:ℝ) / (1 * (1 + (0.707 * (10 / 3)) ^ (0.3 : ℝ))) := by positivity
  generalize 2 * (0.3:ℝ) / (1 * (1 + (0.707 * (10 / 3)) ^ (0.3 : ℝ))) = t at h h3
  norm_num at h
  linarith

/-- C63: `Mandelbaum05` is the documented refit of `ST99`. -/
theorem C63_mandelbaum05 (kw : Dict) (hk : Known kw ["q", "p"]) (i : BiasIn) (hnu : 0 ≤ i.nu)
    (hq : 0 ≤ given kw "q" 0.73) :
    biasCall .mandelbaum05 kw i = .ok (Documented.st99 (given kw "q" 0.73) (given kw "p" 0.15) i.delta_c i.nu) := by
  unfold biasCall
  rw [init_ok (by simpa [biasDefaults] using hk)]
  simp [biasDefaults, biasOf, st99Of, get, Documented.st99, Bias.st99, bind, Except.bind, List.lookup_cons,
    Real.mul_rpow hq hnu, div_div]

/-- C63: `Manera10` has the documented form and the documented `q`, but its `p` defaults to 0.248. -/
theorem C63_manera10_partial (kw : Dict) (hk : Known kw ["q", "p"]) (i : BiasIn) (hnu : 0 ≤ i.nu)
    (hq : 0 ≤ given kw "q" 0.709) :
    biasCall .manera10 kw i = .ok (Documented.st99 (given kw "q" 0.709) (given kw "p" 0.248) i.delta_c i.nu) := by
  unfold biasCall
  rw [init_ok (by simpa [biasDefaults] using hk)]
  simp [biasDefaults, biasOf, st99Of, get, Documented.st99, Bias.st99, bind, Except.bind, List.lookup_cons,
    Real.mul_rpow hq hnu, div_div]

/-- C63 finding: the docstring of `Manera10` says `(q, p) = (0.709, 0.2)`. -/
theorem C63_manera10_default_differs : ∃ i : BiasIn, 0 < i.nu ∧ 0 < i.delta_c ∧
    biasCall .manera10 [] i ≠ .ok (Documented.st99 0.709 0.2 i.delta_c i.nu) := by
  refine ⟨⟨1 / 0.709, 1, 1, 1, 200, 1, 1, 1, 1, 3, 0⟩, by norm_num, by norm_num, ?_⟩
  rw [C63_manera10_partial [] (by simp [Known]) _ (by norm_num) (by norm_num [given])]
  intro h
  have h := Except.ok.inj h
  simp only [given, List.lookup_nil, Option.getD_none, Documented.st99] at h
  rw [← Real.mul_rpow (by norm_num) (by norm_num)] at h
  rw [← Real.mul_rpow (by norm_num) (by norm_num)] at h
  rw [show (0.709 : ℝ) * (1 / 0.709) = 1 by norm_num, Real.one_rpow, Real.one_rpow] at h
  norm_num at h

/-- C63: `SMT01` is the documented formula with the documented defaults. -/
theorem C63_smt01 (kw : Dict) (hk : Known kw ["a", "b", "c"]) (i : BiasIn) :
    biasCall .smt01 kw i = .ok (Documented.smt01 (given kw "a" 0.707) (given kw "b" 0.5) (given kw "c" 0.6)
      i.delta_c i.nu) := by
  unfold biasCall
  rw [init_ok (by simpa [biasDefaults] using hk)]
  simp [biasDefaults, biasOf, smt01Of, get, Documented.smt01, Bias.smt01, bind, Except.bind, List.lookup_cons]
  ring

/-- C63: `Tinker05` is `SMT01` refitted, with the documented defaults. -/
theorem C63_tinker05 (kw : Dict) (hk : Known kw ["a", "b", "c"]) (i : BiasIn) :
    biasCall .tinker05 kw i = .ok (Documented.smt01 (given kw "a" 0.707) (given kw "b" 0.35) (given kw "c" 0.8)
      i.delta_c i.nu) := by
  unfold biasCall
  rw [init_ok (by simpa [biasDefaults] using hk)]
  simp [biasDefaults, biasOf, smt01Of, get, Documented.smt01, Bias.smt01, bind, Except.bind, List.lookup_cons]
  ring

/-- C63: `Seljak04` is the documented formula with the documented defaults. -/
theorem C63_seljak04 (kw : Dict) (hk : Known kw ["a", "b", "c", "d", "e", "f", "g"]) (i : BiasIn) :
    biasCall .seljak04 kw i = .ok (Documented.seljak04 (given kw "a" 0.53) (given kw "b" 0.39) (given kw "c" 0.45)
      (given kw "d" 0.13) (given kw "e" 40) (given kw "f" 5e-4) (given kw "g" 1.5) (i.m / i.mstar)) := by
  unfold biasCall
  rw [init_ok (by simpa [biasDefaults] using hk)]
  simp [biasDefaults, biasOf, seljakOf, get, Documented.seljak04, Bias.seljak04, bind, Except.bind, List.lookup_cons]

/-- C63: `Seljak04Cosmo` is the documented formula for masses from a tenth of the non-linear mass up. -/
theorem C63_seljak04Cosmo_partial (kw : Dict) (hk : Known kw ["a", "b", "c", "d", "e", "f", "g", "a1", "a2"])
    (i : BiasIn) (hs : 0 < i.mstar) (hm : i.mstar / 10 ≤ i.m) :
    biasCall .seljak04Cosmo kw i = .ok (Documented.seljak04 (given kw "a" 0.53) (given kw "b" 0.39)
        (given kw "c" 0.45) (given kw "d" 0.13) (given kw "e" 40) (given kw "f" 5e-4) (given kw "g" 1.5) (i.m / i.mstar)
      + Documented.seljakCosmo (given kw "a1" 0.4) (given kw "a2" 0.3) i.Om0 i.n i.sigma_8 i.h (i.m / i.mstar)) := by
  have hx : ¬ Real.logb 10 (i.m / i.mstar) < -1 := by
    have h0 : 0 < i.m := by linarith [div_pos hs (by norm_num : (0:ℝ) < 10)]
    rw [not_lt, Real.le_logb_iff_rpow_le (by norm_num) (by positivity), le_div_iff₀ hs, Real.rpow_neg_one]
    linarith
  unfold biasCall
  rw [init_ok (by simpa [biasDefaults] using hk)]
  simp [biasDefaults, biasOf, seljakOf, get, Documented.seljak04, Bias.seljak04, Documented.seljakCosmo,
    Bias.seljak04Cosmo, bind, Except.bind, List.lookup_cons, if_neg hx]

/-- C63 finding: below a tenth of the non-linear mass the documented logarithmic term is frozen, so it is the
documented formula only when the cosmological coefficient vanishes. -/
theorem C63_seljak04Cosmo_frozen (i : BiasIn) (hs : 0 < i.mstar) (h0 : 0 < i.m) (hm : i.m < i.mstar / 10)
    (hc : 0.4 * (i.Om0 - 0.3 + i.n - 1) + 0.3 * (i.sigma_8 - 0.9 + i.h - 0.7) ≠ 0) :
    biasCall .seljak04Cosmo [] i ≠ .ok (Documented.seljak04 0.53 0.39 0.45 0.13 40 5e-4 1.5 (i.m / i.mstar)
      + Documented.seljakCosmo 0.4 0.3 i.Om0 i.n i.sigma_8 i.h (i.m / i.mstar)) := by
  have hx : Real.logb 10 (i.m / i.mstar) < -1 := by
    rw [Real.logb_lt_iff_lt_rpow (by norm_num) (by positivity), div_lt_iff₀ hs, Real.rpow_neg_one]; linarith
  unfold biasCall
  rw [init_ok (by simp [Known])]
  simp only [biasDefaults, biasOf, seljakOf, get, Documented.seljak04, Bias.seljak04, Documented.seljakCosmo,
    Bias.seljak04Cosmo, bind, Except.bind, List.map_cons, List.map_nil, List.lookup_cons, if_pos hx, given]
  simp
  generalize Real.logb 10 (i.m / i.mstar) = x at *
  intro h
  have : (x + 1) * (0.4 * (i.Om0 - 0.3 + i.n - 1) + 0.3 * (i.sigma_8 - 0.9 + i.h - 0.7)) = 0 := by
    rw [add_mul, ← h]; ring
  rcases mul_eq_zero.1 this with h1 | h1
  · linarith
  · exact hc h1

/-- C63: `Pillepich10` is the documented formula with the documented defaults. -/
theorem C63_pillepich10 (kw : Dict) (hk : Known kw ["B0", "B1", "B2"]) (i : BiasIn) :
    biasCall .pillepich10 kw i = .ok (Documented.pillepich10 (given kw "B0" 0.647) (given kw "B1" (-0.32))
      (given kw "B2" 0.568) i.nu) := by
  unfold biasCall
  rw [init_ok (by simpa [biasDefaults] using hk)]
  simp [biasDefaults, biasOf, get, Documented.pillepich10, Bias.pillepich10, bind, Except.bind, List.lookup_cons]
  norm_num

/-- C63 finding: the docstring of `Pillepich10` lists the parameters as `B1, B2, B3`; passing `B3` is refused. -/
theorem C63_pillepich10_B3 (x : ℝ) (i : BiasIn) : biasCall .pillepich10 [("B3", x)] i = .error .valueError :=
  C63_unknown_refused .pillepich10 _ i ("B3", x) (by simp) (by simp [biasDefaults])

/-- C63: `Tinker10` is the documented formula with the documented defaults, its symbol standing for the square root of
the documented squared peak height. -/
theorem C63_tinker10 (kw : Dict) (hk : Known kw ["B", "b", "c"]) (i : BiasIn) :
    biasCall .tinker10 kw i = .ok (Documented.tinker10 (given kw "B" 0.183) (given kw "b" 1.5) (given kw "c" 2.4)
      i.delta_halo i.delta_c (√i.nu)) := by
  unfold biasCall
  rw [init_ok (by simpa [biasDefaults] using hk)]
  simp [biasDefaults, biasOf, get, Documented.tinker10, Bias.tinker10, Bias.tkA, Bias.tkC, bind, Except.bind,
    List.lookup_cons]
  norm_num
  ring_nf

/-- C63: `TinkerSD05` is the documented formula with the documented defaults wherever both bases are non-negative. -/
theorem C63_tinkerSD05 (kw : Dict) (hk : Known kw ["a", "b", "c", "d"]) (xi : ℝ)
    (ha : 0 ≤ 1 + given kw "a" 1.17 * xi) (hc : 0 ≤ 1 + given kw "c" 0.69 * xi) :
    sdCall kw xi = .ok (some (Documented.tinkerSD05 (given kw "a" 1.17) (given kw "b" 1.49) (given kw "c" 0.69)
      (given kw "d" 2.09) xi)) := by
  unfold sdCall
  rw [init_ok (by simpa using hk)]
  simp [get, Documented.tinkerSD05, Bias.tinkerSD05, bind, Except.bind, List.lookup_cons, not_lt.2 ha, not_lt.2 hc]

/-! ## Tinker10PBSplit -/

/-- reading a tabulated column. -/
theorem pbColumn_tab (spl : List (ℝ × ℝ) → ℝ → ℝ) (ps : Dict) (name : String) {d : ℕ} (hd : d ∈ deltaVirs) :
    pbColumn spl ps name d = get ps (key name d) := by
  classical
  have h : ∃ d' ∈ deltaVirs, (d : ℝ) = (d' : ℝ) := ⟨d, hd, rfl⟩
  unfold pbColumn
  rw [dif_pos h]
  have := h.choose_spec.2
  rw [show h.choose = d from (Nat.cast_injective this).symm]

/-- decimal representations. -/
theorem reprs : Nat.repr 200 = "200" ∧ Nat.repr 300 = "300" ∧ Nat.repr 400 = "400" ∧ Nat.repr 600 = "600" ∧
    Nat.repr 800 = "800" ∧ Nat.repr 1200 = "1200" ∧ Nat.repr 1600 = "1600" ∧ Nat.repr 2400 = "2400" ∧
    Nat.repr 3200 = "3200" := by decide

/-- C63: `Tinker10PBSplit` at a tabulated overdensity: the parameters are those passed for that overdensity, else the
published ones, evolving with redshift as documented, `x(z) = x(0) (1+z)^exp` up to `max_z` and constant beyond. -/
theorem C63_tinkerPB (spl : List (ℝ × ℝ) → ℝ → ℝ) (kw : Dict) (hk : Known kw (pbDefaults.map Prod.fst)) (i : BiasIn)
    (d : ℕ) (β0 γ0 φ0 η0 : ℝ) (hd : i.delta_halo = d) (ht : ((d : ℝ), β0, γ0, φ0, η0) ∈ Bias.tinker10Table4) :
    let z := min i.z (given kw "max_z" 3)
    let β := given kw ("beta_" ++ toString d) β0 * (1 + z) ^ given kw "beta_exp" 0.2
    let γ := given kw ("gamma_" ++ toString d) γ0 * (1 + z) ^ given kw "gamma_exp" (-0.01)
    let φ := given kw ("phi_" ++ toString d) φ0 * (1 + z) ^ given kw "phi_exp" (-0.08)
    let η := given kw ("eta_" ++ toString d) η0 * (1 + z) ^ given kw "eta_exp" 0.27
    pbCall spl kw i = .ok (1 + (γ * i.nu - (1 + 2 * η)) / i.delta_c
      + 2 * φ / i.delta_c / (1 + (β ^ 2 * i.nu) ^ φ)) := by
  intro z β γ φ η
  simp only [Bias.tinker10Table4, List.mem_cons, Prod.mk.injEq, List.not_mem_nil, or_false] at ht
  have hdv : d ∈ deltaVirs := by
    simp only [deltaVirs, List.mem_cons, List.not_mem_nil, or_false]
    rcases ht with h | h | h | h | h | h | h | h | h <;> (have := h.1; norm_cast at this; simp [this])
  unfold pbCall
  rw [init_ok hk, hd]
  simp only [pbColumn_tab spl _ _ hdv, bind, Except.bind]
  rcases ht with h | h | h | h | h | h | h | h | h <;>
    (obtain ⟨h1, rfl, rfl, rfl, rfl⟩ := h
     norm_cast at h1
     subst h1
     simp only [β, γ, φ, η]
     simp [key, reprs, pbDefaults, get, List.lookup_cons, Bias.tinkerPB, Bias.tkEvolve, z])

/-- C63: between the tabulated overdensities `Tinker10PBSplit` takes each parameter from the spline through the nine published rows, in increasing
overdensity, each value replaced by the one passed for its overdensity. -/
theorem C63_tinkerPB_between (spl : List (ℝ × ℝ) → ℝ → ℝ) (kw : Dict) (hk : Known kw (pbDefaults.map Prod.fst)) (i : BiasIn)
    (ht : ∀ row ∈ Bias.tinker10Table4, i.delta_halo ≠ row.1) :
    let z := min i.z (given kw "max_z" 3)
    let col := fun (name : String) (v : ℝ × ℝ × ℝ × ℝ × ℝ → ℝ) =>
      spl (([200, 300, 400, 600, 800, 1200, 1600, 2400, 3200].zip Bias.tinker10Table4).map fun p => (p.2.1, given kw (name ++ toString (p.1 : ℕ)) (v p.2))) i.delta_halo
    let β := col "beta_" (fun r => r.2.1) * (1 + z) ^ given kw "beta_exp" 0.2
    let γ := col "gamma_" (fun r => r.2.2.1) * (1 + z) ^ given kw "gamma_exp" (-0.01)
    let φ := col "phi_" (fun r => r.2.2.2.1) * (1 + z) ^ given kw "phi_exp" (-0.08)
    let η := col "eta_" (fun r => r.2.2.2.2) * (1 + z) ^ given kw "eta_exp" 0.27
    pbCall spl kw i = .ok (1 + (γ * i.nu - (1 + 2 * η)) / i.delta_c
      + 2 * φ / i.delta_c / (1 + (β ^ 2 * i.nu) ^ φ)) := by
  intro z col β γ φ η
  have hx : ¬ ∃ d ∈ deltaVirs, i.delta_halo = (d : ℝ) := by
    rintro ⟨d, hd, he⟩
    simp only [deltaVirs, List.mem_cons, List.not_mem_nil, or_false] at hd
    simp only [Bias.tinker10Table4, List.forall_mem_cons] at ht
    obtain ⟨a1, a2, a3, a4, a5, a6, a7, a8, a9, -⟩ := ht
    rcases hd with rfl | rfl | rfl | rfl | rfl | rfl | rfl | rfl | rfl <;> simp_all
  unfold pbCall
  rw [init_ok hk]
  simp only [pbColumn, dif_neg hx, bind, Except.bind]
  simp only [β, γ, φ, η, col]
  simp [deltaVirs, key, reprs, pbDefaults, get, List.lookup_cons, Bias.tinkerPB, Bias.tkEvolve, z, Bias.tinker10Table4, List.mapM_cons, bind, Except.bind, pure, Except.pure]

/-- reading a parameter after `Component.__init__`. -/
theorem get_map (defaults kw : Dict) (k : String) :
    get (defaults.map fun d => (d.1, given kw d.1 d.2)) k =
      match defaults.lookup k with | some v => .ok (given kw k v) | none => .error .keyError := by
  unfold get
  induction defaults with
  | nil => rfl
  | cons d t ih =>
    rw [List.map_cons, List.lookup_cons, List.lookup_cons]
    by_cases h : k = d.1
    · subst h; simp
    · have : (k == d.1) = false := by simpa using h
      simp only [this]
      exact ih

/-- C63 finding: the documented parameters `alpha_200 … alpha_3200` of `Tinker10PBSplit` have no effect on the bias, at
any overdensity and redshift. -/
theorem C63_tinkerPB_alpha_unused (spl : List (ℝ × ℝ) → ℝ → ℝ) (kw kw' : Dict)
    (hk : Known kw (pbDefaults.map Prod.fst)) (hk' : Known kw' (pbDefaults.map Prod.fst))
    (h : ∀ k, k ∉ ["alpha_200", "alpha_300", "alpha_400", "alpha_600", "alpha_800", "alpha_1200", "alpha_1600",
      "alpha_2400", "alpha_3200"] → kw.lookup k = kw'.lookup k) (i : BiasIn) :
    pbCall spl kw i = pbCall spl kw' i := by
  classical
  have hg : ∀ k, k ∉ ["alpha_200", "alpha_300", "alpha_400", "alpha_600", "alpha_800", "alpha_1200", "alpha_1600",
      "alpha_2400", "alpha_3200"] → get (pbDefaults.map fun d => (d.1, given kw d.1 d.2)) k =
        get (pbDefaults.map fun d => (d.1, given kw' d.1 d.2)) k := by
    intro k hk
    rw [get_map, get_map]
    unfold given
    rw [h k hk]
  have hc : ∀ name ∈ ["beta", "gamma", "phi", "eta"],
      pbColumn spl (pbDefaults.map fun d => (d.1, given kw d.1 d.2)) name i.delta_halo =
        pbColumn spl (pbDefaults.map fun d => (d.1, given kw' d.1 d.2)) name i.delta_halo := by
    intro name hn
    have hkey : ∀ d ∈ deltaVirs, get (pbDefaults.map fun d => (d.1, given kw d.1 d.2)) (key name d) =
        get (pbDefaults.map fun d => (d.1, given kw' d.1 d.2)) (key name d) := by
      intro d hd
      apply hg
      revert name d
      decide
    unfold pbColumn
    by_cases hx : ∃ d ∈ deltaVirs, i.delta_halo = (d : ℝ)
    · rw [dif_pos hx, dif_pos hx]
      exact hkey _ hx.choose_spec.1
    · rw [dif_neg hx, dif_neg hx]
      have : deltaVirs.mapM (fun d => get (pbDefaults.map fun d => (d.1, given kw d.1 d.2)) (key name d)) =
          deltaVirs.mapM (fun d => get (pbDefaults.map fun d => (d.1, given kw' d.1 d.2)) (key name d)) := by
        have : ∀ l : List ℕ, (∀ d ∈ l, d ∈ deltaVirs) →
            l.mapM (fun d => get (pbDefaults.map fun d => (d.1, given kw d.1 d.2)) (key name d)) =
            l.mapM (fun d => get (pbDefaults.map fun d => (d.1, given kw' d.1 d.2)) (key name d)) := by
          intro l
          induction l with
          | nil => intro _; rfl
          | cons d t ih =>
            intro hl
            rw [List.mapM_cons, List.mapM_cons, hkey d (hl d (by simp)), ih fun x hx => hl x (by simp [hx])]
        exact this _ fun _ h => h
      rw [this]
  unfold pbCall
  rw [init_ok hk, init_ok hk']
  simp only [bind, Except.bind]
  rw [hc "beta" (by simp), hc "gamma" (by simp), hc "phi" (by simp), hc "eta" (by simp), hg "max_z" (by decide),
    hg "beta_exp" (by decide), hg "phi_exp" (by decide), hg "eta_exp" (by decide), hg "gamma_exp" (by decide)]

example : Known [("p", (0.2:ℝ))] ["q", "p"] := by simp [Known]

end Halomod.Params
