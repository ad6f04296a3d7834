import Verif.Spec.Documented
import Verif.Spec.Profiles
import Verif.Props.Profiles
import Mathlib.Tactic.FieldSimp
import Mathlib.Tactic.Linarith
import Mathlib.Tactic.NormNum
import Mathlib.Tactic.Ring

/-!
# C63: the documented density profiles

Every profile class documents `ρ(r) = ρ_s × (a formula in r and the scale radius)`.  The density the class returns is an
amplitude that does not depend on the radius times that formula, cut at the virial radius (the classes ending in `Inf`,
and the power law with cut-off, are not cut).  `Moore` computes another formula than the documented one.
-/
namespace Halomod.Profiles

open Halomod

/-- The density of a class follows a documented formula: one amplitude for all radii; zero beyond the virial radius (whose
`r / R_s` is the concentration). -/
def Follows (s : Shape) (doc : ℝ → ℝ → ℝ) : Prop :=
  ∀ (e : Env) (m c : ℝ) (norm : Norm), norm ≠ .other → 0 < s.rs e m c →
    ∃ A : ℝ, ∀ r : ℝ, 0 < r →
      s.rho e r m norm (some c) = .ok (if c < r / s.rs e m c then 0 else A * doc (s.rs e m c) r) ∧
      s.rhoInf e r m norm (some c) = .ok (A * doc (s.rs e m c) r)

theorem follows_of {s : Shape} {doc : ℝ → ℝ → ℝ}
    (h : ∀ R r : ℝ, 0 < R → 0 < r → s.f (r / R) = doc R r) : Follows s doc := by
  intro e m c norm hn hR
  obtain ⟨a, ha⟩ : ∃ a, s.rhoS e c (s.rs e m c) norm = .ok a := by
    cases norm
    · exact ⟨_, rfl⟩
    · exact ⟨_, rfl⟩
    · exact ⟨_, rfl⟩
    · exact absurd rfl hn
  refine ⟨a, fun r hr => ?_⟩
  have hd := h (s.rs e m c) r hR hr
  constructor
  · simp only [Shape.rho, Shape.rVars, Option.getD_some, bind, Except.bind, ha, pure, Except.pure]
    rw [hd]
    congr 1
    split
    · norm_num
    · ring
  · simp only [Shape.rhoInf, Shape.rVars, Option.getD_some, bind, Except.bind, ha, pure, Except.pure]
    rw [hd, mul_comm]

/-- C63: NFW, Hernquist, Constant, GeneralizedNFW, Einasto, CoredNFW and PowerLawWithExpCut compute the documented
density, whatever their other methods are (`h`, `p` below: the numerical or analytic integrals of the class). -/
theorem C63_profiles (h : ℝ → ℝ) (p : ℝ → ℝ → ℝ) (α a b : ℝ) :
    Follows nfw Documented.nfwRho ∧ Follows hernquist Documented.hernquistRho ∧
    Follows constant Documented.constantRho ∧
    Follows { f := gnfwF α, h := h, p := p } (Documented.generalizedNfwRho α) ∧
    Follows { f := einastoF α, h := einastoH α, p := p } (Documented.einastoRho α) ∧
    Follows coredNfw Documented.coredNfwRho ∧
    Follows { f := plF a b, h := fun _ => plH a b, p := fun K _ => plP a b K } (Documented.powerLawCutRho a b) := by
  refine ⟨follows_of fun R r hR hr => ?_, follows_of fun R r hR hr => ?_, follows_of fun R r hR hr => ?_,
    follows_of fun R r hR hr => ?_, follows_of fun R r hR hr => ?_, follows_of fun R r hR hr => ?_,
    follows_of fun R r hR hr => ?_⟩
  · show (1.0:ℝ) / _ = 1 / _
    norm_num
  · show (1.0:ℝ) / _ = 1 / _
    norm_num
  · show (1.0:ℝ) = 1
    norm_num
  · show (1.0:ℝ) / _ = 1 / _
    norm_num
  · show Real.exp ((-2.0 / α) * _) = Real.exp (-(2 / α) * _)
    congr 2
    rw [show (-2.0:ℝ) = -2 by norm_num]
    ring
  · show (1.0:ℝ) / (r / R + 0.75) / (r / R + 1) ^ 2 = 1 / ((r / R + 0.75) * (1 + r / R) ^ 2)
    rw [div_div, add_comm (r / R) 1]
    norm_num
  · show (1.0:ℝ) / (r / R) ^ b * Real.exp (-a * (r / R)) = R ^ b / r ^ b * Real.exp (-a * r / R)
    rw [Real.div_rpow hr.le hR.le, show (1.0:ℝ) = 1 by norm_num, one_div_div, mul_div_assoc]

/-- The hypotheses are met: NFW at the fiducial environment. -/
example : ∃ A : ℝ, ∀ r : ℝ, 0 < r →
    nfw.rho fidEnv r 1e13 .m (some 5) = .ok (if 5 < r / nfw.rs fidEnv 1e13 5 then 0
      else A * Documented.nfwRho (nfw.rs fidEnv 1e13 5) r) := by
  have hR : 0 < nfw.rs fidEnv 1e13 5 := by
    simp only [Shape.rs, Env.rsBase, Env.massToRadius, fidEnv, nfw]
    norm_num
    positivity
  obtain ⟨A, hA⟩ := (C63_profiles id (fun _ _ => 0) 1 1 1).1 fidEnv 1e13 5 .m (by decide) hR
  exact ⟨A, fun r hr => (hA r hr).1⟩

/-- C63 finding: `Moore` does not follow its documented formula `1 / (x^1.5 (1 + x)^1.5)`: the code has `1 + x^1.5`. In
any halo with concentration at least 1 no amplitude makes the two agree. -/
theorem C63_moore_formula (p : ℝ → ℝ → ℝ) (e : Env) (m c : ℝ) (hc : 1 ≤ c) (hR : 0 < (moore p).rs e m c) :
    ¬ ∃ A : ℝ, ∀ r : ℝ, 0 < r → r / (moore p).rs e m c ≤ c →
      (moore p).rho e r m .m (some c) = .ok (A * Documented.mooreRho ((moore p).rs e m c) r) := by
  rintro ⟨A, hA⟩
  set R := (moore p).rs e m c with hRdef
  have hh : 0 < mooreH c := by
    unfold mooreH
    have : 0 < Real.log (1 + c ^ (1.5:ℝ)) := Real.log_pos (by have : 0 < c ^ (1.5:ℝ) := by positivity
                                                              linarith)
    positivity
  have hK : 0 < 1.0 / (4 * Real.pi * R ^ 3 * mooreH c) := by positivity
  obtain ⟨K, hKd⟩ : ∃ K, K = 1.0 / (4 * Real.pi * R ^ 3 * mooreH c) := ⟨_, rfl⟩
  rw [← hKd] at hK
  have hrho : ∀ x : ℝ, 0 < x → x ≤ c → mooreF x * K = A * Documented.mooreRho R (x * R) := by
    intro x hx hxc
    have hxR : x * R / R = x := by field_simp
    have := hA (x * R) (by positivity) (by rw [hxR]; exact hxc)
    simp only [Shape.rho, Shape.rVars, Option.getD_some, bind, Except.bind, pure, Except.pure, Shape.rhoS, ← hRdef,
      hxR] at this
    rw [if_neg (by linarith)] at this
    have h2 := Except.ok.inj this
    rw [← h2, hKd]
    rfl
  have h1 := hrho 1 one_pos hc
  have h2 := hrho (1 / 4) (by norm_num) (by linarith)
  have q : ((1:ℝ) / 4) ^ (1.5:ℝ) = 1 / 8 := by
    rw [show ((1:ℝ) / 4) = (1 / 2) ^ (2:ℝ) by norm_num, ← Real.rpow_mul (by norm_num)]
    norm_num
  simp only [mooreF, Documented.mooreRho, one_mul, div_self hR.ne', Real.one_rpow, mul_div_assoc] at h1 h2
  rw [q] at h2
  obtain ⟨s, hs0, hs⟩ : ∃ s : ℝ, 0 < s ∧ s ^ 2 = 8 ∧ ((1:ℝ) + 1) ^ (1.5:ℝ) = s := by
    refine ⟨((1:ℝ) + 1) ^ (1.5:ℝ), by positivity, ?_, rfl⟩
    rw [← Real.rpow_natCast, ← Real.rpow_mul (by norm_num)]
    norm_num
  obtain ⟨t, ht0, ht⟩ : ∃ t : ℝ, 0 < t ∧ t ^ 2 = 125 / 64 ∧ ((1:ℝ) + 1 / 4 * 1) ^ (1.5:ℝ) = t := by
    refine ⟨((1:ℝ) + 1 / 4 * 1) ^ (1.5:ℝ), by positivity, ?_, rfl⟩
    rw [← Real.rpow_natCast, ← Real.rpow_mul (by norm_num)]
    norm_num
  rw [hs.2] at h1
  rw [ht.2] at h2
  norm_num [q] at h1 h2
  have a1 : A = s * K / 2 := by
    field_simp at h1 ⊢
    linarith
  rw [a1] at h2
  field_simp at h2
  have h3 : 16 * t = 9 * s := by nlinarith
  have : 256 * t ^ 2 = 81 * s ^ 2 := by
    rw [show (256:ℝ) * t ^ 2 = (16 * t) ^ 2 by ring, h3]; ring
  rw [hs.1, ht.1] at this
  norm_num at this

example : 0 < (moore fun _ _ => 0).rs fidEnv 1e13 5 := by
  simp only [Shape.rs, Env.rsBase, Env.massToRadius, fidEnv, moore, mooreC]
  norm_num
  positivity

end Halomod.Profiles
