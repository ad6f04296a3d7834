import Verif.Props.Scaling
import Verif.Props.Spline3

/-!
# C78: units of mass and of length

A halo model described in other units of mass (`μ` new units to an old one) and of length (`l` new units to an old one) has
the same spectra and correlation functions, expressed in the new units.
-/
namespace Halomod.Tools

open Matrix

/-- A spline that depends only on the shape of its abscissae. -/
structure SplUnits (isp : Spl) : Prop where
  shift : ∀ n x (y : ℕ → ℝ) d t, isp n (fun i => x i + d) y (t + d) = isp n x y t
  dilate : ∀ n x (y : ℕ → ℝ) c t, 0 < c → isp n (fun i => c * x i) y (c * t) = isp n x y t

/-- The package's spline is of this kind. -/
theorem cubicSpl_units : SplUnits cubicSpl where
  shift n x y d t := by
    have hb (k : ℕ) (u : ℝ) : splBasis (fun i => x i + d) k (u + d) = splBasis x k u := by
      unfold splBasis
      simp only [add_sub_add_right_eq_sub]
    have hm : splMatrix n (fun i => x i + d) = splMatrix n x := by
      ext i k
      exact hb k (x i)
    unfold cubicSpl
    rw [hm]
    simp only [hb]
  dilate n x y c t hc := by
    set D : Fin n → ℝ := fun k => if (k : ℕ) < 4 then c ^ (k : ℕ) else c ^ 3 with hD
    have hb (k : Fin n) (u : ℝ) : splBasis (fun i => c * x i) k (c * u) = splBasis x k u * D k := by
      unfold splBasis
      rw [hD]
      dsimp only
      split_ifs
      · rw [← mul_sub, mul_pow, mul_comm]
      · rw [← mul_sub, show max 0 (c * (u - x (k - 2))) = c * max 0 (u - x (k - 2)) by
          rw [mul_max_of_nonneg _ _ hc.le, mul_zero], mul_pow, mul_comm]
    have hD0 (k : Fin n) : D k ≠ 0 := by
      rw [hD]
      dsimp only
      split_ifs <;> positivity
    have hm : splMatrix n (fun i => c * x i) = splMatrix n x * diagonal D := by
      ext i k
      rw [mul_diagonal]
      exact hb k (x i)
    have hi : (diagonal D)⁻¹ = diagonal fun k => (D k)⁻¹ := by
      refine inv_eq_right_inv ?_
      rw [diagonal_mul_diagonal, ← diagonal_one]
      congr 1
      funext k
      exact mul_inv_cancel₀ (hD0 k)
    unfold cubicSpl
    rw [hm, Matrix.mul_inv_rev, hi]
    refine Finset.sum_congr rfl fun k _ => ?_
    rw [hb, ← Matrix.mulVec_mulVec, mulVec_diagonal]
    have := hD0 k
    field_simp

variable {isp : Spl}

/-- the integral of the interpolant in other units. -/
theorem splIntegral_shift (hu : SplUnits isp) (n : ℕ) (x y : ℕ → ℝ) (a b d : ℝ) :
    splIntegral isp n (fun i => x i + d) y (a + d) (b + d) = splIntegral isp n x y a b := by
  unfold splIntegral
  rw [← intervalIntegral.integral_comp_add_right _ d]
  congr 1
  funext t
  by_cases ht : t ∈ Set.Icc (x 0) (x (n - 1))
  · have h2 : t + d ∈ Set.Icc (x 0 + d) (x (n - 1) + d) := ⟨by linarith [ht.1], by linarith [ht.2]⟩
    rw [Set.indicator_of_mem ht, Set.indicator_of_mem h2, hu.shift]
  · have h2 : t + d ∉ Set.Icc (x 0 + d) (x (n - 1) + d) := fun h => ht ⟨by linarith [h.1], by linarith [h.2]⟩
    rw [Set.indicator_of_notMem ht, Set.indicator_of_notMem h2]

theorem splineIntegral_units (hs : SplLin isp) (hu : SplUnits isp) {μ : ℝ} (hμ : 0 < μ) (n : ℕ) (x f g : ℕ → ℝ) (hx : ∀ i, 0 < x i) (κ : ℝ)
    (hg : ∀ i, g i = κ * f i) (a : Option ℝ) (ha : ∀ v, a = some v → 0 < v) :
    splineIntegral isp n (fun i => μ * x i) g (a.map fun v => μ * v) none true = μ * κ * splineIntegral isp n x f a none true := by
  have hl (v : ℝ) (hv : 0 < v) : Real.log (μ * v) = Real.log v + Real.log μ := by
    rw [Real.log_mul hμ.ne' hv.ne', add_comm]
  unfold splineIntegral
  simp only [if_true, Option.elim_none]
  have e1 : (fun i => Real.log (μ * x i)) = fun i => Real.log (x i) + Real.log μ := funext fun i => hl _ (hx i)
  have e2 : (fun i => μ * x i * g i) = fun i => μ * κ * (x i * f i) := funext fun i => by rw [hg]; ring
  have e3 : (a.map fun v => μ * v).elim (Real.log (μ * x 0)) Real.log = a.elim (Real.log (x 0)) Real.log + Real.log μ := by
    cases a with
    | none => exact hl _ (hx 0)
    | some v => exact hl _ (ha v rfl)
  rw [e1, e2, e3, hl _ (hx _), splIntegral_shift hu]
  unfold splIntegral
  rw [← intervalIntegral.integral_const_mul]
  congr 1
  funext t
  by_cases ht : t ∈ Set.Icc (Real.log (x 0)) (Real.log (x (n - 1)))
  · rw [Set.indicator_of_mem ht, Set.indicator_of_mem ht, hs.smul]
  · rw [Set.indicator_of_notMem ht, Set.indicator_of_notMem ht, mul_zero]

end Halomod.Tools

namespace Halomod.HaloModel

open Finset Halomod.Tools Halomod.Exclusion Halomod.HOD

/-! ### extended splines in other units -/

/-- the function on the new abscissae, `c` of them to an old one. -/
noncomputable def dilExt (c : ℝ) : Ext → Ext
  | .callable f => .callable fun t => f (t / c)
  | e => e

/-- `F'` is `F` in other units: `c` new units of its argument to an old one and values multiplied by `κ`, at every positive argument; both are exceptions
or neither is. -/
def InUnits (c κ : ℝ) (F' F : Option (ℝ → ℝ)) : Prop :=
  (F' = none ∧ F = none) ∨ ∃ f' f, F' = some f' ∧ F = some f ∧ ∀ t, 0 < t → f' t = κ * f (t / c)

variable {E : Env}

theorem extFunc_dilate (hus : ∀ n x (y : ℕ → ℝ) d t, E.us n (fun i => x i + d) y (t + d) = E.us n x y t) {spl spl' : ℝ → ℝ} {c : ℝ} (hc : 0 < c)
    (hspl : ∀ t, spl' (c * t) = spl t) (fnc : Ext) (n : ℕ) (x y : ℕ → ℝ) (hx : ∀ i, 0 < x i) (mtch : Bool) (mx : ℝ) :
    InUnits c 1 (extFunc E.us spl' (dilExt c fnc) n (fun i => c * x i) y mtch (c * mx)) (extFunc E.us spl fnc n x y mtch mx) := by
  classical
  have hc0 : ∀ t : ℝ, c * t / c = t := fun t => by field_simp
  have hs2 : ∀ t, spl' t = spl (t / c) := fun t => by rw [← hspl]; congr 1; field_simp
  cases fnc with
  | callable f =>
    refine Or.inr ?_
    unfold extFunc dilExt
    simp only [hc0]
    split_ifs with h1 h2
    all_goals first
      | exact ⟨_, _, rfl, rfl, fun t _ => (one_mul _).symm⟩
      | exact ⟨_, _, rfl, rfl, fun t _ => by rw [hspl]; ring⟩
  | powerLaw =>
    unfold extFunc dilExt
    simp only
    have e1 : (∀ i < n, 0 < c * x i) ↔ ∀ i < n, 0 < x i := by simp [hc]
    have e2 : (fun i => Real.log (c * x i)) = fun i => Real.log (x i) + Real.log c :=
      funext fun i => by rw [Real.log_mul hc.ne' (hx i).ne', add_comm]
    have e3 (t : ℝ) (ht : 0 < t) : Real.log t = Real.log (t / c) + Real.log c := by
      rw [Real.log_div ht.ne' hc.ne']; ring
    simp only [e1, e2]
    by_cases h1 : ∀ i < n, 0 < x i
    · rw [if_neg (not_not.mpr h1), if_neg (not_not.mpr h1)]
      by_cases h2 : (¬ ∀ i < n, 0 < y i) ∨ (∀ i < n, y i < 0)
      · rw [if_pos h2, if_pos h2]
        exact Or.inr ⟨_, _, rfl, rfl, fun t _ => by ring⟩
      · rw [if_neg h2, if_neg h2]
        refine Or.inr ⟨_, _, rfl, rfl, fun t ht => ?_⟩
        rw [e3 t ht, hus, one_mul]
    · rw [if_pos h1, if_pos h1]
      exact Or.inl ⟨rfl, rfl⟩
  | boundary => exact Or.inr ⟨_, _, rfl, rfl, fun t _ => by rw [hspl]; ring⟩
  | none => exact Or.inr ⟨_, _, rfl, rfl, fun t _ => by rw [hs2, one_mul]⟩
  | invalid => exact Or.inl ⟨rfl, rfl⟩

/-- an `ExtendedSpline` in other units of its argument. -/
theorem mkES_dilate (hu : SplUnits E.isp) (hus : ∀ n x (y : ℕ → ℝ) d t, E.us n (fun i => x i + d) y (t + d) = E.us n x y t) (a : ESArgs) {c : ℝ} (hc : 0 < c)
    (hx : ∀ i, 0 < a.x i) (hlo : a.domLo = ⊥) (hhi : a.domHi = ⊤) :
    InUnits c 1 (mkES E { a with x := fun i => c * a.x i, lower := dilExt c a.lower, upper := dilExt c a.upper }) (mkES E a) := by
  classical
  unfold mkES esInit
  simp only [hlo, hhi]
  rw [if_neg (by simp), if_neg (by simp)]
  have hspl : ∀ t, E.isp a.n (fun i => c * a.x i) a.y (c * t) = E.isp a.n a.x a.y t := fun t => hu.dilate _ _ _ _ _ hc
  have L := extFunc_dilate hus hc hspl a.lower (min a.nLow a.n) a.x a.y hx a.matchLower (a.x 0)
  have U := extFunc_dilate hus hc hspl a.upper (min a.nUp a.n) (fun i => a.x (a.n - min a.nUp a.n + i))
    (fun i => a.y (a.n - min a.nUp a.n + i)) (fun i => hx _) a.matchUpper (a.x (a.n - 1))
  rcases L with ⟨l1, l2⟩ | ⟨lf', lf, l1, l2, hl⟩
  · rw [l1, l2]
    exact Or.inl ⟨rfl, rfl⟩
  · rcases U with ⟨u1, u2⟩ | ⟨uf', uf, u1, u2, hu'⟩
    · rw [l1, l2, u1, u2]
      exact Or.inl ⟨rfl, rfl⟩
    · rw [l1, l2, u1, u2]
      refine Or.inr ⟨_, _, rfl, rfl, fun t ht => ?_⟩
      unfold ES.call
      simp only
      have c1 : t < c * a.x 0 ↔ t / c < a.x 0 := by rw [div_lt_iff₀ hc, mul_comm]
      have c2 : t > c * a.x (a.n - 1) ↔ t / c > a.x (a.n - 1) := by
        rw [gt_iff_lt, gt_iff_lt, lt_div_iff₀ hc, mul_comm]
      simp only [c1, c2]
      split_ifs
      · exact hl t ht
      · exact hu' t ht
      · rw [one_mul, ← hspl]
        congr 1
        field_simp

theorem InUnits.smul {c κ : ℝ} {F' F G' G : Option (ℝ → ℝ)} (h : InUnits c 1 F' F) (hG' : G' = scaled κ F') (hG : G = F) : InUnits c κ G' G := by
  subst hG' hG
  rcases h with ⟨h1, h2⟩ | ⟨f', f, h1, h2, h3⟩
  · exact Or.inl ⟨by rw [h1]; rfl, h2⟩
  · exact Or.inr ⟨_, _, by rw [h1]; rfl, h2, fun t ht => by
      change κ * f' t = _
      rw [h3 t ht, one_mul]⟩

theorem InUnits.sum {c κ : ℝ} {F' F G' G : Option (ℝ → ℝ)} (h : InUnits c κ F' F) (h' : InUnits c κ G' G) : InUnits c κ (sumC F' G' 0) (sumC F G 0) := by
  rcases h with ⟨h1, h2⟩ | ⟨f', f, h1, h2, h3⟩
  · rw [h1, h2]
    exact Or.inl ⟨rfl, rfl⟩
  · rcases h' with ⟨g1, g2⟩ | ⟨g', g, g1, g2, g3⟩
    · rw [h1, h2, g1, g2]
      exact Or.inl ⟨rfl, rfl⟩
    · rw [h1, h2, g1, g2]
      refine Or.inr ⟨_, _, rfl, rfl, fun t ht => ?_⟩
      simp only [sumCallable, h3 t ht, g3 t ht]
      ring

end Halomod.HaloModel
