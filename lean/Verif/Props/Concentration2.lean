import Verif.Props.Concentration
import Verif.Spec.Ludlow

/-! # C30, C31 continued: what Ludlow16 solves, and how its empirical form evolves -/
namespace Halomod.Concentration

theorem cvec0_tried (c : ℝ) : (∃ i < 400, cvec0 i = c) ↔ IsTried c := by
  have e : ∀ i : ℕ, cvec0 i = (100 : ℝ) ^ ((i : ℝ) / 399) := by
    intro i
    unfold cvec0
    rw [show (100 : ℝ) = 10 ^ (2 : ℝ) by norm_num, ← Real.rpow_mul (by norm_num)]
    congr 1; ring
  unfold IsTried
  constructor
  · rintro ⟨i, hi, rfl⟩; exact ⟨i, hi, e i⟩
  · rintro ⟨i, hi, rfl⟩; exact ⟨i, hi, e i⟩

/-- the rows are exactly the tried concentrations together with their formation redshift. -/
theorem mem_eq7Rows {h : ℝ → ℝ} {dh Om Ode C z : ℝ} (hC : 0 < C) (hO : 0 < Om) (c zf : ℝ) :
    (c, zf) ∈ eq7Rows h dh Om Ode C z ↔
      IsTried c ∧ FormedAt (1 / 0.33333) (fun c => h 1 / h c) dh Om Ode C z c zf := by
  classical
  have key : ∀ c, C * (Om * eq6Brackets h dh Om Ode C z c + Ode)
      = dh * c ^ 3 * (h 1 / h c) * (Om * (1 + z) ^ 3 + Ode) := by
    intro c; unfold eq6Brackets
    generalize h 1 / h c = t
    field_simp; ring
  rw [← cvec0_tried]
  simp only [eq7Rows, List.mem_filter, List.mem_map, List.mem_range, Prod.mk.injEq, decide_eq_true_eq, not_lt]
  constructor
  · rintro ⟨⟨c', ⟨⟨i, hi, rfl⟩, hp⟩, rfl, rfl⟩, h0⟩
    refine ⟨⟨i, hi, rfl⟩, h0, ?_⟩
    rw [show 1 + (eq6Brackets h dh Om Ode C z (cvec0 i) ^ (0.33333 : ℝ) - 1)
      = eq6Brackets h dh Om Ode C z (cvec0 i) ^ (0.33333 : ℝ) by ring, ← Real.rpow_mul hp.le,
      mul_one_div_cancel (by norm_num), Real.rpow_one]
    exact key _
  · rintro ⟨⟨i, hi, rfl⟩, h0, he⟩
    have hb : eq6Brackets h dh Om Ode C z (cvec0 i) = (1 + zf) ^ (1 / 0.33333 : ℝ) := by
      have h1 := (key (cvec0 i)).trans he.symm
      have h2 := mul_left_cancel₀ hC.ne' h1
      exact mul_left_cancel₀ hO.ne' (add_right_cancel h2)
    have hz : 0 < 1 + zf := by linarith
    refine ⟨⟨cvec0 i, ⟨⟨i, hi, rfl⟩, ?_⟩, rfl, ?_⟩, h0⟩
    · rw [hb]; positivity
    · rw [hb, ← Real.rpow_mul hz.le, one_div_mul_cancel (by norm_num), Real.rpow_one]; ring

/-- C31: what Ludlow16's concentration solves.  Among the 400 tried concentrations, those with a formation
redshift `zf ≥ 0` according to equation (6) are candidates (and each has exactly one).  If every candidate's
mass fraction exceeds its collapsed fraction (equation 7), the smallest candidate is returned; if every
candidate's is below, the largest; otherwise the value lies between two candidates at which the two fractions are in
opposite order, so it brackets a solution of (6) and (7). -/
theorem C31_ludlow_solves (h D erfc : ℝ → ℝ) {dh Om Ode C z dc den : ℝ} (hC : 0 < C) (hO : 0 < Om)
    (hne : ∃ c zf, IsTried c ∧ FormedAt (1 / 0.33333) (fun c => h 1 / h c) dh Om Ode C z c zf) :
    let M := fun c => h 1 / h c
    let cand := fun c zf => IsTried c ∧ FormedAt (1 / 0.33333) M dh Om Ode C z c zf
    let res := collapseResidual M D erfc dc z den
    (∀ c zf zf', cand c zf → cand c zf' → zf = zf') ∧
    ∃ r, eq7Array (eq7Args h D erfc dc z den (eq7Rows h dh Om Ode C z)) = .ok r ∧
      ((∀ c zf, cand c zf → 0 < res c zf) → (∃ zf, cand r zf) ∧ ∀ c zf, cand c zf → r ≤ c) ∧
      ((∀ c zf, cand c zf → res c zf < 0) → (∃ zf, cand r zf) ∧ ∀ c zf, cand c zf → c ≤ r) ∧
      ((∃ c zf, cand c zf ∧ res c zf ≤ 0) → (∃ c zf, cand c zf ∧ 0 ≤ res c zf) →
        ∃ c zf c' zf', cand c zf ∧ cand c' zf' ∧ res c zf ≤ 0 ∧ 0 ≤ res c' zf' ∧
          min c c' ≤ r ∧ r ≤ max c c') := by
  intro M cand res
  refine ⟨?_, ?_⟩
  · rintro c zf zf' ⟨-, h0, he⟩ ⟨-, h0', he'⟩
    have h1 := mul_left_cancel₀ hC.ne' (he.trans he'.symm)
    have h2 := mul_left_cancel₀ hO.ne' (add_right_cancel h1)
    have := (Real.rpow_left_inj (by linarith) (by linarith) (by norm_num)).1 h2
    linarith
  have hmem : ∀ a c, (a, c) ∈ eq7Args h D erfc dc z den (eq7Rows h dh Om Ode C z) ↔
      ∃ zf, cand c zf ∧ a = res c zf := by
    intro a c
    simp only [eq7Args, List.mem_map, Prod.mk.injEq, Prod.exists]
    constructor
    · rintro ⟨c', zf, hm, rfl, rfl⟩
      refine ⟨zf, (mem_eq7Rows hC hO _ _).1 hm, ?_⟩
      simp only [res, M, collapseResidual, mul_one_div]
    · rintro ⟨zf, hc, rfl⟩
      refine ⟨c, zf, (mem_eq7Rows hC hO _ _).2 hc, ?_, rfl⟩
      simp only [res, M, collapseResidual, mul_one_div]
  have hl : eq7Args h D erfc dc z den (eq7Rows h dh Om Ode C z) ≠ [] := by
    obtain ⟨c, zf, hc⟩ := hne
    exact List.ne_nil_of_mem ((hmem _ c).2 ⟨zf, hc, rfl⟩)
  obtain ⟨r, hr, h1, h2, h3, -⟩ := C31_ludlow_array _ hl
  refine ⟨r, hr, fun hp => ?_, fun hp => ?_, ?_⟩
  · obtain ⟨⟨⟨a, c⟩, hm, rfl⟩, hle⟩ := h1 (fun ⟨a, c⟩ hm => by
      obtain ⟨zf, hc, rfl⟩ := (hmem _ _).1 hm; exact hp c zf hc)
    obtain ⟨zf, hc, -⟩ := (hmem _ _).1 hm
    exact ⟨⟨zf, hc⟩, fun c' zf' hc' => hle _ ((hmem _ _).2 ⟨zf', hc', rfl⟩)⟩
  · obtain ⟨⟨⟨a, c⟩, hm, rfl⟩, hle⟩ := h2 (fun ⟨a, c⟩ hm => by
      obtain ⟨zf, hc, rfl⟩ := (hmem _ _).1 hm; exact hp c zf hc)
    obtain ⟨zf, hc, -⟩ := (hmem _ _).1 hm
    exact ⟨⟨zf, hc⟩, fun c' zf' hc' => hle _ ((hmem _ _).2 ⟨zf', hc', rfl⟩)⟩
  · rintro ⟨c, zf, hc, hle⟩ ⟨c', zf', hc', hle'⟩
    obtain ⟨⟨a, b⟩, hp, ⟨a', b'⟩, hq, q1, q2, q3, q4⟩ :=
      h3 ⟨_, (hmem _ _).2 ⟨zf, hc, rfl⟩, hle⟩ ⟨_, (hmem _ _).2 ⟨zf', hc', rfl⟩, hle'⟩
    obtain ⟨w, hw, rfl⟩ := (hmem _ _).1 hp
    obtain ⟨w', hw', rfl⟩ := (hmem _ _).1 hq
    exact ⟨b, w, b', w', hw, hw', q1, q2, q3, q4⟩

/-- C31 (finding): the rounded exponent `0.33333` is not the cube root: for every candidate, the critical
density at the formation redshift used falls short of the one equation (6) asks for, unless `zf = 0`. -/
theorem C31_ludlow_rounded_root {M : ℝ → ℝ} {dh Om Ode C z c zf : ℝ} (hC : 0 < C) (hO : 0 < Om)
    (hf : FormedAt (1 / 0.33333) M dh Om Ode C z c zf) (hz : 0 < zf) :
    C * (Om * (1 + zf) ^ (3 : ℝ) + Ode) < dh * c ^ 3 * M c * (Om * (1 + z) ^ 3 + Ode) := by
  rw [← hf.2]
  have : (1 + zf) ^ (3 : ℝ) < (1 + zf) ^ (1 / 0.33333 : ℝ) :=
    Real.rpow_lt_rpow_of_exponent_lt (by linarith) (by norm_num)
  gcongr

/-- a halo with a candidate: all mass inside the scale radius, `C = dh = 650`, a concentration of one
forms at the redshift of observation 0. -/
example : IsTried 1 ∧ FormedAt (1 / 0.33333) (fun c => (fun _ => (1 : ℝ)) 1 / (fun _ => (1 : ℝ)) c)
    650 0.3 0.7 650 0 1 0 := by
  refine ⟨⟨0, by norm_num, by norm_num⟩, le_refl _, ?_⟩
  norm_num

/-- C30: `Ludlow16Empirical` at redshift `z` is the redshift-independent relation whose four parameters are
`x_0 (1+z)^{x_z}`; in particular at `z = 0` the exponents `x_z` do not matter. -/
theorem C30_empirical_evolution (p : EmpParams) (dc D m z : ℝ) :
    empirical p dc D m z = empirical { p with
      c0_0 := p.c0_0 * (1 + z) ^ p.c0_z, c0_z := 0, beta_0 := p.beta_0 * (1 + z) ^ p.beta_z, beta_z := 0,
      gamma1_0 := p.gamma1_0 * (1 + z) ^ p.gamma1_z, gamma1_z := 0,
      gamma2_0 := p.gamma2_0 * (1 + z) ^ p.gamma2_z, gamma2_z := 0 } dc D m z := by
  unfold empirical evolve
  simp only [Real.rpow_zero, mul_one]

/-- C30: at the characteristic peak height, where the peak height `dc / sigma` equals `nu_0`, the relation at
`z = 0` is `norm c0 2^{-beta (gamma2 - gamma1)}`. -/
theorem C30_empirical_knee (p : EmpParams) (dc D m : ℝ) (hx : dc / empSig D m / nu0 D 0 = 1) :
    empirical p dc D m 0
      = some (p.norm * p.c0_0 * (2 : ℝ) ^ (-p.beta_0 * (p.gamma2_0 - p.gamma1_0))) := by
  unfold empirical evolve
  simp only [hx, add_zero, Real.one_rpow, mul_one]
  rw [if_neg (by norm_num)]
  norm_num

theorem mapM_each {α : Type} (g : α → Except Err ℝ) (v : α → ℝ) : ∀ l : List α, (∀ a ∈ l, g a = .ok (v a)) → l.mapM g = .ok (l.map v)
  | [], _ => rfl
  | a :: t, h => by
    rw [List.mapM_cons, h a (by simp), mapM_each g v t fun b hb => h b (by simp [hb])]
    rfl

/-- C31: `Ludlow16.cm`: if any tried concentration has a formation redshift, every array of masses gets a concentration for each mass, between `norm` and `100 norm`, which depends
on no other mass of the array. With `S = √(2 (σ(f m)² - σ(m)²))` it is `norm` times the smallest candidate if the mass fraction within the scale radius exceeds the collapsed fraction
at each candidate, `norm` times the largest if it is below at each, and otherwise between `norm` times two candidates at which the two are in opposite order. Asking for one mass as a
number raises in the first two cases and gives the same concentration in the third. -/
theorem C31_ludlow16_cm (norm f C : ℝ) (h D erfc sigma : ℝ → ℝ) (dh Om Ode dc z : ℝ) (hN : 0 < norm) (hC : 0 < C) (hO : 0 < Om)
    (hne : ∃ c zf, IsTried c ∧ FormedAt (1 / 0.33333) (fun c => h 1 / h c) dh Om Ode C z c zf) :
    let cand := fun c zf => IsTried c ∧ FormedAt (1 / 0.33333) (fun c => h 1 / h c) dh Om Ode C z c zf
    let res := fun m => collapseResidual (fun c => h 1 / h c) D erfc dc z (Real.sqrt (2 * (sigma (f * m) ^ 2 - sigma m ^ 2)))
    let number := ludlow16CmScalar norm f C h D erfc sigma dh Om Ode dc z
    ∃ conc : ℝ → ℝ, (∀ ms, ludlow16Cm norm f C h D erfc sigma dh Om Ode dc z ms = .ok (ms.map conc)) ∧
      ∀ m, norm ≤ conc m ∧ conc m ≤ 100 * norm ∧
        ((∀ c zf, cand c zf → 0 < res m c zf) → (∃ c zf, cand c zf ∧ conc m = norm * c) ∧ (∀ c zf, cand c zf → conc m ≤ norm * c) ∧ number m = .error .valueError) ∧
        ((∀ c zf, cand c zf → res m c zf < 0) → (∃ c zf, cand c zf ∧ conc m = norm * c) ∧ (∀ c zf, cand c zf → norm * c ≤ conc m) ∧ number m = .error .valueError) ∧
        ((∃ c zf, cand c zf ∧ res m c zf ≤ 0) → (∃ c zf, cand c zf ∧ 0 ≤ res m c zf) →
          (∃ c zf c' zf', cand c zf ∧ cand c' zf' ∧ res m c zf ≤ 0 ∧ 0 ≤ res m c' zf' ∧ norm * min c c' ≤ conc m ∧ conc m ≤ norm * max c c') ∧ number m = .ok (conc m)) := by
  intro cand res number
  have hrows : eq7Rows h dh Om Ode C z ≠ [] := by
    obtain ⟨c, zf, hc⟩ := hne
    exact List.ne_nil_of_mem ((mem_eq7Rows hC hO c zf).2 hc)
  have hmem : ∀ m a c, (a, c) ∈ ludlow16Table f C h D erfc sigma dh Om Ode dc z m ↔ ∃ zf, cand c zf ∧ a = res m c zf := by
    intro m a c
    simp only [ludlow16Table, eq7Args, List.mem_map, Prod.mk.injEq, Prod.exists]
    constructor
    · rintro ⟨c', zf, hm, h1, rfl⟩
      refine ⟨zf, (mem_eq7Rows hC hO _ _).1 hm, ?_⟩
      rw [← h1]
      simp only [res, collapseResidual]
      try ring_nf
    · rintro ⟨zf, hm, h1⟩
      refine ⟨c, zf, (mem_eq7Rows hC hO _ _).2 hm, ?_, rfl⟩
      rw [h1]
      simp only [res, collapseResidual]
      try ring_nf
  have key : ∀ m, ∃ v, eq7Array (ludlow16Table f C h D erfc sigma dh Om Ode dc z m) = .ok v ∧ 1 ≤ v ∧ v ≤ 100 := fun m =>
    C31_ludlow_range h D erfc dh Om Ode C z dc _ hrows
  choose v hv h1 h2 using key
  have key2 := fun m => (C31_ludlow_solves h D erfc (den := Real.sqrt (2 * (sigma (f * m) ^ 2 - sigma m ^ 2))) (dc := dc) hC hO hne).2
  refine ⟨fun m => norm * v m, fun ms => ?_, fun m => ?_⟩
  · unfold ludlow16Cm
    rw [mapM_each _ v ms fun m _ => hv m]
    simp [Except.map]
  obtain ⟨w, hw, k1, k2, k3⟩ := key2 m
  have hwv : w = v m := by
    have := hw.symm.trans (hv m)
    simpa using this
  subst hwv
  have bad : ((∀ p ∈ ludlow16Table f C h D erfc sigma dh Om Ode dc z m, 0 < p.1) ∨ (∀ p ∈ ludlow16Table f C h D erfc sigma dh Om Ode dc z m, p.1 < 0)) → number m = .error .valueError := fun ha => by
    simp only [number, ludlow16CmScalar]
    rw [(C31_ludlow_scalar _).2 ha]
    rfl
  refine ⟨by nlinarith [h1 m], by nlinarith [h2 m], fun ha => ?_, fun ha => ?_, fun ha hb => ?_⟩
  · obtain ⟨⟨zf, hz⟩, hl⟩ := k1 ha
    refine ⟨⟨_, zf, hz, rfl⟩, fun c zf hc => mul_le_mul_of_nonneg_left (hl c zf hc) hN.le, bad (Or.inl fun p hp => ?_)⟩
    obtain ⟨zf, hc, e⟩ := (hmem m p.1 p.2).1 hp
    rw [e]
    exact ha _ _ hc
  · obtain ⟨⟨zf, hz⟩, hl⟩ := k2 ha
    refine ⟨⟨_, zf, hz, rfl⟩, fun c zf hc => mul_le_mul_of_nonneg_left (hl c zf hc) hN.le, bad (Or.inr fun p hp => ?_)⟩
    obtain ⟨zf, hc, e⟩ := (hmem m p.1 p.2).1 hp
    rw [e]
    exact ha _ _ hc
  · obtain ⟨c, zf, c', zf', a1, a2, a3, a4, a5, a6⟩ := k3 ha hb
    refine ⟨⟨c, zf, c', zf', a1, a2, a3, a4, mul_le_mul_of_nonneg_left a5 hN.le, mul_le_mul_of_nonneg_left a6 hN.le⟩, ?_⟩
    simp only [number, ludlow16CmScalar]
    rw [(C31_ludlow_scalar _).1 ⟨_, (hmem m _ c).2 ⟨zf, a1, rfl⟩, a3⟩ ⟨_, (hmem m _ c').2 ⟨zf', a2, rfl⟩, a4⟩, hv m]
    rfl

/-- the table of tried concentrations is not empty for an isothermal-like profile in a flat universe without dark energy. -/
example : eq7Rows (fun _ => 1) 200 1 0 400 0 ≠ [] := by
  classical
  have hc : cvec0 399 = 100 := by
    unfold cvec0
    rw [show ((2 * (399:ℕ) / 399 : ℝ)) = 2 by norm_num]
    norm_num
  have hb : eq6Brackets (fun _ => 1) 200 1 0 400 0 100 = 500000 := by
    unfold eq6Brackets
    norm_num
  have h1 : ∀ e : ℝ, 0 ≤ e → (0:ℝ) ≤ (500000:ℝ) ^ e - 1 := fun e he => sub_nonneg.2 (Real.one_le_rpow (by norm_num) he)
  refine List.ne_nil_of_mem (a := (100, (500000:ℝ) ^ (0.33333:ℝ) - 1)) ?_
  have h2 := h1 0.33333 (by norm_num)
  unfold eq7Rows
  generalize (0.33333:ℝ) = e at h2 ⊢
  rw [List.mem_filter, List.mem_map]
  refine ⟨⟨100, List.mem_filter.2 ⟨List.mem_map.2 ⟨399, List.mem_range.2 (by norm_num), hc⟩, ?_⟩, ?_⟩, ?_⟩
  · rw [decide_eq_true_eq, hb]
    norm_num
  · rw [hb]
  · rw [decide_eq_true_eq, not_lt]
    exact h2

end Halomod.Concentration
