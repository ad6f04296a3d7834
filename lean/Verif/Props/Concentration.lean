import Verif.Model.Concentration
import Mathlib.Analysis.SpecialFunctions.Pow.Real
import Mathlib.Tactic

/-! # C30-C32: concentration-mass relations -/
namespace Halomod.Concentration

/-! ## C30: power laws -/

/-- C30: a power-law concentration is positive. -/
theorem C30_power_pos {m ms a b c z : ℝ} (hm : 0 < m) (hms : 0 < ms) (ha : 0 < a) (hz : -1 < z) :
    0 < powerCm m ms a b c z := by
  unfold powerCm
  have : 0 < 1 + z := by linarith
  positivity

/-- C30: it falls strictly with mass when `b < 0`. -/
theorem C30_power_mass {m m' ms a b c z : ℝ} (hm : 0 < m) (hmm : m < m') (hms : 0 < ms) (ha : 0 < a)
    (hb : b < 0) (hz : -1 < z) : powerCm m' ms a b c z < powerCm m ms a b c z := by
  unfold powerCm
  have : 0 < 1 + z := by linarith
  apply mul_lt_mul_of_pos_left _ (by positivity)
  exact Real.rpow_lt_rpow_of_neg (by positivity) (by gcongr) hb

/-- C30: it falls strictly with redshift when `c > 0`. -/
theorem C30_power_redshift {m ms a b c z z' : ℝ} (hm : 0 < m) (hms : 0 < ms) (ha : 0 < a)
    (hc : 0 < c) (hz : -1 < z) (hzz : z < z') : powerCm m ms a b c z' < powerCm m ms a b c z := by
  unfold powerCm
  have : 0 < 1 + z := by linarith
  apply mul_lt_mul_of_pos_right _ (by positivity)
  apply div_lt_div_of_pos_left ha (by positivity)
  exact Real.rpow_lt_rpow this.le (by linarith) hc

/-- C30: `Bullock01Power.cm` at the pivot mass and redshift 0 is `norm * a`, whatever the exponents;
an explicitly given non-zero pivot is used. -/
theorem C30_power_pivot (p : PowerParams) (mnl : ℝ → ℝ) {ms : ℝ} (hms : 0 < ms) (h : p.ms = some ms) :
    bullockPower p mnl ms 0 = p.norm * p.a := by
  have : orElse p.ms (mnl 0) = ms := by
    unfold orElse; rw [if_pos ⟨ms, h, hms.ne'⟩, h]; rfl
  unfold bullockPower powerCm
  rw [this, div_self hms.ne']; simp

/-- C30: with no pivot given the pivot is the non-linear mass of that redshift. -/
theorem C30_power_pivot_nonlinear (p : PowerParams) (mnl : ℝ → ℝ) (z : ℝ) (hms : 0 < mnl z)
    (h : p.ms = none) : bullockPower p mnl (mnl z) z = p.norm * p.a / (1 + z) ^ p.c := by
  have : orElse p.ms (mnl z) = mnl z := by
    unfold orElse; rw [if_neg]; rintro ⟨v, hv, _⟩; rw [h] at hv; cases hv
  unfold bullockPower powerCm
  rw [this, div_self hms.ne']; simp [mul_div_assoc]

/-- the pivot used is the given one or the non-linear mass. -/
theorem orElse_pos {x : Option ℝ} {y : ℝ} (hx : ∀ v, x = some v → 0 < v) (hy : x = none → 0 < y) :
    0 < orElse x y := by
  cases x with
  | none => unfold orElse; rw [if_neg (by rintro ⟨v, hv, _⟩; cases hv)]; exact hy rfl
  | some v => unfold orElse; rw [if_pos ⟨v, rfl, (hx v rfl).ne'⟩]; exact hx v rfl

/-- C30: `Bullock01Power` (and `Zehavi11`, which only changes parameters): positive, and strictly
decreasing in mass. -/
theorem C30_bullock_power (p : PowerParams) (mnl : ℝ → ℝ) {m m' z : ℝ} (hm : 0 < m) (hmm : m < m')
    (hz : -1 < z) (ha : 0 < p.a) (hb : p.b < 0) (hn : 0 < p.norm)
    (hms : ∀ v, p.ms = some v → 0 < v) (hnl : p.ms = none → 0 < mnl z) :
    0 < bullockPower p mnl m' z ∧ bullockPower p mnl m' z < bullockPower p mnl m z := by
  have h0 := orElse_pos hms hnl
  constructor
  · exact mul_pos hn (C30_power_pos (hm.trans hmm) h0 ha hz)
  · exact mul_lt_mul_of_pos_left (C30_power_mass hm hmm h0 ha hb hz) hn

/-- C30: `Zehavi11` defaults. -/
theorem C30_zehavi11 (mnl : ℝ → ℝ) {m m' z : ℝ} (hm : 0 < m) (hmm : m < m') (hz : -1 < z) :
    0 < bullockPower zehavi11 mnl m' z ∧
    bullockPower zehavi11 mnl m' z < bullockPower zehavi11 mnl m z ∧
    bullockPower zehavi11 mnl 2.26e12 0 = 11 := by
  obtain ⟨h1, h2⟩ := C30_bullock_power zehavi11 mnl hm hmm hz (by norm_num [zehavi11])
    (by norm_num [zehavi11]) (by norm_num [zehavi11])
    (by intro v hv; simp only [zehavi11, Option.some.injEq] at hv; rw [← hv]; norm_num)
    (by intro h; simp [zehavi11] at h)
  refine ⟨h1, h2, ?_⟩
  rw [C30_power_pivot zehavi11 mnl (ms := 2.26e12) (by norm_num) rfl]
  norm_num [zehavi11]

/-- C30 (finding): when the search for the non-linear mass fails it returns `0`
(concentration.py:172-173), and the concentration is then `0`, not positive. -/
theorem C30_power_failed_pivot (p : PowerParams) (mnl : ℝ → ℝ) (m z : ℝ) (h : p.ms = none)
    (h0 : mnl z = 0) (hb : p.b ≠ 0) : bullockPower p mnl m z = 0 := by
  have : orElse p.ms (mnl z) = 0 := by
    unfold orElse; rw [if_neg, h0]; rintro ⟨v, hv, _⟩; rw [h] at hv; cases hv
  unfold bullockPower powerCm
  rw [this, div_zero, Real.zero_rpow hb]; simp

/-- C30: `Maccio07`: positive, strictly decreasing in mass and (for `gamma > 0`) in redshift, and
`4 norm c_0 / (1+z)^gamma` at `1e11`. -/
theorem C30_maccio {c0 gamma norm m m' z z' : ℝ} (hm : 0 < m) (hmm : m < m') (hz : -1 < z)
    (hzz : z < z') (hc : 0 < c0) (hn : 0 < norm) (hg : 0 < gamma) :
    0 < maccio07 c0 gamma norm m z ∧
    maccio07 c0 gamma norm m' z < maccio07 c0 gamma norm m z ∧
    maccio07 c0 gamma norm m z' < maccio07 c0 gamma norm m z ∧
    maccio07 c0 gamma norm 1e11 z = 4 * norm * c0 / (1 + z) ^ gamma := by
  have h1 : 0 < 1 + z := by linarith
  unfold maccio07
  refine ⟨by positivity, ?_, ?_, ?_⟩
  · apply div_lt_div_of_pos_right _ (by positivity)
    have : (m' * (10 : ℝ) ^ (-11 : ℤ)) ^ (-0.109 : ℝ) < (m * (10 : ℝ) ^ (-11 : ℤ)) ^ (-0.109 : ℝ) :=
      Real.rpow_lt_rpow_of_neg (by positivity) (by gcongr) (by norm_num)
    have h2 : 0 < norm * c0 := by positivity
    nlinarith
  · apply div_lt_div_of_pos_left (by positivity) (by positivity)
    exact Real.rpow_lt_rpow h1.le (by linarith) hg
  · have : (1e11 : ℝ) * (10 : ℝ) ^ (-11 : ℤ) = 1 := by norm_num
    rw [this]; simp; ring

/-! ### Duffy08 -/

/-- The fits of Table 1 of Duffy et al. (2008), NFW, z = 0-2, pivot `2e12`:
`(A, B, C)` in `c = A (M/Mpivot)^B (1+z)^C` (independent transcription; the code writes the redshift
exponent with the opposite sign because it divides). -/
noncomputable def duffyTable : List (String × String × ℝ × ℝ × ℝ) :=
  [("200c", "full", 5.71, -0.084, -0.47), ("200c", "relaxed", 6.71, -0.091, -0.44),
   ("vir", "full", 7.85, -0.081, -0.71), ("vir", "relaxed", 9.23, -0.090, -0.69),
   ("200m", "full", 10.14, -0.081, -1.01), ("200m", "relaxed", 11.93, -0.090, -0.99)]

theorem rowOr_none (r : Row) (f : Row → ℝ) : rowOr none (some r) f = .ok (f r) := by
  unfold rowOr; rw [if_neg]; rintro ⟨v, hv, _⟩; cases hv

theorem rowOr_some {v : ℝ} (hv : v ≠ 0) (r : Option Row) (f : Row → ℝ) :
    rowOr (some v) r f = .ok v := by
  unfold rowOr; rw [if_pos ⟨v, rfl, hv⟩]; rfl

theorem rowOr_bad {x : Option ℝ} (hx : x = none ∨ x = some 0) (f : Row → ℝ) :
    rowOr x none f = .error .typeError := by
  unfold rowOr; rw [if_neg]; rintro ⟨v, hv, h0⟩
  rcases hx with h | h <;> rw [h] at hv <;> cases hv; exact h0 rfl

/-- with no fit parameter given, `Duffy08` evaluates the row of the table. -/
theorem duffy_default {mdef sample : String} {row : Row} (h : duffyRows mdef sample = some row)
    (ms norm m z : ℝ) :
    duffy08 mdef { ms := ms, sample := sample, norm := norm } m z =
      .ok (norm * powerCm m ms row.a row.b row.c z) := by
  simp only [duffy08, h, rowOr_none]

/-- C30: `Duffy08` evaluates the published fit for each of the three mass definitions and both
samples. -/
theorem C30_duffy_published : ∀ t ∈ duffyTable, ∀ m z : ℝ, 0 < m → -1 < z →
    duffy08 t.1 { sample := t.2.1 } m z =
      .ok (t.2.2.1 * (m / 2e12) ^ t.2.2.2.1 * (1 + z) ^ t.2.2.2.2) := by
  intro t ht m z hm hz
  have hz' : 0 < 1 + z := by linarith
  have hr : duffyRows t.1 t.2.1 = some ⟨t.2.2.1, t.2.2.2.1, -t.2.2.2.2⟩ := by
    have n1 : ("relaxed" : String) ≠ "full" := by decide
    have n2 : ("vir" : String) ≠ "200c" := by decide
    have n3 : ("200m" : String) ≠ "200c" := by decide
    have n4 : ("200m" : String) ≠ "vir" := by decide
    simp only [duffyTable, List.mem_cons, List.not_mem_nil, or_false] at ht
    rcases ht with rfl | rfl | rfl | rfl | rfl | rfl <;>
    simp [duffyRows, n1, n2, n3, n4] <;> norm_num
  have := duffy_default hr 2e12 1 m z
  rw [this, one_mul]
  simp only [powerCm]
  rw [Real.rpow_neg hz'.le, div_inv_eq_mul]
  congr 1; ring

/-- C30: any other mass definition silently falls back to the `200c` fit. -/
theorem C30_duffy_fallback {mdef : String} (h1 : mdef ≠ "vir") (h2 : mdef ≠ "200m") (p : DuffyParams)
    (m z : ℝ) : duffy08 mdef p m z = duffy08 "200c" p m z := by
  have : duffyRows mdef = duffyRows "200c" := by
    unfold duffyRows
    by_cases h : mdef = "200c"
    · rw [h]
    · simp [h, h1, h2]
  simp only [duffy08, this]

/-- every row in the table has `a > 0`, `b < 0`, `c > 0`. -/
theorem duffyRows_sign {mdef sample : String} {row : Row} (h : duffyRows mdef sample = some row) :
    0 < row.a ∧ row.b < 0 ∧ 0 < row.c := by
  unfold duffyRows at h
  split_ifs at h <;> (dsimp only at h; split_ifs at h <;> (cases h; norm_num))

/-- a sample name is known exactly if it is one of the two documented names. -/
theorem duffyRows_known (mdef sample : String) :
    (∃ row, duffyRows mdef sample = some row) ↔ sample = "full" ∨ sample = "relaxed" := by
  unfold duffyRows
  by_cases h1 : sample = "full"
  · subst h1; simp; split_ifs <;> simp
  · by_cases h2 : sample = "relaxed"
    · subst h2; simp; split_ifs <;> simp
    · simp [h1, h2]; split_ifs <;> simp [h1, h2]

/-- C30: with default fit parameters `Duffy08` is positive and strictly decreasing in mass and in
redshift, for every mass definition and both documented samples. -/
theorem C30_duffy_monotone (mdef sample : String) (hs : sample = "full" ∨ sample = "relaxed")
    {ms norm m m' z z' : ℝ} (hms : 0 < ms) (hn : 0 < norm) (hm : 0 < m) (hmm : m < m')
    (hz : -1 < z) (hzz : z < z') :
    ∃ c cm cz, duffy08 mdef { ms := ms, sample := sample, norm := norm } m z = .ok c ∧
      duffy08 mdef { ms := ms, sample := sample, norm := norm } m' z = .ok cm ∧
      duffy08 mdef { ms := ms, sample := sample, norm := norm } m z' = .ok cz ∧
      0 < c ∧ cm < c ∧ cz < c := by
  obtain ⟨row, h⟩ := (duffyRows_known mdef sample).2 hs
  obtain ⟨ha, hb, hc⟩ := duffyRows_sign h
  refine ⟨_, _, _, duffy_default h _ _ _ _, duffy_default h _ _ _ _, duffy_default h _ _ _ _,
    mul_pos hn (C30_power_pos hm hms ha hz), ?_, ?_⟩
  · exact mul_lt_mul_of_pos_left (C30_power_mass hm hmm hms ha hb hz) hn
  · exact mul_lt_mul_of_pos_left (C30_power_redshift hm hms ha hc hz hzz) hn

/-- C30: parameters given explicitly and non-zero are the ones used, whatever the mass definition and
sample (even an unknown sample). -/
theorem C30_duffy_explicit_partial (mdef : String) {a b c : ℝ} (ha : a ≠ 0) (hb : b ≠ 0) (hc : c ≠ 0)
    (ms norm m z : ℝ) (sample : String) :
    duffy08 mdef ⟨some a, some b, some c, ms, sample, norm⟩ m z =
      .ok (norm * (a / (1 + z) ^ c * (m / ms) ^ b)) := by
  simp only [duffy08, rowOr_some ha, rowOr_some hb, rowOr_some hc, powerCm]

/-- C30 (finding): an explicit `b = 0` (mass-independent concentration) is ignored: the published
slope is used and the concentration still varies with mass. -/
theorem C30_duffy_zero_ignored (mdef : String) {a c m m' z : ℝ} (ha : 0 < a) (hc : c ≠ 0)
    (hm : 0 < m) (hmm : m < m') (hz : -1 < z) :
    duffy08 mdef { a := some a, b := some 0, c := some c } m z =
      duffy08 mdef { a := some a, b := none, c := some c } m z ∧
    duffy08 mdef { a := some a, b := some 0, c := some c } m' z ≠
      duffy08 mdef { a := some a, b := some 0, c := some c } m z := by
  obtain ⟨row, h⟩ := (duffyRows_known mdef "relaxed").2 (Or.inr rfl)
  obtain ⟨-, hb, -⟩ := duffyRows_sign h
  have e : rowOr (some 0) (some row) Row.b = .ok row.b := by
    unfold rowOr; rw [if_neg]; rintro ⟨v, hv, h0⟩; cases hv; exact h0 rfl
  constructor
  · simp only [duffy08, h, rowOr_some ha.ne', rowOr_some hc, e, rowOr_none]
  · simp only [duffy08, h, rowOr_some ha.ne', rowOr_some hc, e, ne_eq, Except.ok.injEq, one_mul]
    exact (C30_power_mass hm hmm (by norm_num) ha hb hz).ne

/-- C30: an unknown sample name is a `TypeError` exactly when some fit parameter was not given
(or given as 0). -/
theorem C30_duffy_bad_sample (mdef : String) (p : DuffyParams) (hs : p.sample ≠ "full")
    (hs' : p.sample ≠ "relaxed") (m z : ℝ) :
    duffy08 mdef p m z = .error .typeError ↔
      (p.a = none ∨ p.a = some 0) ∨ (p.b = none ∨ p.b = some 0) ∨ (p.c = none ∨ p.c = some 0) := by
  have hrow : duffyRows mdef p.sample = none := by
    by_contra hcon
    obtain ⟨r, hr⟩ := Option.ne_none_iff_exists'.1 hcon
    rcases (duffyRows_known mdef p.sample).1 ⟨r, hr⟩ with h | h <;> contradiction
  have key : ∀ (x : Option ℝ) (f : Row → ℝ), ((x = none ∨ x = some 0) ∧
      rowOr x none f = .error .typeError) ∨ (¬ (x = none ∨ x = some 0) ∧ ∃ v, rowOr x none f = .ok v) := by
    intro x f
    by_cases hx : x = none ∨ x = some 0
    · exact Or.inl ⟨hx, rowOr_bad hx f⟩
    · refine Or.inr ⟨hx, ?_⟩
      cases x with
      | none => exact absurd (Or.inl rfl) hx
      | some v =>
        have : v ≠ 0 := by rintro rfl; exact hx (Or.inr rfl)
        exact ⟨v, rowOr_some this _ _⟩
  simp only [duffy08, hrow]
  rcases key p.a Row.a with ⟨h1, e1⟩ | ⟨h1, v1, e1⟩
  · simp [e1, h1]
  · rcases key p.b Row.b with ⟨h2, e2⟩ | ⟨h2, v2, e2⟩
    · simp [e1, e2, h2]
    · rcases key p.c Row.c with ⟨h3, e3⟩ | ⟨h3, v3, e3⟩
      · simp [e1, e2, e3, h3]
      · simp [e1, e2, e3, h1, h2, h3]

/-! ### Ludlow16Empirical -/

/-- the fitted `sigma(M)` falls strictly with mass. -/
theorem empSig_anti {D m m' : ℝ} (hD : 0 < D) (hm : 0 < m) (hmm : m < m') :
    empSig D m' < empSig D m ∧ 0 < empSig D m' := by
  have hm' := hm.trans hmm
  have key : ∀ x : ℝ, 0 < x → D * 22.26 * x ^ (0.292 : ℝ) /
      (1 + 1.53 * x ^ (0.275 : ℝ) + 3.36 * x ^ (0.198 : ℝ)) =
      D * 22.26 / (x ^ (-0.292 : ℝ) + 1.53 * x ^ (-0.017 : ℝ) + 3.36 * x ^ (-0.094 : ℝ)) := by
    intro x hx
    have e1 : x ^ (0.275 : ℝ) = x ^ (0.292 : ℝ) * x ^ (-0.017 : ℝ) := by
      rw [← Real.rpow_add hx]; norm_num
    have e2 : x ^ (0.198 : ℝ) = x ^ (0.292 : ℝ) * x ^ (-0.094 : ℝ) := by
      rw [← Real.rpow_add hx]; norm_num
    have e3 : (1 : ℝ) = x ^ (0.292 : ℝ) * x ^ (-0.292 : ℝ) := by
      rw [← Real.rpow_add hx]; norm_num
    have h0 : 0 < x ^ (0.292 : ℝ) := by positivity
    have e4 : (1 : ℝ) + 1.53 * x ^ (0.275 : ℝ) + 3.36 * x ^ (0.198 : ℝ) = x ^ (0.292 : ℝ) *
        (x ^ (-0.292 : ℝ) + 1.53 * x ^ (-0.017 : ℝ) + 3.36 * x ^ (-0.094 : ℝ)) := by
      rw [e1, e2]; linear_combination e3
    rw [e4, mul_comm (D * 22.26), mul_div_mul_left _ _ h0.ne']
  have hx : (1e10 : ℝ) / m' < 1e10 / m := div_lt_div_of_pos_left (by norm_num) hm hmm
  have hx0 : (0 : ℝ) < 1e10 / m' := by positivity
  have hx1 : (0 : ℝ) < 1e10 / m := by positivity
  simp only [empSig]
  rw [key _ hx0, key _ hx1]
  constructor
  · apply div_lt_div_of_pos_left (by positivity) (by positivity)
    have a1 := Real.rpow_lt_rpow_of_neg hx0 hx (z := (-0.292 : ℝ)) (by norm_num)
    have a2 := Real.rpow_lt_rpow_of_neg hx0 hx (z := (-0.017 : ℝ)) (by norm_num)
    have a3 := Real.rpow_lt_rpow_of_neg hx0 hx (z := (-0.094 : ℝ)) (by norm_num)
    linarith
  · positivity

/-- the double power law is strictly decreasing for any positive exponents. -/
theorem doublePower_anti {x y g1 g2 be : ℝ} (hx : 0 < x) (hxy : x < y) (h1 : 0 < g1) (h2 : 0 < g2)
    (hb : 0 < be) :
    y ^ (-g1) * (1 + y ^ (1 / be)) ^ (-be * (g2 - g1)) <
      x ^ (-g1) * (1 + x ^ (1 / be)) ^ (-be * (g2 - g1)) := by
  have hy := hx.trans hxy
  rcases le_total g1 g2 with h | h
  · apply mul_lt_mul
    · exact Real.rpow_lt_rpow_of_neg hx hxy (by linarith)
    · apply Real.rpow_le_rpow_of_nonpos (by positivity)
      · have := Real.rpow_lt_rpow hx.le hxy (z := 1 / be) (by positivity)
        linarith
      · nlinarith
    · positivity
    · positivity
  · have key : ∀ t : ℝ, 0 < t → t ^ (-g1) * (1 + t ^ (1 / be)) ^ (-be * (g2 - g1)) =
        t ^ (-g2) * (1 + t ^ (-(1 / be))) ^ (be * (g1 - g2)) := by
      intro t ht
      have e : 1 + t ^ (1 / be) = t ^ (1 / be) * (1 + t ^ (-(1 / be))) := by
        rw [mul_add, ← Real.rpow_add ht, add_neg_cancel, Real.rpow_zero]; ring
      rw [e, Real.mul_rpow (by positivity) (by positivity), ← Real.rpow_mul ht.le, ← mul_assoc,
        ← Real.rpow_add ht]
      have e1 : -g1 + 1 / be * (-be * (g2 - g1)) = -g2 := by field_simp; ring
      rw [e1]; congr 2; ring
    rw [key x hx, key y hy]
    apply mul_lt_mul
    · exact Real.rpow_lt_rpow_of_neg hx hxy (by linarith)
    · apply Real.rpow_le_rpow (by positivity)
      · have := Real.rpow_lt_rpow_of_neg hx hxy (z := -(1 / be)) (by
          have : 0 < 1 / be := by positivity
          linarith)
        linarith
      · have : 0 ≤ g1 - g2 := by linarith
        positivity
    · positivity
    · positivity

/-- C30: `Ludlow16Empirical`: wherever the characteristic peak height is positive, concentrations are
positive numbers, strictly decreasing in mass. -/
theorem C30_empirical (p : EmpParams) {dc D m m' z : ℝ} (hdc : 0 < dc) (hD : 0 < D) (hm : 0 < m)
    (hmm : m < m') (hz : -1 < z) (hn : 0 < p.norm) (h0 : 0 < p.c0_0) (hb : 0 < p.beta_0)
    (h1 : 0 < p.gamma1_0) (h2 : 0 < p.gamma2_0) (hnu : 0 < nu0 D z) :
    ∃ c c', empirical p dc D m z = some c ∧ empirical p dc D m' z = some c' ∧ 0 < c' ∧ c' < c := by
  have hz' : 0 < 1 + z := by linarith
  obtain ⟨hs, hs'⟩ := empSig_anti hD hm hmm
  have hx : 0 < dc / empSig D m / nu0 D z := by have := hs'.trans hs; positivity
  have hxy : dc / empSig D m / nu0 D z < dc / empSig D m' / nu0 D z := by gcongr
  have hy := hx.trans hxy
  have e1 : 0 < evolve p.gamma1_0 p.gamma1_z z := by unfold evolve; positivity
  have e2 : 0 < evolve p.gamma2_0 p.gamma2_z z := by unfold evolve; positivity
  have e3 : 0 < evolve p.beta_0 p.beta_z z := by unfold evolve; positivity
  have e4 : 0 < evolve p.c0_0 p.c0_z z := by unfold evolve; positivity
  have hc := doublePower_anti hx hxy e1 e2 e3
  simp only [empirical, if_neg hx.not_gt, if_neg hy.not_gt]
  refine ⟨_, _, rfl, rfl, by positivity, ?_⟩
  rw [mul_assoc _ (_ ^ _), mul_assoc _ (_ ^ _)]
  exact mul_lt_mul_of_pos_left hc (by positivity)

/-- C30: that is the case for every redshift from 0 to 7. -/
theorem C30_empirical_range {D z : ℝ} (hD : 0 < D) (h0 : 0 ≤ z) (h7 : z ≤ 7) : 0 < nu0 D z := by
  unfold nu0
  have : 1 + z ≠ 0 := by linarith
  simp only [one_div]
  apply div_pos _ hD
  have e : (4.135 : ℝ) - 0.564 / (1 + z)⁻¹ - 0.21 / (1 + z)⁻¹ ^ 2 + 0.0557 / (1 + z)⁻¹ ^ 3
      - 0.00348 / (1 + z)⁻¹ ^ 4 = 4.135 - 0.564 * (1 + z) - 0.21 * (1 + z) ^ 2 + 0.0557 * (1 + z) ^ 3
      - 0.00348 * (1 + z) ^ 4 := by field_simp
  rw [e]
  have a1 : 0 ≤ z := h0
  have a2 : 0 ≤ 7 - z := by linarith
  nlinarith [mul_nonneg a1 a2, mul_nonneg (mul_nonneg a1 a2) (sq_nonneg (z - 4)), sq_nonneg (z - 5),
    sq_nonneg (z * (z - 5)), mul_nonneg (mul_nonneg a1 a2) a1, mul_nonneg (mul_nonneg a1 a2) a2]

/-- C30 (finding): at redshift 8 (and any `D`, `m`) `Ludlow16Empirical` is not a number. -/
theorem C30_empirical_nan (p : EmpParams) {dc D m : ℝ} (hdc : 0 < dc) (hD : 0 < D) (hm : 0 < m) :
    empirical p dc D m 8 = none := by
  have hs := (empSig_anti hD (half_pos hm) (half_lt_self hm)).2
  have : nu0 D 8 < 0 := by
    unfold nu0; norm_num; apply div_neg_of_neg_of_pos (by norm_num) hD
  simp only [empirical]
  rw [if_pos]
  exact div_neg_of_pos_of_neg (by positivity) this


/-! ## Linear interpolation -/

theorem npInterp_mem_range : ∀ (l : List (ℝ × ℝ)) (v lo hi : ℝ), l ≠ [] →
    (∀ p ∈ l, lo ≤ p.2 ∧ p.2 ≤ hi) → (∀ p ∈ l.head?, p.1 ≤ v) → lo ≤ npInterp l v ∧ npInterp l v ≤ hi
  | [], _, _, _, h, _, _ => absurd rfl h
  | [p], v, lo, hi, _, hl, _ => by simpa [npInterp] using hl p (by simp)
  | p :: q :: t, v, lo, hi, _, hl, hv => by
    have hp : p.1 ≤ v := hv p (by simp)
    obtain ⟨a1, a2⟩ := hl p (by simp)
    obtain ⟨b1, b2⟩ := hl q (by simp)
    rw [npInterp]
    by_cases h : v < q.1
    · rw [if_pos h]
      by_cases h' : v = p.1
      · rw [if_pos h']; exact ⟨a1, a2⟩
      · rw [if_neg h']
        have h3 : p.1 < v := lt_of_le_of_ne hp (Ne.symm h')
        have h4 : 0 < q.1 - p.1 := by linarith
        have e : (q.2 - p.2) / (q.1 - p.1) * (v - p.1) + p.2 =
            ((q.1 - v) * p.2 + (v - p.1) * q.2) / (q.1 - p.1) := by field_simp; ring
        rw [e]
        constructor
        · rw [le_div_iff₀ h4]; nlinarith
        · rw [div_le_iff₀ h4]; nlinarith
    · rw [if_neg h]
      exact npInterp_mem_range (q :: t) v lo hi (by simp)
        (fun p' hp' => hl p' (List.mem_cons_of_mem _ hp')) (by simpa using h)

/-- on sorted samples, an abscissa that is a sample returns the ordinate of a sample there. -/
theorem npInterp_node : ∀ (l : List (ℝ × ℝ)) (v : ℝ), l.Pairwise (fun p q => p.1 ≤ q.1) →
    (∃ y, (v, y) ∈ l) → (v, npInterp l v) ∈ l
  | [], _, _, ⟨_, h⟩ => by simp at h
  | [p], v, _, ⟨y, h⟩ => by
    simp only [List.mem_singleton] at h
    subst h; simp [npInterp]
  | p :: q :: t, v, hs, ⟨y, h⟩ => by
    rw [npInterp]
    have hs' := List.pairwise_cons.1 hs
    by_cases hq : v < q.1
    · rw [if_pos hq]
      have hvp : v = p.1 := by
        rcases List.mem_cons.1 h with h | h
        · rw [← h]
        · exfalso
          have hq2 := (List.pairwise_cons.1 hs'.2).1
          rcases List.mem_cons.1 h with h | h
          · rw [← h] at hq; exact lt_irrefl _ hq
          · exact absurd (hq2 _ h) (not_le.2 hq)
      rw [if_pos hvp, hvp]; simp
    · rw [if_neg hq]
      by_cases hy : ∃ y', (v, y') ∈ q :: t
      · exact List.mem_cons_of_mem _ (npInterp_node (q :: t) v hs'.2 hy)
      · exfalso
        have hp : (v, y) = p := by
          rcases List.mem_cons.1 h with h | h
          · exact h
          · exact absurd ⟨y, h⟩ hy
        have h1 := hs'.1 q (by simp)
        have h2 : v = p.1 := by rw [← hp]
        have h3 : q.1 = v := le_antisymm (not_lt.1 hq) (h2 ▸ h1)
        exact hy ⟨q.2, by rw [← h3]; simp⟩

/-- on sorted samples reaching from `≤ v` to `≥ v`, the value lies between the ordinates of two samples whose
abscissae bracket `v`. -/
theorem npInterp_bracket : ∀ (l : List (ℝ × ℝ)) (v : ℝ), l.Pairwise (fun p q => p.1 ≤ q.1) →
    (∀ p ∈ l.head?, p.1 ≤ v) → (∃ p ∈ l, v ≤ p.1) →
    ∃ p ∈ l, ∃ q ∈ l, p.1 ≤ v ∧ v ≤ q.1 ∧
      min p.2 q.2 ≤ npInterp l v ∧ npInterp l v ≤ max p.2 q.2
  | [], _, _, _, ⟨_, h, _⟩ => by simp at h
  | [p], v, _, hv, ⟨q, h, hq⟩ => by
    simp only [List.mem_singleton] at h; subst h
    exact ⟨q, by simp, q, by simp, hv q (by simp), hq, by simp [npInterp], by simp [npInterp]⟩
  | p :: q :: t, v, hs, hv, ⟨w, hw, hvw⟩ => by
    have hp : p.1 ≤ v := hv p (by simp)
    by_cases h : v < q.1
    · refine ⟨p, by simp, q, by simp, hp, h.le, ?_⟩
      have := npInterp_mem_range [p, q] v (min p.2 q.2) (max p.2 q.2) (by simp)
        (by simp) (by simpa using hp)
      have e : npInterp (p :: q :: t) v = npInterp [p, q] v := by
        rw [npInterp, npInterp, if_pos h, if_pos h]
      rw [e]; exact this
    · have hs' := List.pairwise_cons.1 hs
      have hw' : ∃ p' ∈ q :: t, v ≤ p'.1 := by
        rcases List.mem_cons.1 hw with rfl | hw
        · exact ⟨q, by simp, (hvw.trans (hs'.1 q (by simp)))⟩
        · exact ⟨w, hw, hvw⟩
      obtain ⟨a, ha, b, hb, h1, h2, h3⟩ := npInterp_bracket (q :: t) v hs'.2 (by simpa using h) hw'
      refine ⟨a, List.mem_cons_of_mem _ ha, b, List.mem_cons_of_mem _ hb, h1, h2, ?_⟩
      rw [npInterp, if_neg h]; exact h3

theorem sortSamples_mem (l : List (ℝ × ℝ)) (p : ℝ × ℝ) : p ∈ sortSamples l ↔ p ∈ l := by
  unfold sortSamples; exact List.mem_insertionSort _

theorem sortSamples_sorted (l : List (ℝ × ℝ)) :
    (sortSamples l).Pairwise (fun p q => p.1 ≤ q.1) := by
  classical
  unfold sortSamples
  have : Std.Total (fun p q : ℝ × ℝ => p.1 ≤ q.1) := ⟨fun p q => le_total p.1 q.1⟩
  have : IsTrans (ℝ × ℝ) (fun p q : ℝ × ℝ => p.1 ≤ q.1) := ⟨fun p q r h h' => le_trans h h'⟩
  exact List.pairwise_insertionSort (fun p q : ℝ × ℝ => p.1 ≤ q.1) l

theorem head_le {l : List (ℝ × ℝ)} (hs : l.Pairwise (fun p q => p.1 ≤ q.1)) {v : ℝ}
    (h : ∃ p ∈ l, p.1 ≤ v) : ∀ p ∈ l.head?, p.1 ≤ v := by
  cases l with
  | nil => simp
  | cons a t =>
    intro p hp
    simp only [List.head?_cons, Option.mem_def, Option.some.injEq] at hp
    subst hp
    obtain ⟨q, hq, hqv⟩ := h
    rcases List.mem_cons.1 hq with rfl | hq
    · exact hqv
    · exact ((List.pairwise_cons.1 hs).1 q hq).trans hqv

/-- inside the sampled range `interp1d` returns a value between the ordinates of two samples that bracket the
argument. -/
theorem interp_bracket (l : List (ℝ × ℝ)) (v : ℝ) (h1 : ∃ p ∈ l, p.1 ≤ v) (h2 : ∃ p ∈ l, v ≤ p.1) :
    ∃ p ∈ l, ∃ q ∈ l, p.1 ≤ v ∧ v ≤ q.1 ∧ min p.2 q.2 ≤ npInterp (sortSamples l) v ∧
      npInterp (sortSamples l) v ≤ max p.2 q.2 := by
  have hs := sortSamples_sorted l
  have h1' : ∃ p ∈ sortSamples l, p.1 ≤ v := by
    obtain ⟨p, hp, h⟩ := h1; exact ⟨p, (sortSamples_mem l p).2 hp, h⟩
  have h2' : ∃ p ∈ sortSamples l, v ≤ p.1 := by
    obtain ⟨p, hp, h⟩ := h2; exact ⟨p, (sortSamples_mem l p).2 hp, h⟩
  obtain ⟨p, hp, q, hq, h⟩ := npInterp_bracket _ v hs (head_le hs h1') h2'
  exact ⟨p, (sortSamples_mem l p).1 hp, q, (sortSamples_mem l q).1 hq, h⟩

theorem interpFill_range (l : List (ℝ × ℝ)) (flo fhi v lo hi : ℝ) (hl : ∀ p ∈ l, lo ≤ p.2 ∧ p.2 ≤ hi)
    (h1 : lo ≤ flo ∧ flo ≤ hi) (h2 : lo ≤ fhi ∧ fhi ≤ hi) :
    lo ≤ interpFill l flo fhi v ∧ interpFill l flo fhi v ≤ hi := by
  unfold interpFill
  split_ifs with ha hb
  · exact h1
  · exact h2
  · push Not at ha hb
    obtain ⟨p, hp, q, hq, -, -, h3, h4⟩ := interp_bracket l v ha hb
    exact ⟨le_trans (le_min (hl p hp).1 (hl q hq).1) h3, h4.trans (max_le (hl p hp).2 (hl q hq).2)⟩

/-- a sampled abscissa returns the ordinate of one of the samples there. -/
theorem interpFill_node (l : List (ℝ × ℝ)) (flo fhi v : ℝ) (h : ∃ y, (v, y) ∈ l) :
    (v, interpFill l flo fhi v) ∈ l := by
  obtain ⟨y, hy⟩ := h
  unfold interpFill
  rw [if_neg, if_neg]
  · exact (sortSamples_mem l _).1 (npInterp_node _ v (sortSamples_sorted l)
      ⟨y, (sortSamples_mem l _).2 hy⟩)
  · intro h; exact lt_irrefl _ (h _ hy)
  · intro h; exact lt_irrefl _ (h _ hy)

/-! ## C31 -/

/-- C31: `interp_concentration` keeps the length, is positive everywhere, and at a mass whose raw concentration is
positive returns that value (masses may repeat, if repeated masses have equal raw values; no ordering of the masses is
assumed; the raw values may be anything). -/
theorem C31_interp (m c : List ℝ) (hlen : m.length = c.length)
    (hfun : ∀ x y y', (x, y) ∈ m.zip c → (x, y') ∈ m.zip c → y = y') :
    (interpConc m c).length = m.length ∧
    (∀ v ∈ interpConc m c, 0 < v) ∧
    (∀ i (hi : i < m.length), 0 < c[i]'(hlen ▸ hi) → (interpConc m c)[i]? = some (c[i]'(hlen ▸ hi))) := by
  classical
  have hpos : ∀ l : List (ℝ × ℝ), (∀ p ∈ l, 0 < p.2) → ∀ v, 0 < interpFill l 1 1 v := by
    intro l hl v
    unfold interpFill
    split_ifs with ha hb
    · norm_num
    · norm_num
    · push Not at ha hb
      obtain ⟨p, hp, q, hq, -, -, h3, -⟩ := interp_bracket l v ha hb
      exact lt_of_lt_of_le (lt_min (hl p hp) (hl q hq)) h3
  refine ⟨?_, ?_, ?_⟩
  · unfold interpConc; dsimp only; split_ifs <;> simp
  · intro v hv
    unfold interpConc at hv; dsimp only at hv
    split_ifs at hv
    · simp only [List.mem_map] at hv; obtain ⟨_, _, rfl⟩ := hv; norm_num
    · simp only [List.mem_map] at hv
      obtain ⟨x, _, rfl⟩ := hv
      apply hpos
      intro p hp
      simpa using (List.mem_filter.1 hp).2
  · intro i hi hci
    have hic : i < c.length := hlen ▸ hi
    have hz : (m[i], c[i]) ∈ m.zip c := by
      have : i < (m.zip c).length := by simp; omega
      have e : (m.zip c)[i] = (m[i], c[i]) := by simp
      rw [← e]; exact List.getElem_mem this
    have hg : (m[i], c[i]) ∈ (m.zip c).filter (fun p => 0 < p.2) :=
      List.mem_filter.2 ⟨hz, by simpa using hci⟩
    unfold interpConc; dsimp only
    rw [if_neg (by intro h0; rw [List.length_eq_zero_iff] at h0; simp [h0] at hg)]
    rw [List.getElem?_map, List.getElem?_eq_getElem hi]
    simp only [Option.map_some, Option.some.injEq]
    have h := interpFill_node _ 1 1 m[i] ⟨_, hg⟩
    exact hfun _ _ _ (List.mem_filter.1 h).1 hz

/-- non-vacuity: three masses, the middle one with an undefined (zero) concentration. -/
example : (interpConc [1, 2, 4] [8, 0, 5]).length = 3 ∧ (∀ v ∈ interpConc [1, 2, 4] [8, 0, 5], 0 < v) ∧
    (interpConc [1, 2, 4] [8, 0, 5])[2]? = some 5 := by
  have h := C31_interp [1, 2, 4] [8, 0, 5] rfl (by
    intro x y y' h h'
    simp only [List.zip_cons_cons, List.zip_nil_right, List.mem_cons, Prod.mk.injEq,
      List.not_mem_nil, or_false] at h h'
    rcases h with ⟨h1, h2⟩ | ⟨h1, h2⟩ | ⟨h1, h2⟩ <;> rcases h' with ⟨h3, h4⟩ | ⟨h3, h4⟩ | ⟨h3, h4⟩ <;>
      first | (rw [h2, h4]; done) | (rw [h1] at h3; norm_num at h3))
  exact ⟨h.1, h.2.1, h.2.2 2 (by simp) (by norm_num)⟩

/-- C31: a mass with no valid concentration of its own, between valid masses, gets a value between those of two valid
masses on either side. -/
theorem C31_interp_between (m c : List ℝ) {v : ℝ}
    (h1 : ∃ p ∈ m.zip c, 0 < p.2 ∧ p.1 ≤ v) (h2 : ∃ p ∈ m.zip c, 0 < p.2 ∧ v ≤ p.1) :
    ∃ r, (∀ i : ℕ, m[i]? = some v → (interpConc m c)[i]? = some r) ∧
      ∃ p ∈ m.zip c, ∃ q ∈ m.zip c, 0 < p.2 ∧ 0 < q.2 ∧ p.1 ≤ v ∧ v ≤ q.1 ∧
        min p.2 q.2 ≤ r ∧ r ≤ max p.2 q.2 := by
  classical
  set good := (m.zip c).filter (fun p => 0 < p.2) with hgood
  have hmem : ∀ p, p ∈ good ↔ p ∈ m.zip c ∧ 0 < p.2 := by
    intro p; rw [hgood, List.mem_filter]; simp
  have h1' : ∃ p ∈ good, p.1 ≤ v := by
    obtain ⟨p, hp, h0, h⟩ := h1; exact ⟨p, (hmem p).2 ⟨hp, h0⟩, h⟩
  have h2' : ∃ p ∈ good, v ≤ p.1 := by
    obtain ⟨p, hp, h0, h⟩ := h2; exact ⟨p, (hmem p).2 ⟨hp, h0⟩, h⟩
  refine ⟨interpFill good 1 1 v, ?_, ?_⟩
  · intro i hi
    have hne : ¬ good.length = 0 := by
      obtain ⟨p, hp, _⟩ := h1'
      intro h0; rw [List.length_eq_zero_iff] at h0; rw [h0] at hp; simp at hp
    have : interpConc m c = m.map (interpFill good 1 1) := by
      unfold interpConc; dsimp only; rw [← hgood, if_neg hne]
    rw [this, List.getElem?_map, hi]; rfl
  · obtain ⟨p, hp, q, hq, h3, h4, h5, h6⟩ := interp_bracket good v h1' h2'
    have e : interpFill good 1 1 v = npInterp (sortSamples good) v := by
      unfold interpFill
      rw [if_neg, if_neg]
      · push Not; exact h2'
      · push Not; exact h1'
    rw [e]
    exact ⟨p, ((hmem p).1 hp).1, q, ((hmem q).1 hq).1, ((hmem p).1 hp).2, ((hmem q).1 hq).2, h3, h4,
      h5, h6⟩

theorem arrMin_mem : ∀ l : List ℝ, l ≠ [] → arrMin l ∈ l ∧ ∀ x ∈ l, arrMin l ≤ x
  | [], h => absurd rfl h
  | [a], _ => by simp [arrMin]
  | a :: b :: t, _ => by
    obtain ⟨h1, h2⟩ := arrMin_mem (b :: t) (by simp)
    have e : arrMin (a :: b :: t) = min a (arrMin (b :: t)) := rfl
    rw [e]
    constructor
    · rcases min_choice a (arrMin (b :: t)) with h | h <;> rw [h]
      · simp
      · exact List.mem_cons_of_mem _ h1
    · intro x hx
      rcases List.mem_cons.1 hx with rfl | hx
      · exact min_le_left _ _
      · exact (min_le_right _ _).trans (h2 x hx)

theorem arrMax_mem : ∀ l : List ℝ, l ≠ [] → arrMax l ∈ l ∧ ∀ x ∈ l, x ≤ arrMax l
  | [], h => absurd rfl h
  | [a], _ => by simp [arrMax]
  | a :: b :: t, _ => by
    obtain ⟨h1, h2⟩ := arrMax_mem (b :: t) (by simp)
    have e : arrMax (a :: b :: t) = max a (arrMax (b :: t)) := rfl
    rw [e]
    constructor
    · rcases max_choice a (arrMax (b :: t)) with h | h <;> rw [h]
      · simp
      · exact List.mem_cons_of_mem _ h1
    · intro x hx
      rcases List.mem_cons.1 hx with rfl | hx
      · exact le_max_left _ _
      · exact (h2 x hx).trans (le_max_right _ _)

theorem filter_len_zero {l : List (ℝ × ℝ)} {P : ℝ × ℝ → Prop} [DecidablePred P] :
    (l.filter (fun p => P p)).length = 0 ↔ ∀ p ∈ l, ¬ P p := by
  rw [List.length_eq_zero_iff, List.filter_eq_nil_iff]; simp

/-- C31: Ludlow16's array evaluation of a non-empty table never raises, and its value lies inside the tabulated
concentrations: the smallest one if the equation's residual is positive throughout, the largest if it is negative
throughout, and otherwise between two tabulated concentrations at which the residual has opposite signs. -/
theorem C31_ludlow_array (l : List (ℝ × ℝ)) (hl : l ≠ []) :
    ∃ r, eq7Array l = .ok r ∧
      ((∀ p ∈ l, 0 < p.1) → (∃ p ∈ l, r = p.2) ∧ ∀ p ∈ l, r ≤ p.2) ∧
      ((∀ p ∈ l, p.1 < 0) → (∃ p ∈ l, r = p.2) ∧ ∀ p ∈ l, p.2 ≤ r) ∧
      ((∃ p ∈ l, p.1 ≤ 0) → (∃ p ∈ l, 0 ≤ p.1) →
        ∃ p ∈ l, ∃ q ∈ l, p.1 ≤ 0 ∧ 0 ≤ q.1 ∧ min p.2 q.2 ≤ r ∧ r ≤ max p.2 q.2) ∧
      (∃ p ∈ l, p.2 ≤ r) ∧ (∃ p ∈ l, r ≤ p.2) := by
  classical
  obtain ⟨p0, hp0⟩ := List.exists_mem_of_ne_nil l hl
  have hne : l.map Prod.snd ≠ [] := by simpa using hl
  unfold eq7Array
  by_cases h1 : ∀ p ∈ l, ¬ p.1 ≤ 0
  · rw [if_pos (filter_len_zero.2 h1), if_neg hl]
    obtain ⟨a1, a2⟩ := arrMin_mem _ hne
    obtain ⟨p, hp, hpe⟩ := List.mem_map.1 a1
    refine ⟨_, rfl, fun _ => ⟨⟨p, hp, hpe.symm⟩, fun q hq => a2 _ (List.mem_map_of_mem hq)⟩, ?_, ?_,
      ⟨p, hp, hpe.le⟩, ⟨p, hp, hpe.ge⟩⟩
    · intro h; exact absurd (h p0 hp0).le (h1 p0 hp0)
    · rintro ⟨q, hq, hq'⟩; exact absurd hq' (h1 q hq)
  · rw [if_neg (fun h => h1 (filter_len_zero.1 h))]
    push Not at h1
    by_cases h2 : ∀ p ∈ l, ¬ 0 ≤ p.1
    · rw [if_pos (filter_len_zero.2 h2)]
      obtain ⟨a1, a2⟩ := arrMax_mem _ hne
      obtain ⟨p, hp, hpe⟩ := List.mem_map.1 a1
      refine ⟨_, rfl, ?_, fun _ => ⟨⟨p, hp, hpe.symm⟩, fun q hq => a2 _ (List.mem_map_of_mem hq)⟩, ?_,
        ⟨p, hp, hpe.le⟩, ⟨p, hp, hpe.ge⟩⟩
      · intro h; exact absurd (h p0 hp0).le (h2 p0 hp0)
      · rintro _ ⟨q, hq, hq'⟩; exact absurd hq' (h2 q hq)
    · rw [if_neg (fun h => h2 (filter_len_zero.1 h))]
      push Not at h2
      obtain ⟨p, hp, q, hq, h3, h4, h5, h6⟩ := interp_bracket l 0 h1 h2
      refine ⟨npInterp (sortSamples l) 0, ?_, ?_, ?_, fun _ _ => ⟨p, hp, q, hq, h3, h4, h5, h6⟩, ?_, ?_⟩
      · unfold interpStrict
        rw [if_neg]
        push Not
        exact ⟨h1, h2⟩
      · intro h; obtain ⟨w, hw, hw'⟩ := h1; exact absurd (h w hw) (not_lt.2 hw')
      · intro h; obtain ⟨w, hw, hw'⟩ := h2; exact absurd (h w hw) (not_lt.2 hw')
      · rcases min_choice p.2 q.2 with h | h <;> rw [h] at h5
        · exact ⟨p, hp, h5⟩
        · exact ⟨q, hq, h5⟩
      · rcases max_choice p.2 q.2 with h | h <;> rw [h] at h6
        · exact ⟨p, hp, h6⟩
        · exact ⟨q, hq, h6⟩

/-- C31 (finding): the scalar evaluation agrees with the array one only when the residual changes sign in the table;
otherwise it raises `ValueError` where the array evaluation returns an end of the table. -/
theorem C31_ludlow_scalar (l : List (ℝ × ℝ)) :
    ((∃ p ∈ l, p.1 ≤ 0) → (∃ p ∈ l, 0 ≤ p.1) → eq7Scalar l = eq7Array l) ∧
    ((∀ p ∈ l, 0 < p.1) ∨ (∀ p ∈ l, p.1 < 0) → eq7Scalar l = .error .valueError) := by
  classical
  constructor
  · intro h1 h2
    unfold eq7Scalar eq7Array
    rw [if_neg, if_neg]
    · intro h
      obtain ⟨p, hp, hp'⟩ := h2
      exact filter_len_zero.1 h p hp hp'
    · intro h
      obtain ⟨p, hp, hp'⟩ := h1
      exact filter_len_zero.1 h p hp hp'
  · intro h
    unfold eq7Scalar interpStrict
    rw [if_pos h]

/-- C31 (finding): with an integer mass array the stored concentration is truncated to an integer. -/
theorem C31_ludlow_int (v : ℝ) (hv : 0 ≤ v) :
    storeAs false v = v ∧ storeAs true v ≤ v ∧ v < storeAs true v + 1 ∧ ∃ n : ℤ, storeAs true v = n := by
  simp only [storeAs, if_pos hv]
  exact ⟨by simp, by simpa using Int.floor_le v, by simp, ⌊v⌋, by simp⟩

/-- C31: each tabulated candidate of Ludlow16 lies in `[1, 100]` and has a non-negative formation redshift, so the
returned concentration lies in `[1, 100]` whenever the table is not empty. -/
theorem C31_ludlow_range (h D erfc : ℝ → ℝ) (dh Om Ode C z dc den : ℝ)
    (hne : eq7Rows h dh Om Ode C z ≠ []) :
    ∃ r, eq7Array (eq7Args h D erfc dc z den (eq7Rows h dh Om Ode C z)) = .ok r ∧ 1 ≤ r ∧ r ≤ 100 := by
  classical
  have hc : ∀ p ∈ eq7Args h D erfc dc z den (eq7Rows h dh Om Ode C z), 1 ≤ p.2 ∧ p.2 ≤ 100 := by
    intro p hp
    simp only [eq7Args, List.mem_map] at hp
    obtain ⟨q, hq, rfl⟩ := hp
    simp only [eq7Rows, List.mem_filter, List.mem_map, List.mem_range] at hq
    obtain ⟨⟨c, ⟨⟨i, hi, rfl⟩, _⟩, rfl⟩, _⟩ := hq
    simp only [cvec0]
    have hi' : (i : ℝ) ≤ 399 := by exact_mod_cast (by omega : i ≤ 399)
    constructor
    · apply Real.one_le_rpow (by norm_num) (by positivity)
    · calc (10 : ℝ) ^ ((2 * i / 399 : ℝ)) ≤ (10 : ℝ) ^ (2 : ℝ) := by
            apply Real.rpow_le_rpow_of_exponent_le (by norm_num)
            rw [div_le_iff₀ (by norm_num)]; linarith
        _ = 100 := by norm_num
  have hne' : eq7Args h D erfc dc z den (eq7Rows h dh Om Ode C z) ≠ [] := by
    simpa [eq7Args] using hne
  obtain ⟨r, hr, -, -, -, ⟨p, hp, hp'⟩, ⟨q, hq, hq'⟩⟩ := C31_ludlow_array _ hne'
  exact ⟨r, hr, (hc p hp).1.trans hp', hq'.trans (hc q hq).2⟩

/-! ## C32: Bullock01 -/

theorem accMin_mem (mn : ℝ) : ∀ l : List ℝ, (accMin l mn).length = l.length ∧
    ∀ x ∈ accMin l mn, x ∈ l ∨ x = mn
  | [] => by simp [accMin]
  | a :: t => by
    obtain ⟨h1, h2⟩ := accMin_mem mn t
    rw [accMin]
    split_ifs with h
    · simp
    · refine ⟨by simp [h1], ?_⟩
      intro x hx
      rcases List.mem_cons.1 hx with rfl | hx
      · simp
      · rcases h2 x hx with h | h <;> simp [h]

/-- for entries already in decreasing order the accumulation changes nothing. -/
theorem accMin_sorted (mn : ℝ) : ∀ l : List ℝ, l.Pairwise (fun a b => b ≤ a) → (∀ x ∈ l, mn ≤ x) →
    accMin l mn = l
  | [], _, _ => by simp [accMin]
  | a :: t, hs, hm => by
    obtain ⟨h1, h2⟩ := List.pairwise_cons.1 hs
    rw [accMin]
    split_ifs with h
    · subst h
      congr 1
      conv_rhs => rw [← List.map_id t]
      apply List.map_congr_left
      intro x hx
      exact le_antisymm (hm x (by simp [hx])) (h1 x hx)
    · rw [accMin_sorted mn t h2 (fun x hx => hm x (by simp [hx]))]

theorem zFine_nonneg (i : ℕ) : 0 ≤ zFine i := by unfold zFine; positivity

theorem zFine_range {i : ℕ} (hi : i ≤ 4999) : 0 ≤ zFine i ∧ zFine i ≤ 50 := by
  unfold zFine
  have : (i : ℝ) ≤ 4999 := by exact_mod_cast hi
  constructor
  · positivity
  · rw [div_le_iff₀ (by norm_num)]; linarith

/-- the inverse growth factor is a redshift in `[0, 50]`, for any growth function. -/
theorem growthInv_range (D : ℝ → ℝ) (v : ℝ) : 0 ≤ growthInv D v ∧ growthInv D v ≤ 50 := by
  unfold growthInv
  apply interpFill_range
  · intro p hp
    simp only [List.mem_reverse, List.mem_map, List.mem_range] at hp
    obtain ⟨i, hi, rfl⟩ := hp
    exact zFine_range (by omega)
  · exact zFine_range (le_refl _)
  · norm_num

/-- C32: one collapse redshift per mass, each at least the halo redshift and at most 50 (or the halo redshift itself
when that is above 50). -/
theorem C32_zc (F : ℝ) (nu D : ℝ → ℝ) (m : List ℝ) (z : ℝ) :
    (bullockZc F nu D m z).length = m.length ∧
    ∀ x ∈ bullockZc F nu D m z, z ≤ x ∧ x ≤ max z 50 := by
  classical
  constructor
  · simp [bullockZc, clampLow, (accMin_mem _ _).1]
  · intro x hx
    simp only [bullockZc, clampLow, List.mem_map] at hx
    obtain ⟨y, hy, rfl⟩ := hx
    have hm : m ≠ [] := by
      rintro rfl; simp [accMin] at hy
    have hne : (m.map (fun x => growthInv D (Real.sqrt (nu (F * x))))) ≠ [] := by simpa using hm
    have hall : ∀ w ∈ m.map (fun x => growthInv D (Real.sqrt (nu (F * x)))), w ≤ 50 := by
      intro w hw
      obtain ⟨_, _, rfl⟩ := List.mem_map.1 hw
      exact (growthInv_range _ _).2
    have hy50 : y ≤ 50 := by
      rcases (accMin_mem _ _).2 y hy with h | h
      · exact hall y h
      · rw [h]; exact hall _ (arrMin_mem _ hne).1
    split_ifs with h
    · exact ⟨le_refl _, le_max_left _ _⟩
    · exact ⟨not_lt.1 h, hy50.trans (le_max_right _ _)⟩

/-- C32: so the concentration is at least `norm*K`, with equality exactly for haloes whose collapse redshift is the halo
redshift. -/
theorem C32_cm (norm K F : ℝ) (nu D : ℝ → ℝ) (m : List ℝ) (z : ℝ) (hz : -1 < z) (hK : 0 < norm * K) :
    (bullockCm norm K F nu D m z).length = m.length ∧
    (∀ c ∈ bullockCm norm K F nu D m z, norm * K ≤ c) ∧
    ∀ (i : ℕ) (zc : ℝ), (bullockZc F nu D m z)[i]? = some zc →
      ∃ c, (bullockCm norm K F nu D m z)[i]? = some c ∧ c = norm * K * ((1 + zc) / (1 + z)) ∧
        (c = norm * K ↔ zc = z) := by
  obtain ⟨h1, h2⟩ := C32_zc F nu D m z
  have hz' : 0 < z + 1 := by linarith
  refine ⟨by simp [bullockCm, h1], ?_, ?_⟩
  · intro c hc
    simp only [bullockCm, List.mem_map] at hc
    obtain ⟨x, hx, rfl⟩ := hc
    rw [le_div_iff₀ hz']
    have := (h2 x hx).1
    nlinarith
  · intro i zc hi
    refine ⟨norm * K * (zc + 1) / (z + 1), ?_, ?_, ?_⟩
    · simp [bullockCm, hi]
    · rw [mul_div_assoc, add_comm zc, add_comm z]
    · rw [div_eq_iff hz'.ne']
      constructor
      · intro h
        have : zc + 1 = z + 1 := mul_left_cancel₀ hK.ne' h
        linarith
      · rintro rfl; rfl

/-- linear interpolation of sorted samples with decreasing ordinates is decreasing. -/
theorem npInterp_anti : ∀ (l : List (ℝ × ℝ)) (v w : ℝ), l.Pairwise (fun p q => p.1 < q.1 ∧ q.2 ≤ p.2) →
    (∀ p ∈ l.head?, p.1 ≤ v) → v ≤ w → (∃ p ∈ l, w ≤ p.1) → npInterp l w ≤ npInterp l v
  | [], _, _, _, _, _, _ => by simp [npInterp]
  | [p], _, _, _, _, _, _ => by simp [npInterp]
  | p :: q :: t, v, w, hs, hv, hvw, hw => by
    obtain ⟨hs1, hs2⟩ := List.pairwise_cons.1 hs
    obtain ⟨hpq, hpq'⟩ := hs1 q (by simp)
    have hp : p.1 ≤ v := hv p (by simp)
    have hd : 0 < q.1 - p.1 := by linarith
    have seg : ∀ x, p.1 ≤ x → x < q.1 → npInterp (p :: q :: t) x =
        (q.2 - p.2) / (q.1 - p.1) * (x - p.1) + p.2 := by
      intro x hx hxq
      rw [npInterp, if_pos hxq]
      split_ifs with h
      · rw [h]; ring
      · rfl
    have hsl : (q.2 - p.2) / (q.1 - p.1) ≤ 0 := div_nonpos_of_nonpos_of_nonneg (by linarith) hd.le
    by_cases h1 : v < q.1
    · rw [seg v hp h1]
      by_cases h2 : w < q.1
      · rw [seg w (hp.trans hvw) h2]
        nlinarith
      · rw [npInterp, if_neg h2]
        have hall : ∀ r ∈ q :: t, r.2 ≤ q.2 := by
          intro r hr
          rcases List.mem_cons.1 hr with rfl | hr
          · exact le_refl _
          · exact ((List.pairwise_cons.1 hs2).1 r hr).2
        have hex : ∃ lo, ∀ r ∈ q :: t, lo ≤ r.2 := by
          have hne : (q :: t).map Prod.snd ≠ [] := by simp
          exact ⟨arrMin ((q :: t).map Prod.snd), fun r hr =>
            (arrMin_mem _ hne).2 _ (List.mem_map_of_mem hr)⟩
        obtain ⟨lo, hlo⟩ := hex
        have := (npInterp_mem_range (q :: t) w lo q.2 (by simp) (fun r hr => ⟨hlo r hr, hall r hr⟩)
          (by simpa using h2)).2
        have e : (q.2 - p.2) / (q.1 - p.1) * (v - p.1) + p.2 - q.2 =
            (p.2 - q.2) * (q.1 - v) / (q.1 - p.1) := by field_simp; ring
        have h3 : 0 ≤ (p.2 - q.2) * (q.1 - v) / (q.1 - p.1) := by
          apply div_nonneg (mul_nonneg (by linarith) (by linarith)) hd.le
        linarith
    · have h2 : ¬ w < q.1 := by intro h; exact h1 (lt_of_le_of_lt hvw h)
      rw [npInterp, if_neg h2, npInterp, if_neg h1]
      refine npInterp_anti (q :: t) v w hs2 (by simpa using h1) hvw ?_
      obtain ⟨r, hr, hr'⟩ := hw
      rcases List.mem_cons.1 hr with rfl | hr
      · exact absurd (hr'.trans_lt hpq) h2
      · exact ⟨r, hr, hr'⟩

theorem sortSamples_sorted_id {l : List (ℝ × ℝ)} (h : l.Pairwise (fun p q => p.1 ≤ q.1)) :
    sortSamples l = l := by
  classical
  unfold sortSamples
  exact List.Pairwise.insertionSort_eq (r := fun p q : ℝ × ℝ => p.1 ≤ q.1) h

/-- the inverse of a strictly decreasing growth factor is decreasing. -/
theorem growthInv_anti {D : ℝ → ℝ} (hD : StrictAntiOn D (Set.Ici 0)) : Antitone (growthInv D) := by
  classical
  set l := (((List.range 5000).map (fun i => (D (zFine i), zFine i))).reverse) with hl
  have hmem : ∀ p, p ∈ l ↔ ∃ i < 5000, (D (zFine i), zFine i) = p := by
    intro p; rw [hl]; simp
  have hs : l.Pairwise (fun p q => p.1 < q.1 ∧ q.2 ≤ p.2) := by
    rw [hl, List.pairwise_reverse, List.pairwise_map]
    apply List.Pairwise.imp _ (List.pairwise_lt_range (n := 5000))
    intro a b hab
    have : zFine a < zFine b := by unfold zFine; gcongr
    exact ⟨hD (zFine_nonneg a) (zFine_nonneg b) this, this.le⟩
  have hs' : l.Pairwise (fun p q => p.1 ≤ q.1) := hs.imp (fun h => h.1.le)
  intro v w hvw
  have hr : ∀ x, 0 ≤ growthInv D x ∧ growthInv D x ≤ 50 := growthInv_range D
  have h50 : zFine 4999 = 50 := by unfold zFine; norm_num
  by_cases h1 : ∀ p ∈ l, v < p.1
  · have : growthInv D v = 50 := by
      unfold growthInv interpFill; rw [if_pos h1, h50]
    rw [this]; exact (hr w).2
  by_cases h2 : ∀ p ∈ l, p.1 < w
  · have : growthInv D w = 0 := by
      unfold growthInv interpFill
      rw [if_neg _, if_pos h2]
      intro h
      apply h1
      intro p hp
      exact lt_of_le_of_lt hvw (h p hp)
    rw [this]; exact (hr v).1
  have h1w : ¬ ∀ p ∈ l, w < p.1 := fun h => h1 (fun p hp => lt_of_le_of_lt hvw (h p hp))
  have h2v : ¬ ∀ p ∈ l, p.1 < v := fun h => h2 (fun p hp => lt_of_lt_of_le (h p hp) hvw)
  unfold growthInv interpFill
  rw [← hl, if_neg h1, if_neg h2v, if_neg h1w, if_neg h2, sortSamples_sorted_id hs']
  push Not at h1 h2
  exact npInterp_anti l v w hs (head_le hs' h1) hvw h2

/-- C32: for a growth factor that falls with redshift and peak heights that rise with mass, the collapse redshifts (and so
the concentrations) of an increasing list of masses are non-increasing, and the smoothing of entries after the first
minimum has no effect. -/
theorem C32_monotone {F : ℝ} {nu D : ℝ → ℝ} (hD : StrictAntiOn D (Set.Ici 0)) (hF : 0 < F)
    (hnu : MonotoneOn nu (Set.Ioi 0)) (m : List ℝ) (hm : m.Pairwise (· ≤ ·)) (h0 : ∀ x ∈ m, 0 < x) (z : ℝ) :
    (bullockZc F nu D m z).Pairwise (fun a b => b ≤ a) ∧
    bullockZc F nu D m z = m.map (fun x => max z (growthInv D (Real.sqrt (nu (F * x))))) := by
  classical
  have hraw : (m.map (fun x => growthInv D (Real.sqrt (nu (F * x))))).Pairwise (fun a b => b ≤ a) := by
    rw [List.pairwise_map]
    apply hm.imp_of_mem
    intro a b ha hb hab
    apply growthInv_anti hD
    apply Real.sqrt_le_sqrt
    exact hnu (mul_pos hF (h0 a ha)) (mul_pos hF (h0 b hb)) (mul_le_mul_of_nonneg_left hab hF.le)
  have hacc : accMin (m.map (fun x => growthInv D (Real.sqrt (nu (F * x)))))
      (arrMin (m.map (fun x => growthInv D (Real.sqrt (nu (F * x)))))) =
      m.map (fun x => growthInv D (Real.sqrt (nu (F * x)))) := by
    cases m with
    | nil => simp [accMin]
    | cons a t => exact accMin_sorted _ _ hraw (arrMin_mem _ (by simp)).2
  have e : bullockZc F nu D m z = m.map (fun x => max z (growthInv D (Real.sqrt (nu (F * x))))) := by
    simp only [bullockZc, hacc, clampLow, List.map_map]
    apply List.map_congr_left
    intro x _
    simp only [Function.comp]
    split_ifs with h
    · exact (max_eq_left h.le).symm
    · exact (max_eq_right (not_lt.1 h)).symm
  refine ⟨?_, e⟩
  rw [e, List.pairwise_map]
  rw [List.pairwise_map] at hraw
  exact hraw.imp (fun h => max_le_max (le_refl _) h)

/-- C32: the inverse growth factor is exact at the tabulated redshifts. -/
theorem C32_inverse {D : ℝ → ℝ} (hD : StrictAntiOn D (Set.Ici 0)) {i : ℕ} (hi : i < 5000) :
    growthInv D (D (zFine i)) = zFine i := by
  have h := interpFill_node (((List.range 5000).map (fun i => (D (zFine i), zFine i))).reverse)
    (zFine 4999) 0 (D (zFine i)) ⟨zFine i, by
      simp only [List.mem_reverse, List.mem_map, List.mem_range]; exact ⟨i, hi, rfl⟩⟩
  simp only [List.mem_reverse, List.mem_map, List.mem_range] at h
  obtain ⟨j, _, hj⟩ := h
  have h1 : zFine j = zFine i := hD.injOn (zFine_nonneg j) (zFine_nonneg i) (Prod.mk.inj hj).1
  have h2 := (Prod.mk.inj hj).2
  unfold growthInv
  rw [← h2, h1]

/-- non-vacuity: a decreasing growth factor and increasing peak heights. -/
example : (bullockZc 0.01 (fun x => x) (fun z => -z) [1, 2, 3] 0).Pairwise (fun a b => b ≤ a) :=
  (C32_monotone (fun a _ b _ h => by simpa using h) (by norm_num) (fun a _ b _ h => h) _ (by norm_num)
    (by norm_num) 0).1

end Halomod.Concentration
