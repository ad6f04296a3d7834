import Verif.Model.Tools
import Mathlib.Analysis.SpecialFunctions.Trigonometric.Deriv
import Mathlib.Analysis.SpecialFunctions.Trigonometric.DerivHyp
import Mathlib.Analysis.SpecialFunctions.Trigonometric.Bounds
import Mathlib.Analysis.SpecialFunctions.Integrals.Basic
import Mathlib.MeasureTheory.Integral.IntervalIntegral.FundThmCalculus
import Mathlib.MeasureTheory.Integral.IntervalIntegral.IntegrationByParts

/-! # C11-C15: numerical tools -/
namespace Halomod.Tools

open Finset

/-! ## C11: `hankel_transform` -/

theorem whileRuns_unique {σ : Type} {cond : σ → Prop} {body : σ → σ} {s a b : σ}
    (ha : WhileRuns cond body s a) (hb : WhileRuns cond body s b) : a = b := by
  obtain ⟨i, rfl, hi, hi'⟩ := ha
  obtain ⟨j, rfl, hj, hj'⟩ := hb
  rcases lt_trichotomy i j with h | h | h
  · exact absurd (hj' i h) hi
  · rw [h]
  · exact absurd (hi' j h) hj

/-- loop state after `j` chunks. -/
theorem hIter (h rr : ℝ) (p : ℝ → Option ℝ) (chunk j : ℕ) :
    ((hBody h rr p chunk)^[j] hInit).nn = 1 + j * chunk ∧
    ((hBody h rr p chunk)^[j] hInit).res = ∑ n ∈ Ico 1 (1 + j * chunk), hterm h rr p n := by
  induction j with
  | zero => simp [hInit]
  | succ j ih =>
    rw [Function.iterate_succ_apply']
    obtain ⟨h1, h2⟩ := ih
    constructor
    · simp only [hBody, h1]; ring
    · simp only [hBody, h1, h2]
      rw [sum_Ico_consecutive _ (by omega) (by omega)]
      congr 2; ring

/-- C11: the node limit: exactly the nodes `n` with `h n ≤ 3.2` are available, so a smaller step gives
at least as many. -/
theorem C11_node_limit {h : ℝ} (hh : 0 < h) :
    (∀ n : ℕ, n ≤ ogNmax h ↔ h * n ≤ 3.2) ∧ ∀ h', 0 < h' → h' ≤ h → ogNmax h ≤ ogNmax h' := by
  have key : ∀ h : ℝ, 0 < h → ∀ n : ℕ, n ≤ ogNmax h ↔ h * n ≤ 3.2 := by
    intro h hh n
    unfold ogNmax
    rw [Nat.le_floor_iff (by positivity), le_div_iff₀ hh, mul_comm]
  refine ⟨key h hh, fun h' hh' hle => ?_⟩
  rw [key h' hh']
  calc h' * (ogNmax h : ℝ) ≤ h * ogNmax h := by gcongr
    _ ≤ 3.2 := (key h hh _).mp le_rfl

/-- C11: the loop ends for every integrand, in exactly one way, after at most `int(3.2/h)` chunks. -/
theorem C11_terminates (h atol rtol rr : ℝ) (p : ℝ → Option ℝ) (chunk : ℕ) (hc : 0 < chunk) :
    ∃! s', WhileRuns (hCond h atol rtol) (hBody h rr p chunk) hInit s' := by
  classical
  have hex : ∃ j, ¬ hCond h atol rtol ((hBody h rr p chunk)^[j] hInit) := by
    refine ⟨ogNmax h, ?_⟩
    intro hh
    have := hh.2
    rw [(hIter h rr p chunk _).1] at this
    have : ogNmax h ≤ ogNmax h * chunk := Nat.le_mul_of_pos_right _ hc
    omega
  refine ⟨_, ⟨Nat.find hex, rfl, Nat.find_spec hex, ?_⟩, fun b hb => ?_⟩
  · intro i hi
    by_contra hcon
    exact Nat.find_min hex hi hcon
  · exact whileRuns_unique hb ⟨Nat.find hex, rfl, Nat.find_spec hex, fun i hi => by
      by_contra hcon
      exact Nat.find_min hex hi hcon⟩

/-- C11: the returned sum runs over the nodes `1, 2, ..., j*chunk`, each once, and `j` is the first
number of chunks at which either the node limit is reached or the last chunk changed the result by no more
than the tolerance (for the first chunk: `j = 0` needs `atol` ≥ 100). -/
theorem C11_sum (h atol rtol rr : ℝ) (p : ℝ → Option ℝ) (chunk : ℕ) (s' : HState)
    (hrun : WhileRuns (hCond h atol rtol) (hBody h rr p chunk) hInit s') :
    ∃ j, s'.res = ∑ n ∈ Icc 1 (j * chunk), hterm h rr p n ∧
      (j = 0 → ogNmax h ≤ 1 ∨ 100 ≤ atol) ∧
      (1 ≤ j → 1 + (j - 1) * chunk < ogNmax h ∧
        (ogNmax h ≤ 1 + j * chunk ∨
          |∑ n ∈ Ioc ((j - 1) * chunk) (j * chunk), hterm h rr p n| ≤ atol + rtol * |s'.res|)) := by
  obtain ⟨j, rfl, hj, hj'⟩ := hrun
  have hI := hIter h rr p chunk
  refine ⟨j, ?_, ?_, ?_⟩
  · rw [(hI j).2]; congr 1; ext n; simp; omega
  · rintro rfl
    simp only [Function.iterate_zero, id_eq, hCond, hInit, not_and_or, not_not, not_lt] at hj
    rcases hj with hj | hj
    · right
      unfold isclose at hj
      simpa using hj
    · left; exact hj
  · intro h1
    obtain ⟨i, rfl⟩ : ∃ i, j = i + 1 := ⟨j - 1, by omega⟩
    simp only [Nat.add_sub_cancel]
    have hc := (hj' i (by omega)).2
    rw [(hI i).1] at hc
    refine ⟨hc, ?_⟩
    unfold hCond at hj
    rw [not_and_or, not_not, not_lt] at hj
    rcases hj with hj | hj
    · right
      unfold isclose at hj
      have hprev : ((hBody h rr p chunk)^[i + 1] hInit).prev
          = ((hBody h rr p chunk)^[i] hInit).res := by
        rw [Function.iterate_succ_apply']; rfl
      rw [hprev, (hI i).2, (hI (i + 1)).2] at hj
      rw [(hI (i + 1)).2]
      have hs : ∑ n ∈ Ico 1 (1 + (i + 1) * chunk), hterm h rr p n
          = ∑ n ∈ Ico 1 (1 + i * chunk), hterm h rr p n
            + ∑ n ∈ Ioc (i * chunk) ((i + 1) * chunk), hterm h rr p n := by
        have e : Ioc (i * chunk) ((i + 1) * chunk) = Ico (1 + i * chunk) (1 + (i + 1) * chunk) := by
          ext n; simp; omega
        rw [e, sum_Ico_consecutive _ (by omega) (by
          have : (i + 1) * chunk = i * chunk + chunk := by ring
          omega)]
      rw [show ∑ n ∈ Ioc (i * chunk) ((i + 1) * chunk), hterm h rr p n
        = -(∑ n ∈ Ico 1 (1 + i * chunk), hterm h rr p n
          - ∑ n ∈ Ico 1 (1 + (i + 1) * chunk), hterm h rr p n) by rw [hs]; ring, abs_neg]
      exact hj
    · left
      rw [(hI (i + 1)).1] at hj; exact hj

/-- C11: values that are not numbers contribute zero; the sum only sees `p` at `x_n / rr`. -/
theorem C11_nan_ignored (h rr : ℝ) (p q : ℝ → Option ℝ) (n : ℕ)
    (hpq : p (ogX h n / rr) = none ∧ q (ogX h n / rr) = some 0 ∨ p (ogX h n / rr) = q (ogX h n / rr)) :
    hterm h rr p n = hterm h rr q n := by
  unfold hterm nan0
  rcases hpq with ⟨h1, h2⟩ | h1
  · rw [h1, h2]; rfl
  · rw [h1]

/-- C11: the k-space transform is `8 pi^3` times the r-space one for the same function and tolerances. -/
theorem C11_k_is_8pi3_r (h atol rtol rr : ℝ) (p : ℝ → Option ℝ) (chunk : ℕ) (hr : 0 < rr) (vr vk : ℝ)
    (h1 : HankelReturns h atol rtol rr p chunk ['r'] (some vr))
    (h2 : HankelReturns h atol rtol rr p chunk ['k'] (some vk)) :
    vk = 8 * Real.pi ^ 3 * vr := by
  rcases h1 with ⟨_, h1⟩ | ⟨_, s1, r1, e1⟩
  · simp at h1
  rcases h2 with ⟨_, h2⟩ | ⟨_, s2, r2, e2⟩
  · simp at h2
  rw [whileRuns_unique r1 r2] at e1
  simp only [Option.some.injEq] at e1 e2
  rw [e1, e2]
  have hpi := Real.pi_pos
  unfold hNorm
  rw [if_pos rfl, if_neg (by decide)]
  field_simp
  ring

/-- C11: some value is always returned for the two documented names. -/
theorem C11_returns (h atol rtol rr : ℝ) (p : ℝ → Option ℝ) (chunk : ℕ) (hc : 0 < chunk)
    (name : List Char) (hn : name = ['k'] ∨ name = ['r']) :
    ∃ v, HankelReturns h atol rtol rr p chunk name (some v) := by
  obtain ⟨s', hs', _⟩ := C11_terminates h atol rtol rr p chunk hc
  refine ⟨_, Or.inr ⟨?_, s', hs', rfl⟩⟩
  rcases hn with rfl | rfl
  · exact ⟨[], ['r'], rfl⟩
  · exact ⟨['k'], [], rfl⟩

/-- C11 finding: the name check is a substring test, so the empty name and `"kr"` are accepted (and
treated as `"k"`). -/
theorem C11_names (name : List Char) :
    validName name ↔ name = ['k'] ∨ name = ['r'] ∨ name = [] ∨ name = ['k', 'r'] := by
  unfold validName
  constructor
  · rintro ⟨a, b, hab⟩
    rcases a with _ | ⟨a0, a⟩
    · rcases name with _ | ⟨c, name⟩
      · simp
      · simp only [List.nil_append, List.cons_append, List.cons.injEq] at hab
        obtain ⟨rfl, hab⟩ := hab
        rcases name with _ | ⟨d, name⟩
        · simp
        · simp only [List.cons_append, List.cons.injEq] at hab
          obtain ⟨rfl, hab⟩ := hab
          have := List.append_eq_nil_iff.mp hab
          simp [this.1]
    · simp only [List.cons_append, List.cons.injEq] at hab
      obtain ⟨rfl, hab⟩ := hab
      rcases a with _ | ⟨a1, a⟩
      · rcases name with _ | ⟨c, name⟩
        · simp
        · simp only [List.nil_append, List.cons_append, List.cons.injEq] at hab
          obtain ⟨rfl, hab⟩ := hab
          have := List.append_eq_nil_iff.mp hab
          simp [this.1]
      · simp only [List.cons_append, List.cons.injEq] at hab
        obtain ⟨rfl, hab⟩ := hab
        have h2 := List.append_eq_nil_iff.mp hab
        have h3 := List.append_eq_nil_iff.mp h2.1
        simp [h3.2]
  · rintro (rfl | rfl | rfl | rfl)
    · exact ⟨[], ['r'], rfl⟩
    · exact ⟨['k'], [], rfl⟩
    · exact ⟨[], ['k', 'r'], rfl⟩
    · exact ⟨[], [], rfl⟩

/-- Ogata's double-exponential map `psi(t) = t tanh(pi sinh(t) / 2)`. -/
noncomputable def psi (t : ℝ) : ℝ := t * Real.tanh (Real.pi * Real.sinh t / 2)

/-- C11: the quadrature uses Ogata's nodes `x_n = (pi/h) psi(h n)` and `dpsi` is the derivative of `psi`
(the mask `dpsi != 0` never removes an entry). -/
theorem C11_ogata_nodes (h : ℝ) (hh : h ≠ 0) (n : ℕ) :
    ogX h n = Real.pi / h * psi (h * n) ∧
    (∀ t, HasDerivAt psi (ogDpsi t) t) := by
  constructor
  · unfold ogX psi ogS
    field_simp
  · intro t
    have hc : Real.cosh (Real.pi * Real.sinh t / 2) ≠ 0 := (Real.cosh_pos _).ne'
    have hs : HasDerivAt (fun t => Real.pi * Real.sinh t / 2) (Real.pi * Real.cosh t / 2) t :=
      ((Real.hasDerivAt_sinh t).const_mul Real.pi).div_const 2
    have h1 : HasDerivAt (fun t => Real.tanh (Real.pi * Real.sinh t / 2))
        ((Real.cosh (Real.pi * Real.sinh t / 2) * (Real.pi * Real.cosh t / 2)
            * Real.cosh (Real.pi * Real.sinh t / 2)
          - Real.sinh (Real.pi * Real.sinh t / 2)
            * (Real.sinh (Real.pi * Real.sinh t / 2) * (Real.pi * Real.cosh t / 2)))
          / Real.cosh (Real.pi * Real.sinh t / 2) ^ 2) t := by
      have := hs.sinh.div hs.cosh hc
      refine this.congr_of_eventuallyEq ?_
      filter_upwards with u
      exact Real.tanh_eq_sinh_div_cosh _
    have h2 := (hasDerivAt_id t).mul h1
    have h3 : HasDerivAt psi _ t := h2
    convert h3 using 1
    set a := Real.pi * Real.sinh t / 2 with ha
    have hS : ogS t = 2 * a := by unfold ogS; rw [ha]; ring
    have hne : 1 + Real.cosh (ogS t) ≠ 0 := by
      have := Real.one_le_cosh (ogS t); positivity
    unfold ogDpsi
    rw [if_pos hne, hS, Real.sinh_two_mul, Real.cosh_two_mul, Real.tanh_eq_sinh_div_cosh]
    have hcs : Real.cosh a ^ 2 - Real.sinh a ^ 2 = 1 := Real.cosh_sq_sub_sinh_sq a
    have e1 : 1 + (Real.cosh a ^ 2 + Real.sinh a ^ 2) = 2 * Real.cosh a ^ 2 := by linarith
    rw [e1]
    simp only [id]
    have e2 : Real.cosh a * (Real.pi * Real.cosh t / 2) * Real.cosh a
        - Real.sinh a * (Real.sinh a * (Real.pi * Real.cosh t / 2)) = Real.pi * Real.cosh t / 2 := by
      linear_combination (Real.pi * Real.cosh t / 2) * hcs
    rw [e2]
    field_simp
    ring

/-- C11, the whole value: for some number `N` of nodes (a whole number of chunks), the r-space transform is
`1/(2 pi² r³) * sum_{n=1}^{N} pi x_n sin(x_n) psi'(h n) f(x_n / r)` with Ogata's nodes
`x_n = (pi/h) psi(h n)`, where `f` is the user's function with NaN replaced by 0. -/
theorem C11_value (h atol rtol rr : ℝ) (hh : h ≠ 0) (p : ℝ → Option ℝ) (chunk : ℕ) (v : ℝ)
    (hv : HankelReturns h atol rtol rr p chunk ['r'] (some v)) :
    ∃ j : ℕ, v = 1 / (2 * Real.pi ^ 2 * rr ^ 3) * ∑ n ∈ Icc 1 (j * chunk),
      Real.pi * (Real.pi / h * psi (h * n)) * Real.sin (Real.pi / h * psi (h * n))
        * deriv psi (h * n) * (p (Real.pi / h * psi (h * n) / rr)).getD 0 := by
  rcases hv with ⟨_, h1⟩ | ⟨_, s1, r1, e1⟩
  · simp at h1
  obtain ⟨j, hj, _⟩ := C11_sum h atol rtol rr p chunk s1 r1
  refine ⟨j, ?_⟩
  simp only [Option.some.injEq] at e1
  rw [e1, hNorm, if_pos rfl, hj, div_eq_inv_mul, one_div]
  congr 1
  apply sum_congr rfl
  intro n _
  unfold hterm ogW nan0
  rw [((C11_ogata_nodes h hh n).2 (h * n)).deriv, (C11_ogata_nodes h hh n).1]
  ring

/-- C11: nodes are positive and below the asymptotic `pi n`. -/
theorem C11_node_range (h : ℝ) (hh : 0 < h) (n : ℕ) (hn : 0 < n) :
    0 < ogX h n ∧ ogX h n < Real.pi * n := by
  have hpi := Real.pi_pos
  have hn' : (0:ℝ) < n := by exact_mod_cast hn
  have hs : 0 < ogS (h * n) / 2 := by
    unfold ogS
    have := Real.sinh_pos_iff.mpr (mul_pos hh hn')
    positivity
  have h1 : 0 < Real.tanh (ogS (h * n) / 2) := by
    rw [Real.tanh_eq_sinh_div_cosh]
    exact div_pos (Real.sinh_pos_iff.mpr hs) (Real.cosh_pos _)
  have h2 : Real.tanh (ogS (h * n) / 2) < 1 := by
    rw [Real.tanh_eq_sinh_div_cosh, div_lt_one (Real.cosh_pos _)]
    exact Real.sinh_lt_cosh _
  unfold ogX
  constructor
  · positivity
  · nlinarith [mul_pos hpi hn']

/-- a concrete run: with `h = 1` there are 3 nodes to reach; a zero integrand stops after one chunk. -/
example : WhileRuns (hCond 1 1e-8 1e-8) (hBody 1 1 (fun _ => some 0) 100) hInit ⟨101, 0, 0⟩ := by
  refine ⟨1, ?_, ?_, ?_⟩
  · simp [hBody, hInit, hterm, nan0]
  · unfold hCond isclose; norm_num
  · intro i hi
    have : i = 0 := by omega
    subst this
    have hN : ogNmax 1 = 3 := by
      unfold ogNmax; rw [Nat.floor_eq_iff (by norm_num)]; norm_num
    unfold hCond isclose
    simp only [Function.iterate_zero, id_eq, hInit, hN]
    norm_num

/-! ## C12: `ExtendedSpline` -/

/-- what scipy's interpolating spline guarantees: it passes through its data. -/
structure SplOk (isp : Spl) : Prop where
  interp : ∀ n x y, (∀ i j, i < j → j < n → x i < x j) → ∀ i < n, isp n x y (x i) = y i
  /-- the spline is a linear function of the ordinates -/
  smul : ∀ n x (y : ℕ → ℝ) c t, isp n x (fun i => c * y i) t = c * isp n x y t
  /-- only the first `n` samples are used -/
  congr : ∀ n x x' y y', (∀ i < n, x i = x' i ∧ y i = y' i) → isp n x y = isp n x' y'

/-- C12: which data make the constructor raise, and what the object is otherwise. -/
theorem C12_domain (isp : Spl) (us : USpl) (a : ESArgs) (e : ES) (h : esInit isp us a = some e) :
    a.domLo ≤ (a.x 0 : EReal) ∧ (a.x (a.n - 1) : EReal) ≤ a.domHi ∧
    a.lower ≠ .invalid ∧ a.upper ≠ .invalid := by
  unfold esInit at h
  split_ifs at h with h1
  rw [not_or, not_lt, not_lt] at h1
  refine ⟨h1.1, h1.2, ?_, ?_⟩
  · intro hl; rw [hl] at h; simp [extFunc] at h
  · intro hl
    rw [hl] at h
    simp only [extFunc] at h
    split at h <;> simp_all

/-- unpacking of a successful construction. -/
theorem esInit_some (isp : Spl) (us : USpl) (a : ESArgs) (e : ES) (h : esInit isp us a = some e) :
    e.xmin = a.x 0 ∧ e.xmax = a.x (a.n - 1) ∧ e.spl = isp a.n a.x a.y ∧
    extFunc us (isp a.n a.x a.y) a.lower (min a.nLow a.n) a.x a.y a.matchLower (a.x 0)
      = some e.lfunc ∧
    extFunc us (isp a.n a.x a.y) a.upper (min a.nUp a.n) (fun i => a.x (a.n - min a.nUp a.n + i))
      (fun i => a.y (a.n - min a.nUp a.n + i)) a.matchUpper (a.x (a.n - 1)) = some e.ufunc := by
  unfold esInit at h
  split_ifs at h
  simp only at h
  split at h
  · rename_i lf uf h1 h2
    simp only [Option.some.injEq] at h
    subst h
    exact ⟨rfl, rfl, rfl, h1, h2⟩
  · simp at h

/-- C12: inside the data range (end points included) the interpolant is used, so the object returns the
data at the data points; below and above it the two extension functions. -/
theorem C12_branches (isp : Spl) (us : USpl) (hs : SplOk isp) (a : ESArgs) (e : ES)
    (h : esInit isp us a = some e) (hx : ∀ i j, i < j → j < a.n → a.x i < a.x j) :
    (∀ i < a.n, e.call (a.x i) = a.y i) ∧
    (∀ t, a.x 0 ≤ t → t ≤ a.x (a.n - 1) → e.call t = isp a.n a.x a.y t) ∧
    (∀ t, t < a.x 0 → e.call t = e.lfunc t) ∧
    (∀ t, a.x 0 ≤ t → a.x (a.n - 1) < t → e.call t = e.ufunc t) := by
  obtain ⟨h1, h2, h3, _, _⟩ := esInit_some isp us a e h
  have hin : ∀ t, a.x 0 ≤ t → t ≤ a.x (a.n - 1) → e.call t = isp a.n a.x a.y t := by
    intro t ht ht'
    unfold ES.call
    rw [h1, h2, h3, if_neg (not_lt.mpr ht), if_neg (not_lt.mpr ht')]
  have hmono : ∀ i j, i ≤ j → j < a.n → a.x i ≤ a.x j := by
    intro i j hij hj
    rcases hij.lt_or_eq with h' | h'
    · exact (hx i j h' hj).le
    · rw [h']
  refine ⟨?_, hin, ?_, ?_⟩
  · intro i hi
    rw [hin _ (hmono 0 i (by omega) hi) (hmono i (a.n - 1) (by omega) (by omega))]
    exact hs.interp _ _ _ hx i hi
  · intro t ht
    unfold ES.call; rw [h1, if_pos ht]
  · intro t ht ht'
    unfold ES.call; rw [h1, h2, if_neg (not_lt.mpr ht), if_pos ht']

/-- C12: every matched callable extension with a non-zero value at the boundary agrees with the data at
that boundary (and keeps its shape); `boundary` extensions are constant at the boundary data value; an
unmatched callable is used unchanged; `None` continues the interpolant. -/
theorem C12_extensions (isp : Spl) (us : USpl) (hs : SplOk isp) (a : ESArgs) (e : ES)
    (h : esInit isp us a = some e) (hx : ∀ i j, i < j → j < a.n → a.x i < a.x j) (hn : 0 < a.n) :
    (∀ f, a.lower = .callable f → a.matchLower = true → f (a.x 0) ≠ 0 →
      e.lfunc (a.x 0) = a.y 0 ∧ ∀ t, e.lfunc t * f (a.x 0) = f t * a.y 0) ∧
    (∀ f, a.upper = .callable f → a.matchUpper = true → f (a.x (a.n - 1)) ≠ 0 →
      e.ufunc (a.x (a.n - 1)) = a.y (a.n - 1) ∧
      ∀ t, e.ufunc t * f (a.x (a.n - 1)) = f t * a.y (a.n - 1)) ∧
    (∀ f, a.lower = .callable f → a.matchLower = false → e.lfunc = f) ∧
    (∀ f, a.upper = .callable f → a.matchUpper = false → e.ufunc = f) ∧
    (a.lower = .boundary → ∀ t, e.lfunc t = a.y 0) ∧
    (a.upper = .boundary → ∀ t, e.ufunc t = a.y (a.n - 1)) ∧
    (a.lower = .none → e.lfunc = isp a.n a.x a.y) ∧
    (a.upper = .none → e.ufunc = isp a.n a.x a.y) := by
  obtain ⟨_, _, _, h4, h5⟩ := esInit_some isp us a e h
  have i0 := hs.interp a.n a.x a.y hx 0 hn
  have i1 := hs.interp a.n a.x a.y hx (a.n - 1) (by omega)
  refine ⟨?_, ?_, ?_, ?_, ?_, ?_, ?_, ?_⟩
  · intro f hf hm hne
    rw [hf, hm] at h4
    simp only [extFunc, not_true_eq_false, if_false, if_neg hne, Option.some.injEq] at h4
    rw [← h4]; simp only; rw [i0]
    constructor
    · field_simp
    · intro t; field_simp
  · intro f hf hm hne
    rw [hf, hm] at h5
    simp only [extFunc, not_true_eq_false, if_false, if_neg hne, Option.some.injEq] at h5
    rw [← h5]; simp only; rw [i1]
    constructor
    · field_simp
    · intro t; field_simp
  · intro f hf hm
    rw [hf, hm] at h4
    simpa [extFunc, eq_comm] using h4
  · intro f hf hm
    rw [hf, hm] at h5
    simpa [extFunc, eq_comm] using h5
  · intro hf t
    rw [hf] at h4
    simp only [extFunc, Option.some.injEq] at h4
    rw [← h4]; simp only; rw [one_mul, i0]
  · intro hf t
    rw [hf] at h5
    simp only [extFunc, Option.some.injEq] at h5
    rw [← h5]; simp only; rw [one_mul, i1]
  · intro hf
    rw [hf] at h4
    simpa [extFunc, eq_comm] using h4
  · intro hf
    rw [hf] at h5
    simpa [extFunc, eq_comm] using h5

/-- C12: on a floating-point array the call is elementwise the scalar call. -/
theorem C12_array (e : ES) (hle : e.xmin ≤ e.xmax) (xs : List ℝ) :
    e.callArr false xs = xs.map e.call := by
  unfold ES.callArr ES.call store
  induction xs with
  | nil => rfl
  | cons t ts ih =>
    simp only [List.map_cons, List.zipWith_cons_cons]
    simp only at ih
    rw [ih]
    congr 1
    by_cases h1 : t < e.xmin
    · have h2 : ¬ t > e.xmax := by linarith
      simp [h1, h2]
    · by_cases h2 : t > e.xmax
      · simp [h1, h2]
      · simp [h1, h2]

/-- C12 finding: on an integer array every value is truncated to an integer, unlike the scalar call on the
same number. -/
theorem C12_int_array_truncates (e : ES) (hle : e.xmin ≤ e.xmax) (t : ℝ) :
    e.callArr true [t] = [if 0 ≤ e.call t then (⌊e.call t⌋ : ℝ) else (⌈e.call t⌉ : ℝ)] := by
  unfold ES.callArr ES.call store
  simp only [List.map_cons, List.map_nil, List.zipWith_cons_cons, List.zipWith_nil_left]
  by_cases h1 : t < e.xmin
  · have h2 : ¬ t > e.xmax := by linarith
    simp [h1, h2]
  · by_cases h2 : t > e.xmax
    · simp [h1, h2]
    · simp [h1, h2]

/-- What `UnivariateSpline(x, y, k=1)` returns when a straight line satisfies its smoothing bound
`s = n`: the least-squares straight line. -/
structure LineFit (us : USpl) : Prop where
  fit : ∀ n x y, (∃ a b : ℝ, ∑ i ∈ range n, (y i - (a + b * x i)) ^ 2 ≤ (n : ℝ)) →
    ∃ a b : ℝ, (∀ t, us n x y t = a + b * t) ∧
      ∀ a' b' : ℝ, ∑ i ∈ range n, (y i - (a + b * x i)) ^ 2
        ≤ ∑ i ∈ range n, (y i - (a' + b' * x i)) ^ 2

/-- C12: on positive data the `power_law` extension is `exp` of the log-log fit. -/
theorem C12_power_law_form (us : USpl) (spl : ℝ → ℝ) (n : ℕ) (x y : ℕ → ℝ) (mtch : Bool) (mx : ℝ)
    (hn : 0 < n) (hx0 : ∀ i < n, 0 < x i) (hy : ∀ i < n, 0 < y i) :
    extFunc us spl .powerLaw n x y mtch mx = some fun t =>
      Real.exp (us n (fun i => Real.log (x i)) (fun i => Real.log (y i)) (Real.log t)) := by
  have h0 : ¬ y 0 < 0 := not_lt.mpr (hy 0 hn).le
  unfold extFunc
  simp only
  rw [if_neg (not_not.mpr hx0), if_neg]
  · simp only [h0, if_false, mul_one]
  · rw [not_or, not_not]
    exact ⟨hy, fun h => h0 (h 0 hn)⟩

/-- C12: a lower `power_law` extension of positive data that follow a power law continues that power law;
in particular it agrees with the data at the boundary. -/
theorem C12_power_law_partial (us : USpl) (hu : LineFit us) (spl : ℝ → ℝ) (n : ℕ) (x y : ℕ → ℝ) (mtch : Bool)
    (mx A q : ℝ) (hn : 2 ≤ n) (hx0 : ∀ i < n, 0 < x i) (hx : x 0 < x 1) (hA : 0 < A)
    (hy : ∀ i < n, y i = A * x i ^ q) :
    ∃ f, extFunc us spl .powerLaw n x y mtch mx = some f ∧ ∀ t, 0 < t → f t = A * t ^ q := by
  have hypos : ∀ i < n, 0 < y i := fun i hi => by
    rw [hy i hi]; exact mul_pos hA (Real.rpow_pos_of_pos (hx0 i hi) _)
  refine ⟨_, C12_power_law_form us spl n x y mtch mx (by omega) hx0 hypos, ?_⟩
  · intro t ht
    have hlog : ∀ i < n, Real.log (y i) = Real.log A + q * Real.log (x i) := by
      intro i hi
      rw [hy i hi, Real.log_mul hA.ne' (Real.rpow_pos_of_pos (hx0 i hi) _).ne', Real.log_rpow (hx0 i hi)]
    have hzero : ∑ i ∈ range n, (Real.log (y i) - (Real.log A + q * Real.log (x i))) ^ 2 = 0 := by
      apply sum_eq_zero
      intro i hi
      rw [hlog i (mem_range.mp hi), sub_self]; norm_num
    obtain ⟨a, b, hab, hmin⟩ := hu.fit n (fun i => Real.log (x i)) (fun i => Real.log (y i))
      ⟨Real.log A, q, by rw [hzero]; positivity⟩
    have hle := hmin (Real.log A) q
    rw [hzero] at hle
    have hz : ∀ i < n, Real.log (y i) = a + b * Real.log (x i) := by
      intro i hi
      have h2 := sum_eq_zero_iff_of_nonneg (s := range n)
        (f := fun i => (Real.log (y i) - (a + b * Real.log (x i))) ^ 2) (fun _ _ => sq_nonneg _)
      have h3 := h2.mp (le_antisymm hle (sum_nonneg fun _ _ => sq_nonneg _)) i (mem_range.mpr hi)
      have := pow_eq_zero_iff (two_ne_zero) |>.mp h3
      linarith
    have e0 := hz 0 (by omega)
    have e1 := hz 1 (by omega)
    rw [hlog 0 (by omega)] at e0
    rw [hlog 1 (by omega)] at e1
    have hne : Real.log (x 1) - Real.log (x 0) ≠ 0 :=
      (sub_pos.mpr (Real.log_lt_log (hx0 0 (by omega)) hx)).ne'
    have hbq : b = q := by
      have : (b - q) * (Real.log (x 1) - Real.log (x 0)) = 0 := by linear_combination e0 - e1
      rcases mul_eq_zero.mp this with h | h
      · linarith
      · exact absurd h hne
    have haA : a = Real.log A := by rw [hbq] at e0; linarith
    rw [hab, haA, hbq, Real.exp_add, Real.exp_log hA, Real.rpow_def_of_pos ht, mul_comm q]

/-- C12 finding (continuity at the boundary is false for `power_law`): for data that are not an exact power
law the extension is a least-squares fit and misses the boundary value. -/
theorem C12_power_law_discontinuous (us : USpl) (hu : LineFit us) (spl : ℝ → ℝ) (mtch : Bool) (mx : ℝ) :
    let x : ℕ → ℝ := fun i => Real.exp i
    let y : ℕ → ℝ := fun i => if i = 1 then Real.exp 1 else 1
    ∃ f, extFunc us spl .powerLaw 3 x y mtch mx = some f ∧ f (x 0) ≠ y 0 := by
  intro x y
  have hypos : ∀ i < 3, 0 < y i := fun i hi => by
    simp only [y]; split_ifs <;> [exact Real.exp_pos _; norm_num]
  refine ⟨_, C12_power_law_form us spl 3 x y mtch mx (by omega) (fun i _ => Real.exp_pos _) hypos, ?_⟩
  · have hlx : (fun i : ℕ => Real.log (x i)) = fun i : ℕ => (i:ℝ) := by ext i; simp [x]
    have hly : (fun i : ℕ => Real.log (y i)) = fun i : ℕ => if i = 1 then (1:ℝ) else 0 := by
      ext i; simp only [y]; split_ifs <;> simp
    rw [hlx, hly]
    obtain ⟨a, b, hab, hmin⟩ := hu.fit 3 (fun i : ℕ => (i:ℝ)) (fun i : ℕ => if i = 1 then (1:ℝ) else 0)
      ⟨0, 0, by simp⟩
    have h1 := hmin (1/3) 0
    simp only [sum_range_succ, range_zero, sum_empty] at h1
    norm_num at h1
    simp only [x, y]
    norm_num
    rw [hab]
    intro h2
    have ha : a = 0 := by linarith
    rw [ha] at h1
    nlinarith [sq_nonneg (b - 1/5)]

/-- C12 finding: `power_law` on all-negative data (which the message says is allowed) silently gives a zero
extension: the negative branch is unreachable. -/
theorem C12_negative_power_law (us : USpl) (spl : ℝ → ℝ) (n : ℕ) (x y : ℕ → ℝ) (mtch : Bool) (mx : ℝ)
    (hn : 0 < n) (hx0 : ∀ i < n, 0 < x i) (hy : ∀ i < n, y i < 0) :
    extFunc us spl .powerLaw n x y mtch mx = some fun _ => 0 := by
  unfold extFunc
  simp only
  rw [if_neg (not_not.mpr hx0), if_pos]
  left; intro h; exact absurd (h 0 hn) (not_lt.mpr (hy 0 hn).le)

/-- a piecewise-constant "spline" satisfying `SplOk` shows the assumption is consistent. -/
noncomputable def stepSpl : Spl := fun n x y t => ∑ i ∈ range n,
  if t = x i ∧ ∀ j < i, x j ≠ t then y i else 0

theorem stepSpl_ok : SplOk stepSpl where
  interp := by
    intro n x y hx i hi
    unfold stepSpl
    rw [sum_eq_single_of_mem i (mem_range.mpr hi)]
    · rw [if_pos]
      exact ⟨rfl, fun j hj => (hx j i hj hi).ne⟩
    · intro b hb hbi
      rw [if_neg]
      rintro ⟨h1, h2⟩
      rcases lt_or_gt_of_ne hbi with h | h
      · exact (hx b i h hi).ne h1.symm
      · exact (hx i b h (mem_range.mp hb)).ne h1
  smul := by
    intro n x y c t
    unfold stepSpl
    rw [mul_sum]; apply sum_congr rfl; intro i _; split_ifs <;> simp
  congr := by
    intro n x x' y y' h
    ext t
    unfold stepSpl
    apply sum_congr rfl
    intro i hi
    have hi' := mem_range.mp hi
    rw [(h i hi').1, (h i hi').2]
    have : (∀ j < i, x j ≠ t) ↔ (∀ j < i, x' j ≠ t) := by
      constructor <;> intro h' j hj
      · rw [← (h j (by omega)).1]; exact h' j hj
      · rw [(h j (by omega)).1]; exact h' j hj
    simp only [this]

example : ∃ e, esInit stepSpl (fun _ _ _ _ => 0)
    { n := 3, x := fun i => i + 1, y := fun i => i + 5, lower := .callable (fun t => t),
      upper := .boundary } = some e ∧ e.call 1 = 5 ∧ e.lfunc 1 = 5 := by
  have hx : ∀ i j : ℕ, i < j → j < 3 → ((i:ℝ) + 1) < (j:ℝ) + 1 := by
    intro i j h _; have : (i:ℝ) < j := by exact_mod_cast h
    linarith
  set a : ESArgs := { n := 3, x := fun i => i + 1, y := fun i => i + 5, lower := .callable (fun t => t), upper := .boundary } with ha
  obtain ⟨e, he⟩ : ∃ e, esInit stepSpl (fun _ _ _ _ => 0) a = some e := by
    unfold esInit
    rw [if_neg (by simp [ha])]
    simp only [ha, extFunc]
    norm_num
  refine ⟨e, he, ?_, ?_⟩
  · have := (C12_branches _ _ stepSpl_ok a e he hx).1 0 (by norm_num [ha])
    simpa [ha] using this
  · have := ((C12_extensions _ _ stepSpl_ok a e he hx (by norm_num [ha])).1 _ rfl rfl
      (by norm_num [ha])).1
    simpa [ha] using this

/-- least-squares fits exist, so `LineFit` is satisfiable. -/
example : ∃ us : USpl, LineFit us := by
  classical
  by_cases hex : ∀ (n : ℕ) (x y : ℕ → ℝ), ∃ ab : ℝ × ℝ, ∀ a' b' : ℝ,
      ∑ i ∈ range n, (y i - (ab.1 + ab.2 * x i)) ^ 2 ≤ ∑ i ∈ range n, (y i - (a' + b' * x i)) ^ 2
  · choose f hf using hex
    exact ⟨fun n x y t => (f n x y).1 + (f n x y).2 * t,
      ⟨fun n x y _ => ⟨_, _, fun t => rfl, hf n x y⟩⟩⟩
  · exfalso
    apply hex
    intro n x y
    -- centred sums
    by_cases hn : n = 0
    · subst hn; exact ⟨(0, 0), fun _ _ => by simp⟩
    have hn' : (n:ℝ) ≠ 0 := by exact_mod_cast hn
    set mx := (∑ i ∈ range n, x i) / n with hmx
    set my := (∑ i ∈ range n, y i) / n with hmy
    set sxx := ∑ i ∈ range n, (x i - mx) ^ 2 with hsxx
    set sxy := ∑ i ∈ range n, (x i - mx) * (y i - my) with hsxy
    have hX : ∑ i ∈ range n, (x i - mx) = 0 := by
      rw [sum_sub_distrib, sum_const, card_range, nsmul_eq_mul, hmx]; field_simp; ring
    have hY : ∑ i ∈ range n, (y i - my) = 0 := by
      rw [sum_sub_distrib, sum_const, card_range, nsmul_eq_mul, hmy]; field_simp; ring
    have hexp : ∀ a b : ℝ, ∑ i ∈ range n, (y i - (a + b * x i)) ^ 2
        = ∑ i ∈ range n, (y i - my) ^ 2 + n * (my - a - b * mx) ^ 2 + b ^ 2 * sxx - 2 * b * sxy := by
      intro a b
      have : ∀ i, (y i - (a + b * x i)) ^ 2 = (y i - my) ^ 2 + (my - a - b * mx) ^ 2
          + b ^ 2 * (x i - mx) ^ 2 - 2 * b * ((x i - mx) * (y i - my))
          + 2 * (my - a - b * mx) * (y i - my) - 2 * b * (my - a - b * mx) * (x i - mx) := by
        intro i; ring
      simp only [this, sum_add_distrib, sum_sub_distrib, ← mul_sum, sum_const, card_range, nsmul_eq_mul,
        hX, hY]
      ring
    have hs0 : 0 ≤ sxx := sum_nonneg fun _ _ => sq_nonneg _
    rcases hs0.eq_or_lt with h0 | h0
    · have hz : ∀ i ∈ range n, x i - mx = 0 := fun i hi => by
        have := (sum_eq_zero_iff_of_nonneg (fun _ _ => sq_nonneg _)).mp h0.symm i hi
        exact pow_eq_zero_iff (two_ne_zero) |>.mp this
      have hxy : sxy = 0 := sum_eq_zero fun i hi => by rw [hz i hi, zero_mul]
      refine ⟨(my, 0), fun a b => ?_⟩
      rw [hexp, hexp, ← h0, hxy]
      have : 0 ≤ (n:ℝ) * (my - a - b * mx) ^ 2 := by positivity
      nlinarith
    · refine ⟨(my - sxy / sxx * mx, sxy / sxx), fun a b => ?_⟩
      rw [hexp, hexp]
      have h1 : 0 ≤ (n:ℝ) * (my - a - b * mx) ^ 2 := by positivity
      have h2 : (sxy / sxx) ^ 2 * sxx - 2 * (sxy / sxx) * sxy ≤ b ^ 2 * sxx - 2 * b * sxy := by
        have : b ^ 2 * sxx - 2 * b * sxy - ((sxy / sxx) ^ 2 * sxx - 2 * (sxy / sxx) * sxy)
            = sxx * (b - sxy / sxx) ^ 2 := by field_simp; ring
        have h3 : 0 ≤ sxx * (b - sxy / sxx) ^ 2 := by positivity
        linarith
      have h3 : my - (my - sxy / sxx * mx) - sxy / sxx * mx = 0 := by ring
      rw [h3]
      nlinarith

/-! ## C13: `spline_integral` -/

/-- C13: with `log=False` and limits that are given and non-zero (or not given), the result is the integral
of the interpolant (zero outside the data) between the requested limits, the ends of the data being the
default. -/
theorem C13_linear_partial (isp : Spl) (n : ℕ) (x f : ℕ → ℝ) (xmin xmax : Option ℝ)
    (h1 : xmin ≠ some 0) (h2 : xmax ≠ some 0) :
    splineIntegral isp n x f xmin xmax false
      = ∫ t in (xmin.getD (x 0))..(xmax.getD (x (n - 1))),
          Set.indicator (Set.Icc (x 0) (x (n - 1))) (isp n x f) t := by
  classical
  have key : ∀ (o : Option ℝ) (d : ℝ), o ≠ some 0 → o.getD d = if truthy o then o.getD 0 else d := by
    intro o d ho
    cases o with
    | none => rw [if_neg]; · rfl
              rintro ⟨v, hv, _⟩; simp at hv
    | some v =>
      rw [if_pos]
      · rfl
      · exact ⟨v, rfl, fun h => ho (by rw [h])⟩
  unfold splineIntegral splIntegral
  simp only [Bool.false_eq_true, if_false]
  rw [← key xmin _ h1, ← key xmax _ h2]

/-- C13 finding: with `log=False` a limit equal to 0 is silently replaced by the end of the data. -/
theorem C13_zero_limit_ignored (isp : Spl) (n : ℕ) (x f : ℕ → ℝ) (xmax : Option ℝ) :
    splineIntegral isp n x f (some 0) xmax false = splineIntegral isp n x f none xmax false ∧
    splineIntegral isp n x f xmax (some 0) false = splineIntegral isp n x f xmax none false := by
  have h0 : ¬ truthy (some 0) := by rintro ⟨v, hv, hne⟩; simp at hv; exact hne hv.symm
  have h1 : ¬ truthy none := by rintro ⟨v, hv, hne⟩; simp at hv
  unfold splineIntegral
  simp only [h0, h1, if_false, Bool.false_eq_true, and_self]

/-- the value that should have been returned differs: integrating the constant 1 from 0 on data starting
at -1. -/
theorem C13_zero_limit_wrong (isp : Spl) (n : ℕ) (x f : ℕ → ℝ) (hn : x 0 = -1) (hn1 : x (n - 1) = 1)
    (h1 : ∀ t, isp n x f t = 1) :
    splineIntegral isp n x f (some 0) none false = 2 ∧
    ∫ t in (0:ℝ)..(x (n - 1)), Set.indicator (Set.Icc (x 0) (x (n - 1))) (isp n x f) t = 1 := by
  have e : ∀ a b : ℝ, -1 ≤ a → a ≤ b → b ≤ 1 →
      ∫ t in a..b, Set.indicator (Set.Icc (-1:ℝ) 1) (isp n x f) t = b - a := by
    intro a b ha hab hb
    rw [intervalIntegral.integral_congr (g := fun _ => (1:ℝ))]
    · simp
    · intro t ht
      rw [Set.uIcc_of_le hab] at ht
      simp only
      rw [Set.indicator_of_mem (show t ∈ Set.Icc (-1:ℝ) 1 from ⟨by linarith [ht.1], by linarith [ht.2]⟩), h1]
  constructor
  · rw [(C13_zero_limit_ignored isp n x f none).1, C13_linear_partial _ _ _ _ _ _ (by simp) (by simp)]
    simp only [Option.getD_none]
    rw [hn, hn1, e _ _ le_rfl (by norm_num) le_rfl]; norm_num
  · rw [hn, hn1, e _ _ (by norm_num) (by norm_num) le_rfl]; norm_num

/-- C13: with `log=True` and positive limits the result is the integral over `x` between the limits of the
function `g(x) = s(ln x)/x` (zero outside the data), where `s` is the spline of `x f` in `ln x`; `g` takes
the given values at the data points. -/
theorem C13_log (isp : Spl) (hs : SplOk isp) (n : ℕ) (x f : ℕ → ℝ) (xmin xmax : Option ℝ)
    (hx0 : ∀ i < n, 0 < x i) (hx : ∀ i j, i < j → j < n → x i < x j) (hn : 0 < n)
    (hc : Continuous (isp n (fun i => Real.log (x i)) (fun i => x i * f i)))
    (h1 : 0 < xmin.getD (x 0)) (h12 : x 0 ≤ xmin.getD (x 0))
    (h2 : xmin.getD (x 0) ≤ xmax.getD (x (n - 1))) (h3 : xmax.getD (x (n - 1)) ≤ x (n - 1)) :
    let g := fun t => isp n (fun i => Real.log (x i)) (fun i => x i * f i) (Real.log t) / t
    splineIntegral isp n x f xmin xmax true = ∫ t in (xmin.getD (x 0))..(xmax.getD (x (n - 1))), g t ∧
    ∀ i < n, g (x i) = f i := by
  intro g
  set s := isp n (fun i => Real.log (x i)) (fun i => x i * f i) with hsdef
  set a := xmin.getD (x 0) with ha
  set b := xmax.getD (x (n - 1)) with hb
  have hb0 : 0 < b := lt_of_lt_of_le h1 h2
  have hla : (xmin.elim (Real.log (x 0)) Real.log) = Real.log a := by
    rw [ha]; cases xmin <;> rfl
  have hlb : (xmax.elim (Real.log (x (n - 1))) Real.log) = Real.log b := by
    rw [hb]; cases xmax <;> rfl
  constructor
  · unfold splineIntegral splIntegral
    simp only [if_true]
    rw [hla, hlb]
    have hlab : Real.log a ≤ Real.log b := Real.log_le_log h1 h2
    rw [intervalIntegral.integral_congr (g := s)]
    · have hsub : ∫ t in a..b, (s ∘ Real.log) t * t⁻¹ = ∫ u in Real.log a..Real.log b, s u := by
        apply intervalIntegral.integral_comp_mul_deriv'' (f := Real.log) (f' := fun t => t⁻¹) (g := s)
        · apply Real.continuousOn_log.mono
          intro t ht
          rw [Set.uIcc_of_le h2] at ht
          exact (lt_of_lt_of_le h1 ht.1).ne'
        · intro t ht
          rw [min_eq_left h2, max_eq_right h2] at ht
          exact (Real.hasDerivAt_log (lt_trans h1 ht.1).ne').hasDerivWithinAt
        · apply ContinuousOn.inv₀ continuousOn_id
          intro t ht
          rw [Set.uIcc_of_le h2] at ht
          exact (lt_of_lt_of_le h1 ht.1).ne'
        · exact hc.continuousOn
      rw [← hsub]
      apply intervalIntegral.integral_congr
      intro t _
      simp only [Function.comp, g, div_eq_mul_inv]
      rfl
    · intro u hu
      rw [Set.uIcc_of_le hlab] at hu
      rw [Set.indicator_of_mem]
      refine ⟨le_trans (Real.log_le_log (hx0 0 hn) h12) hu.1, le_trans hu.2 (Real.log_le_log hb0 h3)⟩
  · intro i hi
    have := hs.interp n (fun i => Real.log (x i)) (fun i => x i * f i)
      (fun i j hij hj => Real.log_lt_log (hx0 i (by omega)) (hx i j hij hj)) i hi
    simp only [g]
    rw [this]
    have := (hx0 i hi).ne'
    field_simp

/-- C13: the warning is given iff a non-zero limit lies outside the data; but (finding) nothing is
extrapolated: limits outside the data give the same value as limits at the ends of the data. -/
theorem C13_warning (n : ℕ) (x : ℕ → ℝ) (xmin xmax : Option ℝ) :
    splineIntegralWarns n x xmin xmax ↔
      (∃ v, xmin = some v ∧ v ≠ 0 ∧ v < x 0) ∨ (∃ v, xmax = some v ∧ v ≠ 0 ∧ x (n - 1) < v) := by
  unfold splineIntegralWarns truthy
  constructor
  · rintro (⟨⟨v, rfl, h⟩, h'⟩ | ⟨⟨v, rfl, h⟩, h'⟩)
    · left; exact ⟨v, rfl, h, h'⟩
    · right; exact ⟨v, rfl, h, h'⟩
  · rintro (⟨v, rfl, h, h'⟩ | ⟨v, rfl, h, h'⟩)
    · left; exact ⟨⟨v, rfl, h⟩, h'⟩
    · right; exact ⟨⟨v, rfl, h⟩, h'⟩

/-- C13 finding: no extrapolation takes place despite the warning. -/
theorem C13_no_extrapolation (isp : Spl) (n : ℕ) (x y : ℕ → ℝ) (a b : ℝ)
    (hc : Continuous (isp n x y)) (ha : a ≤ x 0) (hb : x (n - 1) ≤ b) :
    splIntegral isp n x y a b = splIntegral isp n x y (x 0) (x (n - 1)) := by
  unfold splIntegral
  set F := Set.indicator (Set.Icc (x 0) (x (n - 1))) (isp n x y) with hF
  have hint : ∀ c d, IntervalIntegrable F MeasureTheory.volume c d := by
    intro c d
    rw [intervalIntegrable_iff]
    apply MeasureTheory.Integrable.indicator
    · exact (hc.integrableOn_uIoc)
    · exact measurableSet_Icc
  have z1 : ∫ t in a..x 0, F t = 0 := by
    rw [intervalIntegral.integral_of_le ha, MeasureTheory.integral_Ioc_eq_integral_Ioo]
    apply MeasureTheory.setIntegral_eq_zero_of_forall_eq_zero
    intro t ht
    rw [hF, Set.indicator_of_notMem]
    intro h; exact absurd h.1 (not_le.mpr ht.2)
  have z2 : ∫ t in x (n - 1)..b, F t = 0 := by
    rw [intervalIntegral.integral_of_le hb]
    apply MeasureTheory.setIntegral_eq_zero_of_forall_eq_zero
    intro t ht
    rw [hF, Set.indicator_of_notMem]
    intro h; exact absurd h.2 (not_le.mpr ht.1)
  rw [← intervalIntegral.integral_add_adjacent_intervals (hint a (x 0)) (hint (x 0) b),
    ← intervalIntegral.integral_add_adjacent_intervals (hint (x 0) (x (n - 1))) (hint (x (n - 1)) b),
    z1, z2]
  ring

end Halomod.Tools
