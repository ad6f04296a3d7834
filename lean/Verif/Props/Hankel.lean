import Verif.Props.Ogata
import Verif.Props.HaloModel

/-! # C68: what `hankel_transform` does to a rescaled, summed or slightly changed spectrum -/
namespace Halomod.Tools

open Finset Filter Topology

noncomputable section

/-- the sum over the nodes of the first `j` chunks. -/
def hSum (h rr : ℝ) (chunk : ℕ) (f : ℝ → ℝ) (j : ℕ) : ℝ := ∑ n ∈ Ico 1 (1 + j * chunk), ogW h n * f (ogX h n / rr)

/-- the run may end after `j` chunks: the nodes are used up, or the last chunk changed the sum by no more than the tolerance. -/
def HStops (h atol rtol rr : ℝ) (chunk : ℕ) (f : ℝ → ℝ) (j : ℕ) : Prop :=
  ogNmax h ≤ 1 + j * chunk ∨ isclose atol rtol (if j = 0 then 100 else hSum h rr chunk f (j - 1)) (hSum h rr chunk f j)

open Classical in
/-- the number of chunks used. -/
def hStop (h atol rtol rr : ℝ) (chunk : ℕ) (f : ℝ → ℝ) : ℕ := sInf {j | HStops h atol rtol rr chunk f j}

/-- `hankel_transform(f, [rr], name, h, chunksize, atol, rtol)[0]` as a function (tools.py:47-88), for functions without NaN. -/
def hankelAt (h atol rtol : ℝ) (chunk : ℕ) (name : List Char) (f : ℝ → ℝ) (rr : ℝ) : ℝ :=
  hNorm name (hSum h rr chunk f (hStop h atol rtol rr chunk f)) rr

variable {h atol rtol rr : ℝ} {chunk : ℕ} {name : List Char}

theorem iter_state (f : ℝ → ℝ) (j : ℕ) : ((hBody h rr (fun k => some (f k)) chunk)^[j] hInit) =
    ⟨1 + j * chunk, if j = 0 then 100 else hSum h rr chunk f (j - 1), hSum h rr chunk f j⟩ := by
  have hr : ∀ j, ((hBody h rr (fun k => some (f k)) chunk)^[j] hInit).res = hSum h rr chunk f j := by
    intro j
    rw [(hIter h rr (fun k => some (f k)) chunk j).2]
    rfl
  have hp : ((hBody h rr (fun k => some (f k)) chunk)^[j] hInit).prev = if j = 0 then 100 else hSum h rr chunk f (j - 1) := by
    cases j with
    | zero => rfl
    | succ j =>
      rw [Function.iterate_succ_apply', if_neg (by omega), Nat.add_sub_cancel, ← hr j]
      rfl
  rw [← hp, ← hr j, ← (hIter h rr (fun k => some (f k)) chunk j).1]

theorem cond_iff (f : ℝ → ℝ) (j : ℕ) : ¬ hCond h atol rtol ((hBody h rr (fun k => some (f k)) chunk)^[j] hInit) ↔ HStops h atol rtol rr chunk f j := by
  rw [iter_state]
  unfold hCond HStops
  dsimp only
  rw [not_and_or, not_not, not_lt]
  exact or_comm

theorem hStops_exists (hc : 0 < chunk) (f : ℝ → ℝ) : ∃ j, HStops h atol rtol rr chunk f j := by
  refine ⟨ogNmax h, Or.inl ?_⟩
  have : ogNmax h ≤ ogNmax h * chunk := Nat.le_mul_of_pos_right _ hc
  omega

theorem hStop_spec (hc : 0 < chunk) (f : ℝ → ℝ) : HStops h atol rtol rr chunk f (hStop h atol rtol rr chunk f) ∧
    ∀ i < hStop h atol rtol rr chunk f, ¬ HStops h atol rtol rr chunk f i :=
  ⟨Nat.sInf_mem (s := {j | HStops h atol rtol rr chunk f j}) (hStops_exists hc f), fun _ hi => Nat.notMem_of_lt_sInf hi⟩

theorem hStop_eq (hc : 0 < chunk) {f : ℝ → ℝ} {j : ℕ} (h1 : HStops h atol rtol rr chunk f j) (h2 : ∀ i < j, ¬ HStops h atol rtol rr chunk f i) :
    hStop h atol rtol rr chunk f = j := by
  obtain ⟨a, b⟩ := hStop_spec (h := h) (atol := atol) (rtol := rtol) (rr := rr) hc f
  rcases lt_trichotomy (hStop h atol rtol rr chunk f) j with hl | hl | hl
  · exact absurd a (h2 _ hl)
  · exact hl
  · exact absurd h1 (b _ hl)

/-- C68: `hankelAt` is exactly what the modelled routine returns. -/
theorem C68_value (hc : 0 < chunk) (hn : validName name) (f : ℝ → ℝ) (v : ℝ) :
    HankelReturns h atol rtol rr (fun k => some (f k)) chunk name (some v) ↔ v = hankelAt h atol rtol chunk name f rr := by
  obtain ⟨a, b⟩ := hStop_spec (h := h) (atol := atol) (rtol := rtol) (rr := rr) hc f
  have hrun : WhileRuns (hCond h atol rtol) (hBody h rr (fun k => some (f k)) chunk) hInit
      ((hBody h rr (fun k => some (f k)) chunk)^[hStop h atol rtol rr chunk f] hInit) :=
    ⟨_, rfl, (cond_iff f _).mpr a, fun i hi => not_not.mp fun hn => b i hi ((cond_iff f i).mp hn)⟩
  have hres : ((hBody h rr (fun k => some (f k)) chunk)^[hStop h atol rtol rr chunk f] hInit).res = hSum h rr chunk f (hStop h atol rtol rr chunk f) := by
    rw [iter_state]
  constructor
  · rintro (⟨h1, -⟩ | ⟨-, s', hs', e⟩)
    · exact absurd hn h1
    · rw [whileRuns_unique hs' hrun, hres] at e
      exact Option.some.inj e
  · rintro rfl
    exact Or.inr ⟨hn, _, hrun, by rw [hres]; rfl⟩

theorem hSum_smul (c : ℝ) (f : ℝ → ℝ) (j : ℕ) : hSum h rr chunk (fun k => c * f k) j = c * hSum h rr chunk f j := by
  unfold hSum
  rw [mul_sum]
  exact sum_congr rfl fun n _ => by ring

theorem hSum_add (f g : ℝ → ℝ) (j : ℕ) : hSum h rr chunk (fun k => f k + g k) j = hSum h rr chunk f j + hSum h rr chunk g j := by
  unfold hSum
  rw [← sum_add_distrib]
  exact sum_congr rfl fun n _ => by ring

theorem hNorm_mul (name : List Char) (c x rr : ℝ) : hNorm name (c * x) rr = c * hNorm name x rr := by
  unfold hNorm
  split_ifs <;> ring

theorem hNorm_add (name : List Char) (x y rr : ℝ) : hNorm name (x + y) rr = hNorm name x rr + hNorm name y rr := by
  unfold hNorm
  split_ifs <;> ring

theorem hNorm_inj (name : List Char) {x y rr : ℝ} (hr : 0 < rr) (e : hNorm name x rr = hNorm name y rr) : x = y := by
  have hpi := Real.pi_pos
  unfold hNorm at e
  split_ifs at e
  · exact (div_left_inj' (by positivity)).mp e
  · rw [div_left_inj' (by positivity), mul_assoc, mul_assoc] at e
    exact mul_right_cancel₀ (by positivity) e

/-- C68: the transform is linear in the spectrum at a fixed number of chunks: when rescaling (adding) does not change where the sums end, the
result is rescaled (added). -/
theorem C68_linear_same_nodes (name : List Char) (f g : ℝ → ℝ) (c : ℝ) :
    (hStop h atol rtol rr chunk (fun k => c * f k) = hStop h atol rtol rr chunk f →
      hankelAt h atol rtol chunk name (fun k => c * f k) rr = c * hankelAt h atol rtol chunk name f rr) ∧
    (hStop h atol rtol rr chunk f = hStop h atol rtol rr chunk g → hStop h atol rtol rr chunk (fun k => f k + g k) = hStop h atol rtol rr chunk g →
      hankelAt h atol rtol chunk name (fun k => f k + g k) rr = hankelAt h atol rtol chunk name f rr + hankelAt h atol rtol chunk name g rr) := by
  constructor
  · intro e
    unfold hankelAt
    rw [e, hSum_smul, hNorm_mul]
  · intro e1 e2
    unfold hankelAt
    rw [e2, e1, hSum_add, hNorm_add]

/-- C68: with a purely relative tolerance rescaling the spectrum rescales the transform, whatever the spectrum. -/
theorem C68_relative_tolerance_partial (hc : 0 < chunk) (name : List Char) (f : ℝ → ℝ) {c : ℝ} (hc0 : 0 < c) :
    hankelAt h 0 rtol chunk name (fun k => c * f k) rr = c * hankelAt h 0 rtol chunk name f rr := by
  refine (C68_linear_same_nodes name f f c).1 ?_
  obtain ⟨a, b⟩ := hStop_spec (h := h) (atol := 0) (rtol := rtol) (rr := rr) hc f
  have key : ∀ j, HStops h 0 rtol rr chunk (fun k => c * f k) j ↔ HStops h 0 rtol rr chunk f j := by
    intro j
    unfold HStops
    refine or_congr Iff.rfl ?_
    simp only [hSum_smul]
    unfold isclose
    by_cases hj : j = 0
    · subst hj
      simp [hSum]
    · rw [if_neg hj, if_neg hj, ← mul_sub, abs_mul, abs_mul, abs_of_pos hc0, zero_add, zero_add,
        show rtol * (c * |hSum h rr chunk f j|) = c * (rtol * |hSum h rr chunk f j|) by ring]
      exact mul_le_mul_iff_right₀ hc0
  exact hStop_eq hc ((key _).mpr a) fun i hi h' => b i hi ((key i).mp h')

/-- C68 finding: with the absolute tolerance (1e-8 by default) a small enough spectrum is summed over the first chunk only, whatever its shape. -/
theorem C68_faint_first_chunk (hc : 0 < chunk) (name : List Char) (ha : 0 < atol) (ha' : atol < 100) (hrt : 0 ≤ rtol) (hn : 1 < ogNmax h) (f : ℝ → ℝ) :
    ∃ c0 > 0, ∀ c, 0 < c → c < c0 →
      hankelAt h atol rtol chunk name (fun k => c * f k) rr = c * hNorm name (∑ n ∈ Icc 1 chunk, ogW h n * f (ogX h n / rr)) rr := by
  have hI : (∑ n ∈ Icc 1 chunk, ogW h n * f (ogX h n / rr)) = hSum h rr chunk f 1 := by
    unfold hSum
    refine sum_congr ?_ fun _ _ => rfl
    ext n
    simp only [mem_Icc, mem_Ico]
    omega
  set A := |hSum h rr chunk f 1| with hA
  have hA0 : 0 ≤ A := abs_nonneg _
  refine ⟨atol / (A + 1), by positivity, fun c hc0 hc1 => ?_⟩
  have hstop : hStop h atol rtol rr chunk (fun k => c * f k) = 1 := by
    refine hStop_eq hc (Or.inr ?_) fun i hi => ?_
    · rw [if_neg (by norm_num)]
      unfold isclose
      rw [hSum_smul, hSum_smul, show hSum h rr chunk f (1 - 1) = 0 by simp [hSum], mul_zero, zero_sub, abs_neg, abs_mul, abs_of_pos hc0, ← hA]
      have h1 : c * (A + 1) < atol := (lt_div_iff₀ (by positivity)).mp hc1
      have h2 : 0 ≤ rtol * (c * A) := by positivity
      nlinarith
    · have : i = 0 := by omega
      subst this
      unfold HStops isclose
      rw [if_pos rfl, not_or]
      refine ⟨by omega, ?_⟩
      simp only [hSum]
      norm_num
      exact ha'
  unfold hankelAt
  rw [hstop, hSum_smul, hNorm_mul, hI]

/-- C68 finding: so wherever more than the first chunk matters, the transform of a faint copy of the spectrum is *not* the faint copy of the transform. -/
theorem C68_scaling_breaks (hc : 0 < chunk) (name : List Char) (ha : 0 < atol) (ha' : atol < 100) (hrt : 0 ≤ rtol) (hn : 1 < ogNmax h) (f : ℝ → ℝ)
    (hf : hankelAt h atol rtol chunk name f rr ≠ hNorm name (∑ n ∈ Icc 1 chunk, ogW h n * f (ogX h n / rr)) rr) :
    ∃ c0 > 0, ∀ c, 0 < c → c < c0 →
      hankelAt h atol rtol chunk name (fun k => c * f k) rr ≠ c * hankelAt h atol rtol chunk name f rr := by
  obtain ⟨c0, h0, h1⟩ := C68_faint_first_chunk (rr := rr) hc name ha ha' hrt hn f
  refine ⟨c0, h0, fun c hc0 hc1 e => hf ?_⟩
  rw [h1 c hc0 hc1] at e
  exact (mul_left_cancel₀ hc0.ne' e).symm

/-- C68: a brighter copy of a spectrum never uses fewer nodes. -/
theorem C68_brighter_more_nodes (hc : 0 < chunk) (ha : 0 ≤ atol) (f : ℝ → ℝ) {c : ℝ} (hc1 : 1 ≤ c) :
    hStop h atol rtol rr chunk f ≤ hStop h atol rtol rr chunk (fun k => c * f k) := by
  obtain ⟨a, -⟩ := hStop_spec (h := h) (atol := atol) (rtol := rtol) (rr := rr) hc (fun k => c * f k)
  obtain ⟨-, b⟩ := hStop_spec (h := h) (atol := atol) (rtol := rtol) (rr := rr) hc f
  by_contra hlt
  refine b _ (not_le.mp hlt) ?_
  set j := hStop h atol rtol rr chunk (fun k => c * f k) with hj
  rcases a with a | a
  · exact Or.inl a
  · right
    unfold isclose at a ⊢
    have hc0 : 0 < c := by linarith
    by_cases hj0 : j = 0
    · rw [if_pos hj0] at a ⊢
      rw [hj0] at a ⊢
      simpa [hSum] using a
    · rw [if_neg hj0] at a ⊢
      rw [hSum_smul, hSum_smul, ← mul_sub, abs_mul, abs_mul, abs_of_pos hc0] at a
      have h1 : atol ≤ c * atol := le_mul_of_one_le_left ha hc1
      have h2 : c * |hSum h rr chunk f (j - 1) - hSum h rr chunk f j| ≤ c * (atol + rtol * |hSum h rr chunk f j|) := by nlinarith
      exact le_of_mul_le_mul_left h2 hc0

/-- the stopping test is not met exactly on its boundary. -/
def NoTie (h atol rtol rr : ℝ) (chunk : ℕ) (g : ℝ → ℝ) : Prop :=
  ∀ j, 1 ≤ j → j ≤ hStop h atol rtol rr chunk g →
    |hSum h rr chunk g (j - 1) - hSum h rr chunk g j| ≠ atol + rtol * |hSum h rr chunk g j|

/-- C68: where the stopping test is not met exactly on its boundary, a spectrum that tends to `g` wavenumber by wavenumber has a transform that tends to
that of `g`. -/
theorem C68_continuous {ι : Type} {l : Filter ι} (hc : 0 < chunk) (name : List Char) {f : ι → ℝ → ℝ} {g : ℝ → ℝ}
    (hfg : ∀ k, Tendsto (fun i => f i k) l (𝓝 (g k))) (hg : NoTie h atol rtol rr chunk g) :
    Tendsto (fun i => hankelAt h atol rtol chunk name (f i) rr) l (𝓝 (hankelAt h atol rtol chunk name g rr)) := by
  have hS : ∀ j, Tendsto (fun i => hSum h rr chunk (f i) j) l (𝓝 (hSum h rr chunk g j)) := fun j =>
    tendsto_finsetSum _ fun n _ => (hfg _).const_mul _
  obtain ⟨a, b⟩ := hStop_spec (h := h) (atol := atol) (rtol := rtol) (rr := rr) hc g
  set J := hStop h atol rtol rr chunk g with hJ
  have hev : ∀ j ≤ J, ∀ᶠ i in l, (HStops h atol rtol rr chunk (f i) j ↔ HStops h atol rtol rr chunk g j) := by
    intro j hjJ
    rcases Nat.eq_zero_or_pos j with h0 | h0
    · subst h0
      refine Eventually.of_forall fun i => ?_
      unfold HStops
      simp [hSum]
    · have hne := hg j h0 hjJ
      have h1 : Tendsto (fun i => |hSum h rr chunk (f i) (j - 1) - hSum h rr chunk (f i) j|) l
          (𝓝 |hSum h rr chunk g (j - 1) - hSum h rr chunk g j|) := ((hS _).sub (hS _)).abs
      have h2 : Tendsto (fun i => atol + rtol * |hSum h rr chunk (f i) j|) l (𝓝 (atol + rtol * |hSum h rr chunk g j|)) :=
        ((hS _).abs.const_mul _).const_add _
      unfold HStops isclose
      rw [if_neg (by omega)]
      rcases lt_or_gt_of_ne hne with hlt | hlt
      · filter_upwards [h1.eventually_lt h2 hlt] with i hi
        rw [if_neg (by omega)]
        exact or_congr Iff.rfl (iff_of_true hi.le hlt.le)
      · filter_upwards [h2.eventually_lt h1 hlt] with i hi
        rw [if_neg (by omega)]
        exact or_congr Iff.rfl (iff_of_false (not_le.mpr hi) (not_le.mpr hlt))
  have hall : ∀ᶠ i in l, ∀ j ∈ Finset.range (J + 1), (HStops h atol rtol rr chunk (f i) j ↔ HStops h atol rtol rr chunk g j) := by
    rw [Filter.eventually_all_finset]
    exact fun j hj => hev j (by simpa [Nat.lt_succ_iff] using hj)
  have hlim : Tendsto (fun i => hNorm name (hSum h rr chunk (f i) J) rr) l (𝓝 (hNorm name (hSum h rr chunk g J) rr)) := by
    unfold hNorm
    split_ifs
    · exact (hS J).div_const _
    · exact (((hS J).mul_const _).mul_const _).div_const _
  refine (hlim.congr' ?_)
  filter_upwards [hall] with i hi
  have : hStop h atol rtol rr chunk (f i) = J := by
    refine hStop_eq hc ((hi J (by simp)).mpr a) fun j hj h' => b j hj ((hi j (by simp; omega)).mp h')
  unfold hankelAt
  rw [this]

theorem ogW_ne {h : ℝ} (hh : 0 < h) {n : ℕ} (hn : 0 < n) (hs : Real.sin (ogX h n) ≠ 0) : ogW h n ≠ 0 := by
  have hn' : (0:ℝ) < n := by exact_mod_cast hn
  have hx0 : 0 < ogX h n := by
    rw [← ogX_zero h]
    exact ogX_strictMono hh hn
  have hd : 0 < ogDpsi (h * n) := by
    rw [ogDpsi_eq]
    have := ogTau_pos (mul_pos hh hn')
    have := Real.pi_pos
    have := Real.cosh_pos (h * n)
    have := Real.cosh_pos (ogS (h * n))
    positivity
  unfold ogW
  exact mul_ne_zero (mul_ne_zero (mul_ne_zero Real.pi_pos.ne' hs) hd.ne') hx0.ne'

theorem ogW_first {h : ℝ} (hh : 0 < h) : ogW h 1 ≠ 0 := by
  have hx0 : 0 < ogX h 1 := by
    rw [← ogX_zero h]
    exact ogX_strictMono hh (by norm_num)
  have hx1 : ogX h 1 < Real.pi := by
    have ht : Real.tanh (ogS (h * (1:ℕ)) / 2) < 1 := by
      rw [Real.tanh_eq_sinh_div_cosh, div_lt_one (Real.cosh_pos _)]
      exact Real.sinh_lt_cosh _
    unfold ogX
    have := Real.pi_pos
    push_cast at ht ⊢
    nlinarith
  exact ogW_ne hh (by norm_num) (Real.sin_pos_of_pos_of_lt_pi hx0 hx1).ne'

theorem sinh_le' {t : ℝ} (h0 : 0 ≤ t) (h1 : t < 1) : Real.sinh t ≤ t / (1 - t) := by
  have ht : 0 < 1 - t := by linarith
  have h2 : 1 - t ≤ Real.exp (-t) := by have := Real.add_one_le_exp (-t); linarith
  have h3 : Real.exp t ≤ 1 / (1 - t) := by
    rw [le_div_iff₀ ht]
    have := mul_le_mul_of_nonneg_left h2 (Real.exp_pos t).le
    rwa [← Real.exp_add, add_neg_cancel, Real.exp_zero] at this
  rw [Real.sinh_eq, div_le_div_iff₀ (by norm_num) ht]
  have h4 : Real.exp t * (1 - t) ≤ 1 := (le_div_iff₀ ht).mp h3
  nlinarith

/-- with the step used for two-halo correlations a node of the second chunk carries weight. -/
theorem ogW_second : ∃ n, 101 ≤ n ∧ n ≤ 102 ∧ ogW 1e-4 n ≠ 0 := by
  have hh : (0:ℝ) < 1e-4 := by norm_num
  have hx : ogX 1e-4 102 < 2 * Real.pi := by
    have hp := Real.pi_pos
    have hp2 := Real.pi_lt_d2
    have e1 : Real.sinh (1e-4 * (102:ℕ)) ≤ 0.0104 := by
      refine (sinh_le' (by norm_num) (by norm_num)).trans ?_
      norm_num
    have e0 : 0 ≤ Real.sinh (1e-4 * (102:ℕ)) := Real.sinh_nonneg_iff.mpr (by norm_num)
    have e2 : ogS (1e-4 * (102:ℕ)) / 2 ≤ 0.0165 := by unfold ogS; nlinarith
    have e3 : 0 ≤ ogS (1e-4 * (102:ℕ)) / 2 := by unfold ogS; positivity
    have e4 : Real.tanh (ogS (1e-4 * (102:ℕ)) / 2) ≤ 0.017 := by
      rw [Real.tanh_eq_sinh_div_cosh]
      refine (div_le_self (Real.sinh_nonneg_iff.mpr e3) (Real.one_le_cosh _)).trans ((Real.sinh_le_sinh.mpr e2).trans ?_)
      refine (sinh_le' (by norm_num) (by norm_num)).trans ?_
      norm_num
    unfold ogX
    rw [show ((102:ℕ):ℝ) = 102 by norm_num] at e4 ⊢
    nlinarith
  have hlt : ogX 1e-4 101 < ogX 1e-4 102 := ogX_strictMono hh (by norm_num)
  have h0 : 0 < ogX 1e-4 101 := by
    rw [← ogX_zero 1e-4]
    exact ogX_strictMono hh (by norm_num)
  by_contra hcon
  push Not at hcon
  have key : ∀ n, 101 ≤ n → n ≤ 102 → ogX 1e-4 n = Real.pi := by
    intro n h1 h2
    have hz := hcon n h1 h2
    have hs : Real.sin (ogX 1e-4 n) = 0 := by
      by_contra hne
      exact ogW_ne hh (by omega) hne hz
    have hb : 0 < ogX 1e-4 n ∧ ogX 1e-4 n < 2 * Real.pi := by
      have : n = 101 ∨ n = 102 := by omega
      rcases this with rfl | rfl
      · exact ⟨h0, by linarith⟩
      · exact ⟨by linarith, hx⟩
    obtain ⟨k, hk⟩ := Real.sin_eq_zero_iff.mp hs
    have hp := Real.pi_pos
    have hk1 : (0:ℝ) < k := by
      by_contra h'
      have := hb.1
      rw [← hk] at this
      nlinarith
    have hk2 : (k:ℝ) < 2 := by
      have := hb.2
      rw [← hk] at this
      exact lt_of_mul_lt_mul_right this hp.le
    have : k = 1 := by
      have h1' : 0 < k := by exact_mod_cast hk1
      have h2' : k < 2 := by exact_mod_cast hk2
      omega
    rw [← hk, this]; simp
  have a := key 101 (by norm_num) (by norm_num)
  have b := key 102 (by norm_num) (by norm_num)
  linarith

/-- a spectrum with unit contributions at a node of the first chunk and one of the second. -/
theorem two_nodes {h rr : ℝ} (hh : 0 < h) (hr : 0 < rr) {chunk n : ℕ} (hn1 : chunk < n) (hn2 : n ≤ 2 * chunk) (hc : 0 < chunk) (hw : ogW h n ≠ 0) :
    ∃ f : ℝ → ℝ, (∀ k, f k ≠ 0 → k = ogX h 1 / rr ∨ k = ogX h n / rr) ∧ hSum h rr chunk f 0 = 0 ∧ hSum h rr chunk f 1 = 1 ∧ ∀ j, 2 ≤ j → hSum h rr chunk f j = 2 := by
  classical
  have hinj : ∀ a b, ogX h a / rr = ogX h b / rr → a = b := fun a b e =>
    (ogX_strictMono hh).injective ((div_left_inj' hr.ne').mp e)
  refine ⟨fun k => (if k = ogX h 1 / rr then (ogW h 1)⁻¹ else 0) + if k = ogX h n / rr then (ogW h n)⁻¹ else 0, ?_, ?_, ?_, ?_⟩
  · intro k hk
    by_contra h'
    push Not at h'
    exact hk (by simp [h'.1, h'.2])
  · simp [hSum]
  all_goals unfold hSum
  all_goals simp only [mul_add, sum_add_distrib, mul_ite, mul_zero]
  · rw [sum_eq_single 1, sum_eq_zero, if_pos rfl, mul_inv_cancel₀ (ogW_first hh), add_zero]
    · intro m hm
      rw [mem_Ico] at hm
      exact if_neg fun e => by have := hinj _ _ e; omega
    · intro m _ hm
      exact if_neg fun e => hm (hinj _ _ e)
    · intro h'
      exact absurd (mem_Ico.mpr ⟨le_rfl, by omega⟩) h'
  · intro j hj
    have hj' : 2 * chunk ≤ j * chunk := Nat.mul_le_mul_right _ hj
    rw [sum_eq_single 1, sum_eq_single n, if_pos rfl, if_pos rfl, mul_inv_cancel₀ (ogW_first hh), mul_inv_cancel₀ hw]
    · norm_num
    · intro m _ hm
      exact if_neg fun e => hm (hinj _ _ e)
    · intro h'
      exact absurd (mem_Ico.mpr ⟨by omega, by omega⟩) h'
    · intro m _ hm
      exact if_neg fun e => hm (hinj _ _ e)
    · intro h'
      exact absurd (mem_Ico.mpr ⟨le_rfl, by omega⟩) h'

theorem breaks_of_sums (name : List Char) {rr : ℝ} (hr : 0 < rr) (f : ℝ → ℝ) (f1 : hSum 1e-4 rr 100 f 1 = 1) (f2 : hSum 1e-4 rr 100 f 2 = 2)
    (f3 : hSum 1e-4 rr 100 f 3 = 2) : ∃ c0 > 0, ∀ c, 0 < c → c < c0 →
      hankelAt 1e-4 1e-8 1e-8 100 name (fun k => c * f k) rr ≠ c * hankelAt 1e-4 1e-8 1e-8 100 name f rr := by
  have f0 : hSum 1e-4 rr 100 f 0 = 0 := by simp [hSum]
  have hN : 400 < ogNmax 1e-4 := by
    unfold ogNmax
    exact lt_of_lt_of_le (by norm_num : 400 < 401) (Nat.le_floor (by norm_num))
  refine C68_scaling_breaks (by norm_num) name (by norm_num) (by norm_num) (by norm_num) (by omega) f ?_
  have hstop : hStop 1e-4 1e-8 1e-8 rr 100 f = 3 := by
    refine hStop_eq (by norm_num) (Or.inr ?_) fun i hi => ?_
    · rw [if_neg (by norm_num), show 3 - 1 = 2 from rfl, f2, f3]
      unfold isclose
      norm_num
    · unfold HStops isclose
      rw [not_or, not_le, not_le]
      refine ⟨by omega, ?_⟩
      interval_cases i
      · rw [if_pos rfl, f0]; norm_num
      · rw [if_neg (by norm_num), f0, f1]; norm_num
      · rw [if_neg (by norm_num), f1, f2]; norm_num
  unfold hankelAt
  rw [hstop, f3, show (∑ n ∈ Icc 1 100, ogW 1e-4 n * f (ogX 1e-4 n / rr)) = hSum 1e-4 rr 100 f 1 by
    unfold hSum
    refine sum_congr ?_ fun _ _ => rfl
    ext n
    simp only [mem_Icc, mem_Ico]
    omega, f1]
  intro e
  have := hNorm_inj name hr e
  norm_num at this

/-- C68 finding: with the step, the chunk size and the tolerances of the two-halo terms, there is at every separation a spectrum whose faint copies
are not transformed into faint copies of its transform. -/
theorem C68_scaling_breaks_here (name : List Char) {rr : ℝ} (hr : 0 < rr) :
    ∃ f : ℝ → ℝ, ∃ c0 > 0, ∀ c, 0 < c → c < c0 →
      hankelAt 1e-4 1e-8 1e-8 100 name (fun k => c * f k) rr ≠ c * hankelAt 1e-4 1e-8 1e-8 100 name f rr := by
  obtain ⟨n, h1, h2, hw⟩ := ogW_second
  obtain ⟨f, -, -, f1, f2⟩ := two_nodes (chunk := 100) (by norm_num) hr (by omega) (by omega) (by norm_num) hw
  exact ⟨f, breaks_of_sums name hr f f1 (f2 2 (by norm_num)) (f2 3 (by norm_num))⟩

/-- spectra that meet `NoTie` and the other conditions above exist -/
example (rr : ℝ) (hr : 0 < rr) : ∃ f : ℝ → ℝ, (∃ k, f k ≠ 0) ∧ NoTie 1e-4 1e-8 1e-8 rr 100 f := by
  obtain ⟨n, h1, h2, hw⟩ := ogW_second
  obtain ⟨f, -, f0, f1, f2⟩ := two_nodes (chunk := 100) (by norm_num) hr (by omega) (by omega) (by norm_num) hw
  refine ⟨f, ?_, ?_⟩
  · by_contra h'
    push Not at h'
    simp [hSum, h'] at f1
  · intro j hj _
    rcases Nat.lt_or_ge j 2 with h | h
    · have : j = 1 := by omega
      subst this
      rw [f1, Nat.sub_self, f0]; norm_num
    · rw [f2 j h]
      rcases Nat.lt_or_ge j 3 with h' | h'
      · have : j = 2 := by omega
        subst this
        rw [show 2 - 1 = 1 from rfl, f1]; norm_num
      · rw [f2 (j - 1) (by omega)]; norm_num

end
end Halomod.Tools
