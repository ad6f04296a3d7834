import Verif.Prelude.Quad
import Mathlib.Analysis.SpecialFunctions.Trigonometric.Basic
import Mathlib.Analysis.SpecialFunctions.Log.Basic
import Mathlib.Analysis.SpecialFunctions.Pow.Real
import Mathlib.MeasureTheory.Integral.IntervalIntegral.Basic
import Mathlib.Algebra.Order.Floor.Ring
import Mathlib.Algebra.Order.Archimedean.Real.Basic

/-!
# Model of the numerical tools in `/repo/src/halomod/tools.py`

Floats are reals.  Arrays are `(n, ℕ → ℝ)`.  Splines of scipy are parameters.
-/
namespace Halomod.Tools

open Finset

noncomputable section

/-! ## Ogata / Hankel -/

/-- tools.py:37: `s = pi sinh(t)`. -/
def ogS (t : ℝ) : ℝ := Real.pi * Real.sinh t

/-- node `x` number `n`, tools.py:36-38 (and 142-145): `x = pi n tanh(s/2)`, `t = h n`. -/
def ogX (h : ℝ) (n : ℕ) : ℝ := Real.pi * n * Real.tanh (ogS (h * n) / 2)

/-- `dpsi`, tools.py:40-41 (and 147-148); entries where `1 + cosh s` is 0 are left as they are. -/
def ogDpsi (t : ℝ) : ℝ :=
  if 1 + Real.cosh (ogS t) ≠ 0 then
    (Real.pi * t * Real.cosh t + Real.sinh (ogS t)) / (1 + Real.cosh (ogS t))
  else 1 + Real.cosh (ogS t)

/-- `sumparts` number `n`, tools.py:42 (and 149). -/
def ogW (h : ℝ) (n : ℕ) : ℝ := Real.pi * Real.sin (ogX h n) * ogDpsi (h * n) * ogX h n

/-- `np.isclose(a, b, atol=.., rtol=..)`: `|a - b| <= atol + rtol * |b|`. -/
def isclose (atol rtol a b : ℝ) : Prop := |a - b| ≤ atol + rtol * |b|

/-- `nmax = int(3.2 / h)`, tools.py:61 (for `h > 0`). -/
def ogNmax (h : ℝ) : ℕ := ⌊3.2 / h⌋₊

/-- loop variables of tools.py:66-80. -/
structure HState where
  nn : ℕ
  prev : ℝ
  res : ℝ

/-- `pk[np.isnan(pk)] = 0`, tools.py:76; a value of the user's function is `none` for NaN. -/
def nan0 (p : Option ℝ) : ℝ := p.getD 0

/-- One term of the sum, tools.py:72-78. -/
def hterm (h rr : ℝ) (p : ℝ → Option ℝ) (n : ℕ) : ℝ := ogW h n * nan0 (p (ogX h n / rr))

/-- initial values, tools.py:66-68. -/
def hInit : HState := ⟨1, 100, 0⟩

/-- loop condition, tools.py:70. -/
def hCond (h atol rtol : ℝ) (s : HState) : Prop :=
  ¬ isclose atol rtol s.prev s.res ∧ s.nn < ogNmax h

/-- loop body, tools.py:71-80. -/
def hBody (h rr : ℝ) (p : ℝ → Option ℝ) (chunk : ℕ) (s : HState) : HState :=
  { nn := s.nn + chunk
    prev := s.res
    res := s.res + ∑ n ∈ Ico s.nn (s.nn + chunk), hterm h rr p n }

/-- `while cond: body`, started in `s`, ends in `s'`. -/
def WhileRuns {σ : Type} (cond : σ → Prop) (body : σ → σ) (s s' : σ) : Prop :=
  ∃ j, s' = body^[j] s ∧ ¬ cond s' ∧ ∀ i < j, cond (body^[i] s)

/-- `trns_var_name not in "kr"` (substring test), tools.py:57. -/
def validName (name : List Char) : Prop := name <:+: ['k', 'r']

/-- Final normalisation, tools.py:84-87. -/
def hNorm (name : List Char) (out rr : ℝ) : ℝ :=
  if name = ['r'] then out / (2 * Real.pi ^ 2 * rr ^ 3) else out * 4 * Real.pi / rr ^ 3

/-- `hankel_transform` at one value `rr` returns `v` (`none` = `ValueError`), tools.py:47-88. -/
def HankelReturns (h atol rtol rr : ℝ) (p : ℝ → Option ℝ) (chunk : ℕ) (name : List Char)
    (v : Option ℝ) : Prop :=
  (¬ validName name ∧ v = none) ∨
  (validName name ∧ ∃ s', WhileRuns (hCond h atol rtol) (hBody h rr p chunk) hInit s' ∧
    v = some (hNorm name s'.res rr))

/-! ## `power_to_corr_ogata` -/

/-- 1D tabulated function: `n` samples `p` at abscissae `k` (increasing, positive). -/
structure Table where
  n : ℕ
  k : ℕ → ℝ
  p : ℕ → ℝ

/-- tools.py:151-155: `power_pos` is withdrawn at an end where one of the two samples is not positive. -/
def posLo (tb : Table) (flag : Bool) : Prop := flag = true ∧ 0 < tb.p 0 ∧ 0 < tb.p 1
/-- as `posLo`, upper end. -/
def posHi (tb : Table) (flag : Bool) : Prop :=
  flag = true ∧ 0 < tb.p (tb.n - 2) ∧ 0 < tb.p (tb.n - 1)

/-- scipy `InterpolatedUnivariateSpline(x, y, k=3)` as an evaluator: `spl n x y t`. -/
abbrev Spl := ℕ → (ℕ → ℝ) → (ℕ → ℝ) → ℝ → ℝ

open Classical in
/-- `pfunc`, tools.py:157-188 (the `ValueError` of line 178 is `none`). -/
def pfunc (spl : Spl) (tb : Table) (lo hi : Bool) (logk : ℝ) : Option ℝ :=
  let lnk := fun i => Real.log (tb.k i)
  let a := tb.n - 2
  let b := tb.n - 1
  if logk < lnk 0 then
    if posLo tb lo then
      some (Real.exp ((Real.log (tb.p 1) - Real.log (tb.p 0)) * (logk - lnk 0) / (lnk 1 - lnk 0)
        + Real.log (tb.p 0)))
    else some ((tb.p 1 - tb.p 0) * (logk - lnk 0) / (lnk 1 - lnk 0) + tb.p 0)
  else if logk > lnk b then
    if posHi tb hi then
      if tb.p b ≤ 0 ∨ tb.p a ≤ 0 then none
      else some (Real.exp ((Real.log (tb.p b) - Real.log (tb.p a)) * (logk - lnk b) / (lnk b - lnk a)
        + Real.log (tb.p b)))
    else some ((tb.p b - tb.p a) * (logk - lnk b) / (lnk b - lnk a) + tb.p b)
  else some (spl tb.n lnk tb.p logk)

/-- `cumsum[i]`, tools.py:200: sum over nodes 1..i+1 (`roots = arange(1, nmax+1)`, line 141). -/
def ogCum (spl : Spl) (tb : Table) (lo hi : Bool) (h r : ℝ) (i : ℕ) : ℝ :=
  ∑ n ∈ Icc 1 (i + 1), ogW h n * (pfunc spl tb lo hi (Real.log (ogX h n / r))).getD 0

open Classical in
/-- First index with `kk > k.max()`, tools.py:217. -/
def ogIndx (tb : Table) (h r : ℝ) : ℕ := sInf {i | i < ogNmax h ∧ ogX h (i + 1) / r > tb.k (tb.n - 1)}

open Classical in
/-- value of the sum returned for one `r`, tools.py:212-237.  Python's `cumsum[indx-1]` with `indx = 0`
is the last element. Warnings are not modelled. -/
def ogSum (spl : Spl) (tb : Table) (lo hi : Bool) (h atol rtol r : ℝ) : ℝ :=
  let N := ogNmax h
  let cum := ogCum spl tb lo hi h r
  if ∀ i < N, ogX h (i + 1) / r ≤ tb.k (tb.n - 1) then cum (N - 1)
  else
    let ix := ogIndx tb h r
    let before := if ix = 0 then cum (N - 1) else cum (ix - 1)
    if isclose atol rtol (cum ix) before then cum ix else cum (N - 1)

/-- `power_to_corr_ogata` at one `r`, tools.py:91-239 (1D power). -/
def powerToCorrOgata (spl : Spl) (tb : Table) (lo hi : Bool) (h atol rtol r : ℝ) : ℝ :=
  ogSum spl tb lo hi h atol rtol r / (2 * Real.pi ^ 2 * r ^ 3)

/-- `corr_to_power_ogata`, tools.py:242-273. -/
def corrToPowerOgata (spl : Spl) (tb : Table) (lo hi : Bool) (h atol rtol k : ℝ) : ℝ :=
  8 * Real.pi ^ 3 * powerToCorrOgata spl tb lo hi h atol rtol k

/-! ## `power_to_corr` -/

/-- `min_k`, tools.py:313, with `temp_min_k = 1`. -/
def pcMinK (r : ℝ) : ℝ := (2 * (⌈(1 * r / Real.pi - 1) / 2⌉ : ℝ) + 0.5) * Real.pi / r

/-- `maxk`, tools.py:314. -/
def pcMaxK (r : ℝ) : ℝ := max (501.5 * Real.pi / r) (pcMinK r)

/-- `nk`, tools.py:317, with `minsteps = 8`, `mink = 1e-6`. -/
def pcNk (r : ℝ) : ℕ :=
  ⌈Real.log (pcMaxK r / 1e-6) / Real.log (pcMaxK r / (pcMaxK r - Real.pi / (8 * r)))⌉₊

/-- `dlnk` of `np.linspace(.., retstep=True)`, tools.py:319. -/
def pcDlnk (r : ℝ) : ℝ := (Real.log (pcMaxK r) - Real.log 1e-6) / (pcNk r - 1)

/-- `lnk[i]`, tools.py:319. -/
def pcLnk (r : ℝ) (i : ℕ) : ℝ := Real.log 1e-6 + i * pcDlnk r

/-- `power_to_corr` at one `r`, tools.py:320-325. -/
def powerToCorr (P : ℝ → ℝ) (r : ℝ) : ℝ :=
  (0.5 / Real.pi ^ 2) * simpsonDx (pcNk r) (pcDlnk r) fun i =>
    P (pcLnk r i) * Real.exp (pcLnk r i) ^ 2 * Real.sin (Real.exp (pcLnk r i) * r) / r

/-! ## `exclusion_window` -/

/-- `exclusion_window`, tools.py:330-346. -/
def exclusionWindow (k r : ℝ) : ℝ :=
  let x := k * r
  3 * (Real.sin x - x * Real.cos x) / x ^ 3

/-! ## `ExtendedSpline` -/

/-- `lower_func`/`upper_func` arguments, tools.py:490-491. -/
inductive Ext where
  | callable (f : ℝ → ℝ)
  | powerLaw
  | boundary
  | none
  | invalid

/-- scipy `UnivariateSpline(x, y, k=1)` (with its default smoothing) as an evaluator. -/
abbrev USpl := ℕ → (ℕ → ℝ) → (ℕ → ℝ) → ℝ → ℝ

open Classical in
/-- `_get_extension_func`, tools.py:521-549, on the `n` end samples `x`, `y`; `spl` is the interpolant.
`Option.none` is an exception (`AssertionError`, `ValueError`). `_zero` tools.py:581-586,
`_NormedCallable` 589-597, `_PowerLawExtension` 600-608, `_BoundaryExtension` 611-619. -/
def extFunc (us : USpl) (spl : ℝ → ℝ) (fnc : Ext) (n : ℕ) (x y : ℕ → ℝ) (mtch : Bool) (mx : ℝ) :
    Option (ℝ → ℝ) :=
  match fnc with
  | .callable f =>
    if ¬ mtch then some f
    else if f mx = 0 then some f
    else some fun t => f t * (spl mx / f mx)
  | .powerLaw =>
    if ¬ (∀ i < n, 0 < x i) then Option.none
    else if (¬ ∀ i < n, 0 < y i) ∨ (∀ i < n, y i < 0) then some fun _ => 0
    else
      let neg := y 0 < 0
      let sp := us n (fun i => Real.log (x i)) (fun i => Real.log (y i * (if neg then -1 else 1)))
      some fun t => Real.exp (sp (Real.log t)) * (if neg then -1 else 1)
  | .boundary => some fun _ => 1 * spl mx
  | .none => some spl
  | .invalid => Option.none

/-- constructor arguments of `ExtendedSpline`; `x` is increasing (required by scipy's spline), so
`x.min() = x 0`, `x.max() = x (n-1)`. -/
structure ESArgs where
  n : ℕ
  x : ℕ → ℝ
  y : ℕ → ℝ
  lower : Ext
  upper : Ext
  matchLower : Bool := true
  matchUpper : Bool := true
  domLo : EReal := ⊥
  domHi : EReal := ⊤
  nLow : ℕ := 10
  nUp : ℕ := 10

/-- A constructed `ExtendedSpline`. -/
structure ES where
  xmin : ℝ
  xmax : ℝ
  spl : ℝ → ℝ
  lfunc : ℝ → ℝ
  ufunc : ℝ → ℝ

open Classical in
/-- `ExtendedSpline.__init__`, tools.py:486-519.  `x[:nLow]` has `min nLow n` samples, `x[-nUp:]` the
last `min nUp n` (for `nUp ≥ 1`). -/
def esInit (isp : Spl) (us : USpl) (a : ESArgs) : Option ES :=
  if (a.x 0 : EReal) < a.domLo ∨ (a.x (a.n - 1) : EReal) > a.domHi then Option.none
  else
    let spl := isp a.n a.x a.y
    let nl := min a.nLow a.n
    let nu := min a.nUp a.n
    let off := a.n - nu
    match extFunc us spl a.lower nl a.x a.y a.matchLower (a.x 0),
      extFunc us spl a.upper nu (fun i => a.x (off + i)) (fun i => a.y (off + i)) a.matchUpper
        (a.x (a.n - 1)) with
    | some lf, some uf =>
      some { xmin := a.x 0, xmax := a.x (a.n - 1), spl := spl, lfunc := lf, ufunc := uf }
    | _, _ => Option.none

open Classical in
/-- `ExtendedSpline.__call__` on a scalar, tools.py:553-559. -/
def ES.call (e : ES) (t : ℝ) : ℝ :=
  if t < e.xmin then e.lfunc t else if t > e.xmax then e.ufunc t else e.spl t

/-- storing a float in an array of `x`'s dtype (`out = np.zeros_like(x)`, tools.py:562): an integer
array truncates towards zero. -/
def store (isInt : Bool) (v : ℝ) : ℝ :=
  if isInt then (if 0 ≤ v then (⌊v⌋ : ℝ) else (⌈v⌉ : ℝ)) else v

open Classical in
/-- `ExtendedSpline.__call__` on an array, tools.py:560-578: three masked assignments. -/
def ES.callArr (e : ES) (isInt : Bool) (xs : List ℝ) : List ℝ :=
  let out := xs.map fun _ => (0:ℝ)
  let out := List.zipWith (fun o t => if t < e.xmin then store isInt (e.lfunc t) else o) out xs
  let out := List.zipWith (fun o t => if t > e.xmax then store isInt (e.ufunc t) else o) out xs
  List.zipWith (fun o t => if ¬ (t < e.xmin ∨ t > e.xmax) then store isInt (e.spl t) else o) out xs

/-- `_SumCallable`, tools.py:632-641. -/
def sumCallable (f g : ℝ → ℝ) (offset : ℝ) (x : ℝ) : ℝ := f x + g x + offset

/-- `_PowerLawK`, tools.py:622-629. -/
def powerLawK (n k : ℝ) : ℝ := k ^ n

/-! ## `spline_integral` -/

/-- scipy `InterpolatedUnivariateSpline(x, y).integral(a, b)`: FITPACK `splint` takes the spline to be
zero outside `[x 0, x (n-1)]`. -/
def splIntegral (isp : Spl) (n : ℕ) (x y : ℕ → ℝ) (a b : ℝ) : ℝ :=
  ∫ t in a..b, Set.indicator (Set.Icc (x 0) (x (n - 1))) (isp n x y) t

open Classical in
/-- Python truth value of an optional float limit: `None` and `0` are false. -/
def truthy (o : Option ℝ) : Prop := ∃ v, o = some v ∧ v ≠ 0

open Classical in
/-- `spline_integral`, tools.py:644-695 (value). `x` is increasing. -/
def splineIntegral (isp : Spl) (n : ℕ) (x f : ℕ → ℝ) (xmin xmax : Option ℝ) (log : Bool) : ℝ :=
  if log then
    splIntegral isp n (fun i => Real.log (x i)) (fun i => x i * f i)
      (xmin.elim (Real.log (x 0)) Real.log)
      (xmax.elim (Real.log (x (n - 1))) Real.log)
  else
    splIntegral isp n x f
      (if truthy xmin then xmin.getD 0 else x 0)
      (if truthy xmax then xmax.getD 0 else x (n - 1))

/-- does `spline_integral` warn of extrapolation? tools.py:676-685. -/
def splineIntegralWarns (n : ℕ) (x : ℕ → ℝ) (xmin xmax : Option ℝ) : Prop :=
  (truthy xmin ∧ xmin.getD 0 < x 0) ∨ (truthy xmax ∧ xmax.getD 0 > x (n - 1))

end

end Halomod.Tools
