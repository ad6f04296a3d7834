import Mathlib.Analysis.SpecialFunctions.Pow.Real
import Mathlib.Data.List.Sort
import Mathlib.Data.Real.Basic

/-!
# Model of `halomod/concentration.py`

Floats are modelled as real numbers.  The external pieces (`filter.nu`, growth factor, non-linear
mass, profile mass function) enter as parameters.
Not modelled: `make_colossus_cm` (calls the `colossus` package), `CMRelation.mass_nonlinear`
(scipy `minimize`; its result is the parameter `mnl`), mass-definition warnings.
-/

namespace Halomod.Concentration

/-- The Python exceptions these functions can end with. -/
inductive Err
  | typeError
  | valueError
  deriving DecidableEq

/-! ## Power-law relations -/

/-- `Bullock01Power._cm`, concentration.py:347-348. -/
noncomputable def powerCm (m ms a b c z : ℝ) : ℝ := a / (1 + z) ^ c * (m / ms) ^ b

/-- Python `x or y` for a parameter that is `None` or a float (`0.0` is falsy), as used at
concentration.py:351 and 471-473. -/
noncomputable def orElse (x : Option ℝ) (y : ℝ) : ℝ :=
  open Classical in if ∃ v, x = some v ∧ v ≠ 0 then x.getD y else y

/-- Parameters of `Bullock01Power` (`_defaults`, concentration.py:344). -/
structure PowerParams where
  a : ℝ := 9
  b : ℝ := -0.13
  c : ℝ := 1
  ms : Option ℝ := none
  norm : ℝ := 1

/-- `Bullock01Power.cm`, concentration.py:350-354; `mnl z` is `self.mass_nonlinear(z)`. -/
noncomputable def bullockPower (p : PowerParams) (mnl : ℝ → ℝ) (m z : ℝ) : ℝ :=
  p.norm * powerCm m (orElse p.ms (mnl z)) p.a p.b p.c z

/-- `Zehavi11._defaults`, concentration.py:502 (the class inherits `Bullock01Power.cm`). -/
def zehavi11 : PowerParams := { a := 11, b := -0.13, c := 1, ms := some 2.26e12, norm := 1 }

/-- `Maccio07.cm`, concentration.py:376-383. -/
noncomputable def maccio07 (c0 gamma norm m z : ℝ) : ℝ :=
  norm * c0 * (m * (10 : ℝ) ^ (-11 : ℤ)) ^ (-0.109 : ℝ) * 4 / (1 + z) ^ gamma

/-- One row of the table in `Duffy08.cm`. -/
structure Row where
  a : ℝ
  b : ℝ
  c : ℝ

/-- The inner dictionaries of `set_params`, concentration.py:429-466 together with the outer
`.get(colossus_name, set_params["200c"])` at 468. -/
noncomputable def duffyRows (mdef : String) : String → Option Row :=
  let c200 : String → Option Row := fun s =>
    if s = "full" then some ⟨5.71, -0.084, 0.47⟩
    else if s = "relaxed" then some ⟨6.71, -0.091, 0.44⟩ else none
  if mdef = "200c" then c200
  else if mdef = "vir" then fun s =>
    if s = "full" then some ⟨7.85, -0.081, 0.71⟩
    else if s = "relaxed" then some ⟨9.23, -0.09, 0.69⟩ else none
  else if mdef = "200m" then fun s =>
    if s = "full" then some ⟨10.14, -0.081, 1.01⟩
    else if s = "relaxed" then some ⟨11.93, -0.09, 0.99⟩ else none
  else c200

/-- `self.params["a"] or parameter_set["a"]`, concentration.py:471-473: subscripting `None` is a
`TypeError`, evaluated only when the parameter is falsy. -/
noncomputable def rowOr (x : Option ℝ) (row : Option Row) (f : Row → ℝ) : Except Err ℝ :=
  open Classical in
  if ∃ v, x = some v ∧ v ≠ 0 then .ok (x.getD 0)
  else match row with
    | some r => .ok (f r)
    | none => .error .typeError

/-- Parameters of `Duffy08` (`_defaults`, concentration.py:424). -/
structure DuffyParams where
  a : Option ℝ := none
  b : Option ℝ := none
  c : Option ℝ := none
  ms : ℝ := 2e12
  sample : String := "relaxed"
  norm : ℝ := 1

/-- `Duffy08.cm`, concentration.py:427-474; `mdef` is `self.mdef.colossus_name`. -/
noncomputable def duffy08 (mdef : String) (p : DuffyParams) (m z : ℝ) : Except Err ℝ :=
  let row := duffyRows mdef p.sample
  match rowOr p.a row Row.a with
  | .error e => .error e
  | .ok a => match rowOr p.b row Row.b with
    | .error e => .error e
    | .ok b => match rowOr p.c row Row.c with
      | .error e => .error e
      | .ok c => .ok (p.norm * powerCm m p.ms a b c z)

/-! ## scipy's `interp1d(kind="linear")` -/

/-- `numpy.interp` between the first and last abscissa of sorted samples: the segment
`x_j ≤ v < x_{j+1}` is found, and a sample hit exactly returns its ordinate. -/
noncomputable def npInterp : List (ℝ × ℝ) → ℝ → ℝ
  | [], _ => 0
  | [p], _ => p.2
  | p :: q :: t, v =>
    open Classical in
    if v < q.1 then
      if v = p.1 then p.2 else (q.2 - p.2) / (q.1 - p.1) * (v - p.1) + p.2
    else npInterp (q :: t) v

/-- `interp1d` sorts its samples by abscissa (stable sort; `assume_sorted=False`). -/
noncomputable def sortSamples (l : List (ℝ × ℝ)) : List (ℝ × ℝ) :=
  open Classical in l.insertionSort (fun p q => p.1 ≤ q.1)

/-- `interp1d(x, y, bounds_error=False, fill_value=(lo, hi))(v)`. -/
noncomputable def interpFill (l : List (ℝ × ℝ)) (lo hi v : ℝ) : ℝ :=
  open Classical in
  if ∀ p ∈ l, v < p.1 then lo else if ∀ p ∈ l, p.1 < v then hi else npInterp (sortSamples l) v

/-- `interp1d(x, y)(v)` with default `bounds_error=True`: `ValueError` outside the sampled range. -/
noncomputable def interpStrict (l : List (ℝ × ℝ)) (v : ℝ) : Except Err ℝ :=
  open Classical in
  if (∀ p ∈ l, v < p.1) ∨ (∀ p ∈ l, p.1 < v) then .error .valueError
  else .ok (npInterp (sortSamples l) v)

/-- `InterpConc.cm`, concentration.py:246-254, given the raw values `c = base.cm(self, m, z)`.
The array arguments are lists of equal length. -/
noncomputable def interpConc (m c : List ℝ) : List ℝ :=
  open Classical in
  let good := (m.zip c).filter (fun p => 0 < p.2)
  if good.length = 0 then m.map (fun _ => 1) else m.map (interpFill good 1 1)

/-! ## Bullock01 -/

/-- `np.linspace(0, 50, 5000)`, concentration.py:297. -/
noncomputable def zFine (i : ℕ) : ℝ := 50 * i / 4999

/-- `g`, concentration.py:297-300: linear interpolation of redshift as a function of growth factor
`D`, `50` below the tabulated growth factors and `0` above. -/
noncomputable def growthInv (D : ℝ → ℝ) (v : ℝ) : ℝ :=
  interpFill (((List.range 5000).map (fun i => (D (zFine i), zFine i))).reverse) (zFine 4999) 0 v

/-- `zc[np.logical_or.accumulate(zc == zc.min())] = zc.min()`, concentration.py:301: every entry
from the first minimum on is set to the minimum. -/
noncomputable def accMin (l : List ℝ) (mn : ℝ) : List ℝ :=
  open Classical in
  match l with
  | [] => []
  | a :: t => if a = mn then mn :: t.map (fun _ => mn) else a :: accMin t mn

/-- `zc.min()` of a non-empty array. -/
noncomputable def arrMin : List ℝ → ℝ
  | [] => 0
  | [a] => a
  | a :: t => min a (arrMin t)

/-- `zc.max()` of a non-empty array. -/
noncomputable def arrMax : List ℝ → ℝ
  | [] => 0
  | [a] => a
  | a :: t => max a (arrMax t)

/-- `zc[zc < z] = z`, concentration.py:304. -/
noncomputable def clampLow (z : ℝ) (l : List ℝ) : List ℝ :=
  open Classical in l.map (fun x => if x < z then z else x)

/-- `Bullock01.zc`, concentration.py:291-305; `nu m'` stands for
`filter.nu(filter.mass_to_radius(m'), delta_c)`, `D` for the growth factor. -/
noncomputable def bullockZc (F : ℝ) (nu D : ℝ → ℝ) (m : List ℝ) (z : ℝ) : List ℝ :=
  let raw := m.map (fun x => growthInv D (Real.sqrt (nu (F * x))))
  clampLow z (accMin raw (arrMin raw))

/-- `Bullock01.cm`, concentration.py:307-308. -/
noncomputable def bullockCm (norm K F : ℝ) (nu D : ℝ → ℝ) (m : List ℝ) (z : ℝ) : List ℝ :=
  (bullockZc F nu D m z).map (fun zc => norm * K * (zc + 1) / (z + 1))

/-! ## Ludlow16 -/

/-- `in_brackets` of `_eq6_zf`, concentration.py:544-547; `h` is `profile._h`, `dh` is
`delta_halo(z)`. -/
noncomputable def eq6Brackets (h : ℝ → ℝ) (dh Om Ode C z c : ℝ) : ℝ :=
  (dh * c ^ 3 * (h 1 / h c) / C * (Om * (1 + z) ^ 3 + Ode) - Ode) / Om

/-- Entry `i` of `np.logspace(0, 2, 400)`, concentration.py:553. -/
noncomputable def cvec0 (i : ℕ) : ℝ := (10 : ℝ) ^ ((2 * i / 399 : ℝ))

/-- The rows `(c, zf)` surviving both masks of `_eq6_zf` and `_eq7`, concentration.py:548-561.
(Entries are finite reals here, so the `isnan`/`isinf` part of the mask is empty.) -/
noncomputable def eq7Rows (h : ℝ → ℝ) (dh Om Ode C z : ℝ) : List (ℝ × ℝ) :=
  open Classical in
  let cs := ((List.range 400).map cvec0).filter (fun c => 0 < eq6Brackets h dh Om Ode C z c)
  (cs.map (fun c => (c, (eq6Brackets h dh Om Ode C z c) ^ (0.33333 : ℝ) - 1))).filter
    (fun p => ¬ p.2 < 0)

/-- `(arg, cvec)` for one mass, concentration.py:563-574 and 593: `arg = lhs - rhs` with
`lhs = h(1)/h(c)` and `rhs = erfc(delta_c (1/D(zf) - 1/D(z)) / den)`. -/
noncomputable def eq7Args (h D erfc : ℝ → ℝ) (dc z den : ℝ) (rows : List (ℝ × ℝ)) : List (ℝ × ℝ) :=
  rows.map (fun p => (h 1 / h p.1 - erfc (dc * (1 / D p.2 - 1 / D z) * (1 / den)), p.1))

/-- One entry of the array branch of `_eq7`, concentration.py:593-601 (samples `(arg, c)`).
`cvec.min()` of an empty array is a `ValueError`. -/
noncomputable def eq7Array (l : List (ℝ × ℝ)) : Except Err ℝ :=
  open Classical in
  if (l.filter (fun p => p.1 ≤ 0)).length = 0 then
    if l = [] then .error .valueError else .ok (arrMin (l.map Prod.snd))
  else if (l.filter (fun p => 0 ≤ p.1)).length = 0 then .ok (arrMax (l.map Prod.snd))
  else interpStrict l 0

/-- The scalar branch of `_eq7`, concentration.py:586-589. -/
noncomputable def eq7Scalar (l : List (ℝ × ℝ)) : Except Err ℝ := interpStrict l 0

/-- `out[i] = ...` into `np.zeros_like(m)`, concentration.py:591-602: an integer mass array stores
the truncated value. -/
noncomputable def storeAs (isInt : Bool) (v : ℝ) : ℝ :=
  if isInt then (if 0 ≤ v then (⌊v⌋ : ℝ) else (⌈v⌉ : ℝ)) else v

/-- `(arg, cvec)` of a halo of mass `m` in `_eq7`, concentration.py:549-574, with `delta_halo`, 539-540, as `dh`;
`sigma` is the mass variance as a function of mass (`filter.sigma` of `filter.mass_to_radius`). -/
noncomputable def ludlow16Table (f C : ℝ) (h D erfc sigma : ℝ → ℝ) (dh Om Ode dc z m : ℝ) : List (ℝ × ℝ) :=
  eq7Args h D erfc dc z (Real.sqrt (2 * (sigma (f * m) ^ 2 - sigma m ^ 2))) (eq7Rows h dh Om Ode C z)

/-- `Ludlow16.cm` of an array of masses, concentration.py:604-605 (`Ludlow2016`, 688-696, only adds a warning). -/
noncomputable def ludlow16Cm (norm f C : ℝ) (h D erfc sigma : ℝ → ℝ) (dh Om Ode dc z : ℝ) (ms : List ℝ) : Except Err (List ℝ) :=
  (ms.mapM fun m => eq7Array (ludlow16Table f C h D erfc sigma dh Om Ode dc z m)).map (List.map (norm * ·))

/-- `Ludlow16.cm` of a number, concentration.py:586-589, 604-605. -/
noncomputable def ludlow16CmScalar (norm f C : ℝ) (h D erfc sigma : ℝ → ℝ) (dh Om Ode dc z m : ℝ) : Except Err ℝ :=
  (eq7Scalar (ludlow16Table f C h D erfc sigma dh Om Ode dc z m)).map (norm * ·)

/-! ## Ludlow16Empirical -/

/-- Parameters of `Ludlow16Empirical` (`_defaults`, concentration.py:635-645). -/
structure EmpParams where
  c0_0 : ℝ := 3.395
  c0_z : ℝ := -0.215
  beta_0 : ℝ := 0.307
  beta_z : ℝ := 0.54
  gamma1_0 : ℝ := 0.628
  gamma1_z : ℝ := -0.047
  gamma2_0 : ℝ := 0.317
  gamma2_z : ℝ := -0.893
  norm : ℝ := 1

/-- The four evolving parameters `_c0 _beta _gamma1 _gamma2`, concentration.py:648-658. -/
noncomputable def evolve (v0 vz z : ℝ) : ℝ := v0 * (1 + z) ^ vz

/-- `_nu_0`, concentration.py:660-664; `D` is the growth factor at `z`. -/
noncomputable def nu0 (D z : ℝ) : ℝ :=
  let a := 1 / (1 + z)
  (4.135 - 0.564 / a - 0.21 / a ^ 2 + 0.0557 / a ^ 3 - 0.00348 / a ^ 4) / D

/-- `sig`, concentration.py:670-676. -/
noncomputable def empSig (D m : ℝ) : ℝ :=
  let xi := 1e10 / m
  D * 22.26 * xi ^ (0.292 : ℝ) / (1 + 1.53 * xi ^ (0.275 : ℝ) + 3.36 * xi ^ (0.198 : ℝ))

/-- `Ludlow16Empirical.cm`, concentration.py:666-684.  numpy gives NaN (`none`) for a negative base
with a fractional exponent. -/
noncomputable def empirical (p : EmpParams) (dc D m z : ℝ) : Option ℝ :=
  open Classical in
  let x := dc / empSig D m / nu0 D z
  let g1 := evolve p.gamma1_0 p.gamma1_z z
  let g2 := evolve p.gamma2_0 p.gamma2_z z
  let be := evolve p.beta_0 p.beta_z z
  if x < 0 then none
  else some (p.norm * evolve p.c0_0 p.c0_z z * x ^ (-g1) * (1 + x ^ (1 / be)) ^ (-be * (g2 - g1)))

end Halomod.Concentration
