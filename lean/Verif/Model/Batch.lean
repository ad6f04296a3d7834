import Verif.Model.Hod
import Verif.Model.Bias
import Verif.Model.Profiles

/-!
# Plain numbers, numpy scalars and arrays of masses

`Model/Hod.lean` treats the methods of `hod.py` as functions of one mass.  The code works on whole arrays: it allocates results
(`np.zeros_like(m)`), compares (`m > x`), selects (`m[mask]`) and writes into selections (`out[mask] = v`), with numpy's broadcasting.
Here the same methods are modelled on what a caller can pass: a Python number, a numpy scalar, a zero-dimensional array, or a one-dimensional
array.  The numpy operations used are modelled first, as documented by numpy; two-dimensional masses do not occur.
-/
namespace Halomod.Batch

open Halomod.HOD

noncomputable section

/-- The Python exceptions that occur. -/
inductive Err | typeError | valueError | indexError | zeroDivision

/-- A number or an array: a Python `float`, a numpy scalar (`np.float64`), an array of dimension 0, an array of dimension 1. -/
inductive Arg | py (x : ℝ) | np (x : ℝ) | arr0 (x : ℝ) | arr (l : List ℝ)

/-- The entries. -/
def Arg.entries : Arg → List ℝ
  | .py x => [x] | .np x => [x] | .arr0 x => [x] | .arr l => l

/-- `np.broadcast_to(a, n)`: a number, or an array of length 1, is repeated. -/
def Arg.bc (a : Arg) (n : ℕ) : Option (List ℝ) :=
  match a with
  | .py x => some (List.replicate n x)
  | .np x => some (List.replicate n x)
  | .arr0 x => some (List.replicate n x)
  | .arr l => if l.length = n then some l else match l with
    | [x] => some (List.replicate n x)
    | _ => none

/-- An arithmetic expression in one argument: Python arithmetic stays a Python number, numpy arithmetic on dimension 0 gives a numpy scalar. -/
def ar (f : ℝ → ℝ) : Arg → Arg
  | .py x => .py (f x) | .np x => .np (f x) | .arr0 x => .np (f x) | .arr l => .arr (l.map f)

/-- A numpy or scipy function (`np.log10`, `np.exp`, `sp.erf`, …) applied to an expression in one argument: never a Python number. -/
def uf (f : ℝ → ℝ) : Arg → Arg
  | .py x => .np (f x) | .np x => .np (f x) | .arr0 x => .np (f x) | .arr l => .arr (l.map f)

/-- A binary operation on two arguments with broadcasting; different lengths, neither of them 1, raise `ValueError`. -/
def op2 (f : ℝ → ℝ → ℝ) : Arg → Arg → Except Err Arg
  | .arr l, .arr l' =>
      if l.length = l'.length then .ok (.arr (List.zipWith f l l'))
      else match l, l' with
        | [x], l' => .ok (.arr (l'.map (f x)))
        | l, [y] => .ok (.arr (l.map (f · y)))
        | _, _ => .error .valueError
  | .arr l, .py y => .ok (.arr (l.map (f · y)))
  | .arr l, .np y => .ok (.arr (l.map (f · y)))
  | .arr l, .arr0 y => .ok (.arr (l.map (f · y)))
  | .py x, .arr l => .ok (.arr (l.map (f x)))
  | .np x, .arr l => .ok (.arr (l.map (f x)))
  | .arr0 x, .arr l => .ok (.arr (l.map (f x)))
  | .py x, .py y => .ok (.py (f x y))
  | .py x, .np y => .ok (.np (f x y))
  | .py x, .arr0 y => .ok (.np (f x y))
  | .np x, .py y => .ok (.np (f x y))
  | .np x, .np y => .ok (.np (f x y))
  | .np x, .arr0 y => .ok (.np (f x y))
  | .arr0 x, .py y => .ok (.np (f x y))
  | .arr0 x, .np y => .ok (.np (f x y))
  | .arr0 x, .arr0 y => .ok (.np (f x y))

/-- The result of a comparison: one truth value, or an array of them. -/
inductive Mask | one (b : Bool) | many (l : List Bool)

open Classical in
/-- A comparison (or a conjunction of comparisons) of the argument with numbers. -/
def cmp (p : ℝ → Prop) : Arg → Mask
  | .py x => .one (decide (p x)) | .np x => .one (decide (p x)) | .arr0 x => .one (decide (p x)) | .arr l => .many (l.map fun x => decide (p x))

/-- The entries where the mask is true. -/
def pick : List ℝ → List Bool → List ℝ
  | x :: l, b :: bs => if b then x :: pick l bs else pick l bs
  | _, _ => []

/-- The array with the values written, in order, where the mask is true. -/
def put : List ℝ → List Bool → List ℝ → List ℝ
  | _ :: l, true :: bs, v :: vs => v :: put l bs vs
  | x :: l, true :: bs, [] => x :: put l bs []
  | x :: l, false :: bs, vs => x :: put l bs vs
  | l, _, _ => l

/-- `a[mask]`: a Python number cannot be indexed; a numpy scalar or an array of dimension 0 indexed with a truth value is an array with one or no entries. -/
def get : Arg → Mask → Except Err Arg
  | .py _, _ => .error .typeError
  | .np x, .one b => .ok (.arr (if b then [x] else []))
  | .arr0 x, .one b => .ok (.arr (if b then [x] else []))
  | .arr l, .many bs => if l.length = bs.length then .ok (.arr (pick l bs)) else .error .indexError
  | _, _ => .error .indexError

/-- `a[mask] = v`: Python numbers and numpy scalars do not support assignment; the value must broadcast to the number of selected entries. -/
def set : Arg → Mask → Arg → Except Err Arg
  | .py _, _, _ => .error .typeError
  | .np _, _, _ => .error .typeError
  | .arr0 x, .one b, v => match v.bc (if b then 1 else 0) with
    | none => .error .valueError
    | some w => .ok (.arr0 ((put [x] [b] w).headD x))
  | .arr l, .many bs, v => if l.length = bs.length then
      match v.bc (bs.count true) with
      | none => .error .valueError
      | some w => .ok (.arr (put l bs w))
    else .error .indexError
  | _, _, _ => .error .indexError

/-- `np.zeros_like(m)` (`c = 0`), `np.ones_like(m)` (`c = 1`) of floats: for a number an array of dimension 0. -/
def like (c : ℝ) : Arg → Arg
  | .arr l => .arr (List.replicate l.length c)
  | _ => .arr0 c

open Classical in
/-- `np.where(condition on m, expression in m, other)`. -/
def where_ (p : ℝ → Prop) (f : ℝ → ℝ) (c : ℝ) : Arg → Arg
  | .arr l => .arr (l.map fun x => if p x then f x else c)
  | .py x => .arr0 (if p x then f x else c)
  | .np x => .arr0 (if p x then f x else c)
  | .arr0 x => .arr0 (if p x then f x else c)

/-! ## The methods of an HOD on such arguments -/

/-- A method of an HOD. -/
abbrev Method := Arg → Except Err Arg

/-- The public methods, hod.py:117-184, on numbers and arrays. -/
structure HodA where
  nc : Method
  ns : Method
  cenOcc : Method
  satOcc : Method
  ssPairs : Method
  csPairs : Method
  sigmaSat : Method
  sigmaCen : Method

/-- `HOD.total_occupation`, hod.py:169-171. -/
def HodA.totalOcc (h : HodA) : Method := fun m => do op2 (· + ·) (← h.cenOcc m) (← h.satOcc m)

/-- `HOD.total_pair_function`, hod.py:173-175. -/
def HodA.totalPairs (h : HodA) : Method := fun m => do op2 (· + ·) (← h.ssPairs m) (← h.csPairs m)

/-- What a subclass of `HODPoisson` supplies; defaults hod.py:241-247, 260-263. -/
structure PoissonA where
  inherent : Bool
  cen : Method
  sat : Method
  /-- the plain number 1, hod.py:241-243 -/
  tpc : Method := fun _ => .ok (.py 1)
  tps : Method := tpc
  /-- hod.py:260-263 -/
  sigC : Method := fun m => do return uf (fun co => Real.sqrt (co * (1 - co))) (← cen m)

/-- `HODPoisson`, hod.py:223-267, with `satellite_occupation` of the base class, hod.py:162-167. -/
def poissonA (d : PoissonA) (central : Bool) : HodA :=
  let nc : Method := fun m => do op2 (· / ·) (← d.cen m) (← d.tpc m)
  let sat : Method := fun m => if central && !d.inherent then do op2 (· * ·) (← nc m) (← d.sat m) else d.sat m
  { nc := nc
    ns := fun m => do op2 (· / ·) (← sat m) (← d.tps m)
    cenOcc := d.cen
    satOcc := sat
    ssPairs := fun m => do return ar (· ^ 2) (← sat m)
    csPairs := fun m => if central then do op2 (· * ·) (← sat m) (← d.tpc m) else do op2 (· * ·) (← d.cen m) (← sat m)
    sigmaSat := fun m => do return uf Real.sqrt (← sat m)
    sigmaCen := d.sigC }

/-- `HODBulk`, hod.py:187-220: several methods return the plain number 0 whatever they are given. -/
def bulkA (sat sigS : Method) : HodA :=
  let zero : Method := fun _ => .ok (.py 0)
  { nc := zero, ns := zero, cenOcc := zero, satOcc := sat
    ssPairs := fun m => do return ar (· ^ 2) (← sat m)
    csPairs := zero, sigmaSat := sigS, sigmaCen := zero }

/-- `Zehavi05._central_occupation`, hod.py:293-298. -/
def zehaviCenA (M_min : ℝ) : Method := fun m => set (like 1 m) (cmp (· < 10 ^ M_min) m) (.py 0)

/-- `Zehavi05._satellite_occupation`, hod.py:300-302 and 485-487. -/
def zehaviSatA (M_1 alpha : ℝ) : Method := fun m => .ok (ar (zehaviSat M_1 alpha) m)

/-- `Zheng05._central_occupation`, hod.py:338-340. -/
def zhengCenA (p : ZhengP) : Method := fun m => .ok (uf (zhengCen p) m)

/-- `Zheng05._satellite_occupation`, hod.py:342-348: zeros, and the law of the selected masses written into the selection. -/
def zhengSatA (p : ZhengP) : Method := fun m => do
  let sel ← get m (cmp (· > 10 ^ p.M_0) m)
  set (like 0 m) (cmp (· > 10 ^ p.M_0) m) (ar (fun x => ((x - 10 ^ p.M_0) / 10 ^ p.M_1) ^ p.alpha) sel)

/-- `np.exp(-A / x)` for an expression `x`, hod.py:463: a Python zero raises `ZeroDivisionError`; numpy divides to an infinity, whose exponential is 0. -/
def expQuot (A : ℝ) : Arg → Except Err Arg
  | .py x => if x = 0 then .error .zeroDivision else .ok (.np (Real.exp (-A / x)))
  | a => .ok (uf (fun x => if x = 0 then 0 else Real.exp (-A / x)) a)

/-- `Tinker05._satellite_occupation`, hod.py:454-465. -/
def tinkerSatA (p : TinkerP) : Method := fun m => do
  let out ← zehaviCenA p.M_min m
  let e ← expQuot (10 ^ p.M_cut) (ar (· - 10 ^ p.M_min) m)
  op2 (· * ·) (← op2 (· * ·) out e) (ar (· / 10 ^ p.M_1) m)

/-- `Zehavi05WithMax._central_occupation`, hod.py:478-483. -/
def zehaviMaxCenA (M_min M_max : ℝ) : Method := fun m =>
  set (like 0 m) (cmp (fun x => x ≥ 10 ^ M_min ∧ x ≤ 10 ^ M_max) m) (.py 1)

/-- `Spinelli19._satellite_occupation`, hod.py:626-635. -/
def spinelliSatA (p : SpinelliP) : Method := fun m => do
  let array ← set (like 0 m) (cmp (· ≥ 10 ^ 11) m) (.py 1)
  op2 (· * ·) (uf (fun x => 10 ^ p.M_0 * (x / 10 ^ p.M_break_sat) ^ p.beta_sat * Real.exp (-((10 ^ p.M_break_sat / x) ^ p.alpha_sat))) m) array

/-- `Spinelli19._tracer_per_central`, hod.py:655-664. -/
def spinelliTpcA (p : SpinelliP) : Method := fun m =>
  set (like 0 m) (cmp (fun x => 10 ^ p.M_min_counts ≤ x ∧ 10 ^ p.M_max_counts ≥ x) m) (.py 1)

/-- `Spinelli19._tracer_per_satellite`, hod.py:666-675. -/
def spinelliTpsA (p : SpinelliP) : Method := fun m => do
  let index := cmp (fun x => 10 ^ p.M_min_counts ≤ x ∧ 10 ^ p.M_max_counts ≥ x) m
  let sel ← get m index
  set (like 0 m) index (ar (fun x => (x / 10 ^ p.M_1_counts) ^ p.alpha_counts) sel)

/-- `Leauthaud11.mean_log_stellar_mass`, hod.py:906-920: `np.zeros(len(m))` and a loop; numbers and arrays of dimension 0 have no length. -/
def stellarA (interp : List (ℝ × ℝ) → ℝ → ℝ) (p : LeauthaudP) : Method
  | .arr l => .ok (.arr (l.map (p.meanLogStellarMass interp)))
  | _ => .error .typeError

/-- `Leauthaud11._central_occupation`, hod.py:796-804. -/
def leauthaudCenA (interp : List (ℝ × ℝ) → ℝ → ℝ) (p : LeauthaudP) : Method := fun m => do
  return uf (fun s => 0.5 * (1 - erf ((p.sm_thresh - s) / (Real.sqrt 2 * p.sig_logmstar)))) (← stellarA interp p m)

/-- `Leauthaud11._satellite_occupation`, hod.py:826-833. -/
def leauthaudSatA (interp : List (ℝ × ℝ) → ℝ → ℝ) (p : LeauthaudP) : Method := fun m => do
  op2 (· * ·) (uf (fun x => Real.exp (-(p.scaled p.bcut p.betacut) / x) * (x / p.scaled p.bsat p.betasat) ^ p.alphasat) m)
    (← leauthaudCenA interp p m)

/-- Every concrete HOD class on numbers and arrays, hod.py:270-920 (constructors as in `HodInst.mk`). -/
def mkA : HodInst → Bool → HodA
  | .zehavi05 p => poissonA { inherent := false, cen := zehaviCenA p.M_min, sat := zehaviSatA p.M_1 p.alpha }
  | .zheng05 p => poissonA { inherent := false, cen := zhengCenA p, sat := zhengSatA p }
  | .contreras13 p => poissonA { inherent := false, cen := fun m => .ok (uf (contrerasCen p) m), sat := fun m => .ok (uf (contrerasSat p) m) }
  | .tinker05 p => poissonA { inherent := true, cen := zehaviCenA p.M_min, sat := tinkerSatA p }
  | .zehavi05WithMax p => poissonA { inherent := false, cen := zehaviMaxCenA p.M_min p.M_max, sat := zehaviSatA p.M_1 p.alpha }
  | .zehavi05Marked p => poissonA
      { inherent := false
        cen := fun m => do op2 (· * ·) (← zehaviMaxCenA p.M_min p.M_max m) (.py (10 ^ p.logA))
        sat := fun m => do op2 (· * ·) (← zehaviSatA p.M_1 p.alpha m) (.py (10 ^ p.logA))
        tpc := fun _ => .ok (.py (10 ^ p.logA))
        sigC := fun m => do return uf (fun co => Real.sqrt (10 ^ p.logA * co * (1 - co))) (← zehaviMaxCenA p.M_min p.M_max m) }
  | .continuousPowerLaw p => fun _ => bulkA
      (fun m => .ok (where_ (fun x => x ≥ 10 ^ p.M_min ∧ x ≤ 10 ^ p.M_max) (fun x => 10 ^ p.logA * ((x / 10 ^ p.M_1) ^ p.alpha + 1)) 0 m))
      (fun m => .ok (ar (· * p.sigma_A) (like 1 m)))
  | .constant p => fun _ => bulkA (fun m => .ok (where_ (· > 10 ^ p.M_min) (fun _ => 10 ^ p.logA) 0 m)) (fun m => .ok (ar (· * p.sigma_A) (like 1 m)))
  | .spinelli19 p => poissonA
      { inherent := false, cen := fun m => .ok (uf (spinelliCen p) m), sat := spinelliSatA p, tpc := spinelliTpcA p, tps := spinelliTpsA p }
  | .leauthaud11 i p => poissonA { inherent := false, cen := leauthaudCenA i p, sat := leauthaudSatA i p }

/-! ## Other array code with masks -/

/-- `Seljak04Cosmo.bias`, bias.py:432-440, on the masses the object was built with (`self.m`); the values of `Seljak04.bias`, bias.py:374-383, are
arithmetic in the mass. -/
def seljakCosmoA (p : Halomod.Bias.SeljakParams) (a1 a2 Om0 n s8 h mstar : ℝ) : Method := fun m => do
  let x ← set (uf (fun y => log10 (y / mstar)) m) (cmp (fun y => log10 (y / mstar) < -1) m) (.py (-1))
  op2 (· + ·) (ar (fun y => Halomod.Bias.seljak04 p y mstar) m) (ar (· * (a1 * (Om0 - 0.3 + n - 1) + a2 * (s8 - 0.9 + h - 0.7))) x)

open Classical in
/-- `NFW._l`, profiles.py:689-725, on the entries `(x, c)` after broadcasting the concentrations (697-701): zeros, returned at once if every
separation is beyond twice the concentration; then the two masked writes, each done only if its `np.any` guard holds. -/
def nfwLArr (xs : List (ℝ × ℝ)) : List ℝ :=
  let zeros := List.replicate xs.length (0 : ℝ)
  if ∀ p ∈ xs, p.1 > 2 * p.2 then zeros
  else
    let lo := xs.map fun p => decide (p.1 ≤ p.2)
    let r1 := if ∃ p ∈ xs, p.1 ≤ p.2 then
        put zeros lo ((xs.filter fun p => decide (p.1 ≤ p.2)).map fun p => Halomod.Profiles.nfwLlo p.1 p.2)
      else zeros
    let hi := xs.map fun p => decide (p.1 > p.2 ∧ p.1 ≤ 2 * p.2)
    if ∃ p ∈ xs, p.1 < 2 * p.2 ∧ p.1 > p.2 then
      put r1 hi ((xs.filter fun p => decide (p.1 > p.2 ∧ p.1 ≤ 2 * p.2)).map fun p => Halomod.Profiles.nfwLhi p.1 p.2)
    else r1

end

end Halomod.Batch
