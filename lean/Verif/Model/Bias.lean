import Mathlib.Analysis.SpecialFunctions.Pow.Real
import Mathlib.Analysis.SpecialFunctions.Log.Base

/-!
# Model of `halomod/bias.py`

`nu` is the *squared* peak height, as in the code.  Arrays are modelled elementwise.
`make_colossus_bias` is in `Model/Colossus.lean`.  `Tinker10PBSplit` is modelled with its default table (a user may override single
entries of it).
-/

namespace Halomod.Bias

/-- `Bias.bias` / `UnityBias.bias`, bias.py:150-168, 180-181. -/
def unity (_nu : ℝ) : ℝ := 1

/-- `Mo96.bias`, bias.py:207-208. -/
noncomputable def mo96 (dc nu : ℝ) : ℝ := 1 + (nu - 1) / dc

/-- `Jing98.bias`, bias.py:240-246. -/
noncomputable def jing98 (a b c neff dc nu : ℝ) : ℝ :=
  (a / nu ^ 2 + 1) ^ (b - c * neff) * (1 + (nu - 1) / dc)

/-- `ST99.bias`, bias.py:280-285; also `Mandelbaum05` and `Manera10`, which only change `q`, `p`. -/
noncomputable def st99 (q p dc nu : ℝ) : ℝ :=
  1 + (q * nu - 1) / dc + (2 * p / dc) / (1 + (q * nu) ^ p)

/-- `SMT01.bias`, bias.py:323-333; also `Tinker05`, which only changes `a`, `b`, `c`. -/
noncomputable def smt01 (a b c dc nu : ℝ) : ℝ :=
  let sa := Real.sqrt a
  1 + (sa * (a * nu) + sa * b * (a * nu) ^ (1 - c)
    - (a * nu) ^ c / ((a * nu) ^ c + b * (1 - c) * (1 - c / 2))) / (dc * sa)

/-- Parameters of `Seljak04`, bias.py:364-372. -/
structure SeljakParams where
  a : ℝ := 0.53
  b : ℝ := 0.39
  c : ℝ := 0.45
  d : ℝ := 0.13
  e : ℝ := 40
  f : ℝ := 5e-4
  g : ℝ := 1.5

/-- `Seljak04.bias`, bias.py:374-383. -/
noncomputable def seljak04 (p : SeljakParams) (m mstar : ℝ) : ℝ :=
  let x := m / mstar
  p.a + p.b * x ^ p.c + p.d / (p.e * x + 1) + p.f * x ^ p.g

/-- `Seljak04Cosmo.bias`, bias.py:432-440 (the array branch; entries of `log10 x` below `-1` are
replaced by `-1`). -/
noncomputable def seljak04Cosmo (p : SeljakParams) (a1 a2 Om0 n s8 h m mstar : ℝ) : ℝ :=
  open Classical in
  let x := Real.logb 10 (m / mstar)
  let x := if x < -1 then -1 else x
  seljak04 p m mstar + x * (a1 * (Om0 - 0.3 + n - 1) + a2 * (s8 - 0.9 + h - 0.7))

/-- `Pillepich10.bias`, bias.py:518-523. -/
noncomputable def pillepich10 (B0 B1 B2 nu : ℝ) : ℝ := B0 + B1 * Real.sqrt nu + B2 * nu

/-- the amplitude `A` of `Tinker10.bias`, bias.py:607. -/
noncomputable def tkA (y : ℝ) : ℝ := 1.0 + 0.24 * y * Real.exp (-((4 / y) ^ 4))
/-- the amplitude `C` of `Tinker10.bias`, bias.py:609. -/
noncomputable def tkC (y : ℝ) : ℝ := 0.019 + 0.107 * y + 0.19 * Real.exp (-((4 / y) ^ 4))

/-- `Tinker10.bias`, bias.py:605-614. -/
noncomputable def tinker10 (B b c dhalo dc nu2 : ℝ) : ℝ :=
  let y := Real.logb 10 dhalo
  let a := 0.44 * y - 0.88
  let nu := Real.sqrt nu2
  1 - tkA y * nu ^ a / (nu ^ a + dc ^ a) + B * nu ^ b + tkC y * nu ^ c

/-- The four parameters at redshift 0 for one overdensity. -/
structure TkRow where
  beta : ℝ
  gamma : ℝ
  phi : ℝ
  eta : ℝ

/-- `Tinker10PBSplit._defaults` at the tabulated overdensities `delta_virs`, bias.py:658-709, 716;
`none` for any other overdensity. -/
noncomputable def tkRow (d : ℝ) : Option TkRow :=
  open Classical in
  if d = 200 then some ⟨0.589, 0.864, -0.729, -0.243⟩
  else if d = 300 then some ⟨0.585, 0.922, -0.789, -0.261⟩
  else if d = 400 then some ⟨0.544, 0.987, -0.910, -0.261⟩
  else if d = 600 then some ⟨0.543, 1.09, -1.05, -0.273⟩
  else if d = 800 then some ⟨0.564, 1.2, -1.2, -0.278⟩
  else if d = 1200 then some ⟨0.623, 1.34, -1.26, -0.301⟩
  else if d = 1600 then some ⟨0.637, 1.5, -1.45, -0.301⟩
  else if d = 2400 then some ⟨0.673, 1.68, -1.5, -0.319⟩
  else if d = 3200 then some ⟨0.702, 1.81, -1.49, -0.336⟩
  else none

/-- The redshift exponents and cap of `Tinker10PBSplit._defaults`, bias.py:710-714. -/
structure TkExp where
  beta : ℝ := 0.2
  phi : ℝ := -0.08
  eta : ℝ := 0.27
  gamma : ℝ := -0.01
  max_z : ℝ := 3

/-- The evolved parameters, bias.py:739-742. -/
noncomputable def tkEvolve (r : TkRow) (x : TkExp) (z : ℝ) : TkRow where
  beta := r.beta * (1 + min z x.max_z) ^ x.beta
  phi := r.phi * (1 + min z x.max_z) ^ x.phi
  eta := r.eta * (1 + min z x.max_z) ^ x.eta
  gamma := r.gamma * (1 + min z x.max_z) ^ x.gamma

/-- `Tinker10PBSplit.bias` for given evolved parameters, bias.py:744-748. -/
noncomputable def tinkerPB (r : TkRow) (dc nu : ℝ) : ℝ :=
  1 + (r.gamma * nu - (1 + 2 * r.eta)) / dc + 2 * r.phi / dc / (1 + (r.beta ^ 2 * nu) ^ r.phi)

/-- `Tinker10PBSplit.bias`, bias.py:718-748: tabulated overdensities use the table, others a spline of
each column (`spl`, scipy's `InterpolatedUnivariateSpline`, uninterpreted). -/
noncomputable def tinker10PBSplit (spl : ℝ → TkRow) (x : TkExp) (dhalo z dc nu : ℝ) : ℝ :=
  tinkerPB (tkEvolve ((tkRow dhalo).getD (spl dhalo)) x z) dc nu

/-- `TinkerSD05.bias_scale`, bias.py:794-799; numpy gives NaN (`none`) for a negative base. -/
noncomputable def tinkerSD05 (a b c d xi : ℝ) : Option ℝ :=
  open Classical in
  if 1 + a * xi < 0 ∨ 1 + c * xi < 0 then none
  else some (Real.sqrt ((1 + a * xi) ^ b / (1 + c * xi) ^ d))

end Halomod.Bias
