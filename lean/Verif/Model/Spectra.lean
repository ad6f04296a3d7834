import Verif.Model.HaloModel

/-!
# Model of the matter spectra and of the choice of the halo-centre spectrum
(`/repo/src/halomod/halo_model.py` 205-218, 452-562)
-/
namespace Halomod.HaloModel

open Halomod.Tools

noncomputable section

/-- what `linear_power_fnc` and its siblings read: the wavenumber grid, the tabulated linear and nonlinear
(halofit) power on it (both computed by `hmf`), the spectral index. -/
structure Spectra where
  nk : ℕ
  k : ℕ → ℝ
  power : ℕ → ℝ
  nlPower : ℕ → ℝ
  ns : ℝ

/-- `linear_power_fnc`, halo_model.py:502-511, and `nonlinear_power_fnc`, 513-522, for the table `P`:
`ExtendedSpline` with lower extension `k**n` (matched, the default), a power law above, domain `(0, inf)`. -/
def Spectra.powFnc (E : Env) (s : Spectra) (P : ℕ → ℝ) : Option (ℝ → ℝ) :=
  mkES E { n := s.nk, x := s.k, y := P, lower := .callable (powerLawK s.ns), upper := .powerLaw,
           domLo := 0, domHi := ⊤ }

/-- the filtered branches of `_power_halo_centres_fnc`, halo_model.py:466-477 and 478-489: table `P`, lower
extension the unfiltered function of the same spectrum, not rescaled; zero above. -/
def Spectra.filteredFnc (E : Env) (s : Spectra) (W : Window) (R : ℝ) (P : ℕ → ℝ) : Option (ℝ → ℝ) := do
  let p ← filteredTab W R s.nk s.k P
  let low ← s.powFnc E P
  mkES E { n := s.nk, x := s.k, y := p, lower := .callable low, matchLower := false,
           upper := .callable fun _ => 0 }

/-- values `hc_spectrum` accepts, halo_model.py:205-218. -/
def hcAccepts (v : String) : Bool := v ∈ ["linear", "nonlinear", "filtered-lin", "filtered-nl"]

/-- `_power_halo_centres_fnc`, halo_model.py:452-500; `none` is an exception. -/
def Spectra.hcFnc (E : Env) (s : Spectra) (W : Window) (hc : String) : Option (ℝ → ℝ) :=
  if hc = "filtered-lin" then s.filteredFnc E W 2.0 s.power
  else if hc = "filtered-nl" then s.filteredFnc E W 3.0 s.nlPower
  else if hc = "linear" then s.powFnc E s.power
  else if hc = "nonlinear" then s.powFnc E s.nlPower
  else none

/-- `"filtered" in self.hc_spectrum`, e.g. halo_model.py:755. -/
def hcFiltered (hc : String) : Bool := hc = "filtered-lin" ∨ hc = "filtered-nl"

/-- `corr_linear_mm_fnc` / `corr_halofit_mm_fnc`, halo_model.py:524-533 and 540-549: transform of a power
function on the internal separation table. -/
def corrMMFnc (E : Env) (nr : ℕ) (rt : ℕ → ℝ) (p : Option (ℝ → ℝ)) : Option (ℝ → ℝ) := do
  let f ← p
  mkES E { n := nr, x := rt, y := fun i => E.hankel f (rt i), lower := .powerLaw,
           upper := .callable fun _ => 0 }

/-- which correlation `_corr_mm_base_fnc` returns, halo_model.py:556-562: `none` is Python's `None` (no
branch applies). -/
def corrBase (E : Env) (s : Spectra) (nr : ℕ) (rt : ℕ → ℝ) (hc : String) : Option (Option (ℝ → ℝ)) :=
  if hc = "linear" then some (corrMMFnc E nr rt (s.powFnc E s.power))
  else if hc = "nonlinear" ∨ hc = "filtered-nl" then some (corrMMFnc E nr rt (s.powFnc E s.nlPower))
  else none

end
end Halomod.HaloModel
