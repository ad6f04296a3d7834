import Verif.Model.HaloModel

/-!
# Model of `/repo/src/halomod/cross_correlations.py`

Floats are reals.  Which entries of the pair functions are NaN is an input (`keep`): the real-valued HOD
model has no NaN (see `Model/HodFloat.lean` for where they arise).
-/
namespace Halomod.Cross

open Halomod.Tools Halomod.HOD Halomod.HaloModel

noncomputable section

/-- what a subclass of `_HODCross` supplies, cross_correlations.py:50-105. -/
structure CrossDef where
  Rss : ℝ → ℝ
  Rcs : ℝ → ℝ
  Rsc : ℝ → ℝ
  selfPairs : ℝ → ℝ

/-- `ConstantCorr`, cross_correlations.py:153-170. -/
def constantCorr (rss rcs rsc : ℝ) : CrossDef := ⟨fun _ => rss, fun _ => rcs, fun _ => rsc, fun _ => 0⟩

/-- `ss_cross_pairs`, cross_correlations.py:108-123. -/
def ssCross (c : CrossDef) (h1 h2 : Hod) (m : ℝ) : ℝ :=
  h1.satOcc m * h2.satOcc m + h1.sigmaSat m * h2.sigmaSat m * c.Rss m - c.selfPairs m

/-- `cs_cross_pairs`, cross_correlations.py:125-137. -/
def csCross (c : CrossDef) (h1 h2 : Hod) (m : ℝ) : ℝ :=
  h1.cenOcc m * h2.satOcc m + h1.sigmaCen m * h2.sigmaSat m * c.Rcs m

/-- `sc_cross_pairs`, cross_correlations.py:139-150. -/
def scCross (c : CrossDef) (h1 h2 : Hod) (m : ℝ) : ℝ :=
  h2.cenOcc m * h1.satOcc m + h2.sigmaCen m * h1.sigmaSat m * c.Rsc m

/-- integrand of `power_1h_cross_fnc` at wavenumber `j` and mass `i`, cross_correlations.py:247-253:
masses and mass function are those of the *first* model. -/
def integ1h (c : CrossDef) (h1 h2 : HM) (j i : ℕ) : ℝ :=
  h1.dndm i * (h1.ut j i * h2.ut j i * ssCross c h1.hod h2.hod (h1.m i)
    + h1.ut j i * scCross c h1.hod h2.hod (h1.m i)
    + h2.ut j i * csCross c h1.hod h2.hod (h1.m i))

/-- table of `power_1h_cross_fnc`, cross_correlations.py:235-258: `keep` is the mask of masses where no
pair count is NaN (237-244). -/
def power1hTab (E : Env) (c : CrossDef) (keep : ℕ → Bool) (h1 h2 : HM) (j : ℕ) : ℝ :=
  let idx := (List.range h1.nm).filter keep
  simpsonX idx.length (fun i => h1.m (idx.getD i 0)) (fun i => integ1h c h1 h2 j (idx.getD i 0))
    / (h1.meanTracerDen E * h2.meanTracerDen E)

/-- `power_1h_cross_fnc`, cross_correlations.py:232-259.  Different array shapes raise (`none`); length-1
broadcasting is not modelled. -/
def power1h (E : Env) (c : CrossDef) (keep : ℕ → Bool) (h1 h2 : HM) : Option (ℝ → ℝ) :=
  if h1.nm = h2.nm ∧ h1.nk = h2.nk then
    mkES E { n := h1.nk, x := h1.k, y := power1hTab E c keep h1 h2, lower := .powerLaw, upper := .powerLaw }
  else none

/-- `corr_1h_cross_fnc`, cross_correlations.py:266-275. -/
def corr1h (E : Env) (c : CrossDef) (keep : ℕ → Bool) (h1 h2 : HM) : Option (ℝ → ℝ) := do
  let p ← power1h E c keep h1 h2
  h1.corrES E fun i => E.hankel p (h1.rt i)

/-- `b1`, `b2` of `power_2h_cross_fnc`, cross_correlations.py:300-324. -/
def beff (E : Env) (h : HM) (j : ℕ) : ℝ :=
  let f := fun i => h.dndm i * h.bias i * h.totOccInt i * h.ut j i * h.m i
  let lnm := fun i => Real.log (h.m i)
  match h.tracerMmin with
  | some x => open Classical in
      if h.m 0 < x then splIntegral E.isp h.nm lnm f (Real.log x) (lnm (h.nm - 1)) else simpsonX h.nm lnm f
  | none => simpsonX h.nm lnm f

/-- table of `power_2h_cross_fnc`, cross_correlations.py:324-329. -/
def power2hTab (E : Env) (h1 h2 : HM) (j : ℕ) : ℝ :=
  beff E h1 j * beff E h2 j * h1.phc (h1.k j) / (h1.meanTracerDen E * h2.meanTracerDen E)

/-- `power_2h_cross_fnc`, cross_correlations.py:282-337. -/
def power2h (E : Env) (h1 h2 : HM) : Option (ℝ → ℝ) :=
  if h1.nk = h2.nk then
    mkES E { n := h1.nk, x := h1.k, y := power2hTab E h1 h2, lower := .callable h1.linPow, matchLower := true,
             upper := .powerLaw }
  else none

/-- `corr_2h_cross_fnc`, cross_correlations.py:344-355: transformed with the step `h = 1e-4`. -/
def corr2h (E : Env) (h1 h2 : HM) : Option (ℝ → ℝ) := do
  let p ← power2h E h1 h2
  h1.corrES E fun i => E.hankelFine p (h1.rt i)

/-- `power_cross_fnc`, cross_correlations.py:362-364. -/
def power (E : Env) (c : CrossDef) (keep : ℕ → Bool) (h1 h2 : HM) : Option (ℝ → ℝ) := do
  let a ← power1h E c keep h1 h2
  let b ← power2h E h1 h2
  return fun k => a k + b k

/-- `corr_cross_fnc`, cross_correlations.py:371-373. -/
def corr (E : Env) (c : CrossDef) (keep : ℕ → Bool) (h1 h2 : HM) : Option (ℝ → ℝ) := do
  let a ← corr1h E c keep h1 h2
  let b ← corr2h E h1 h2
  return fun r => a r + b r + 1

end
end Halomod.Cross
