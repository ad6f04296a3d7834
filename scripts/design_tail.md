Not expressible in a model of this code: accuracy of the quadratures against the physical integrals with
IEEE rounding; performance; values produced by hmf/CAMB/colossus.

## Findings (each is a theorem; the names are in MANIFEST.json)

* `hod.py`: Leauthaud11 with `central=True` squares the central occupation; its `mmin` depends on call
  history; Contreras13 may exceed one central; Tinker05/Spinelli19 produce NaN/inf; satellite scatter of a
  marked HOD does not scale with the mark.
* `populate`: pool branch loses satellite positions; periodic wrap only moves by one box; the central factor
  is applied twice for smooth HODs; an empty catalogue raises.
* `tools.py`: `power_law` extension of negative data is zero and generally jumps at the boundary; integer
  arrays are truncated; `spline_integral` ignores a limit equal to 0; FITPACK integrals are zero outside the
  data although the warning announces extrapolation; refining the step of `hankel_transform` at fixed chunk
  size drives every result to zero; `power_to_corr_ogata` in the limit ignores its extension above the table;
  the absolute tolerance of `hankel_transform` makes it sum faint spectra over the first chunk only, so rescaling a spectrum does not rescale its correlation.
* `halo_exclusion.py`: `xmin` is ignored by the inner integral and by the compiled classes; even sizes use
  other rules than the plain classes; `cumsimps` drops its last sample; `makeW` is no quadrature for even n.
* `profiles.py`: Moore's scale radius raises; `norm=None` uses the mean density at z=0; Einasto's
  interpolated transform pairs haloes wrongly; Meijer-G transforms permute wavenumbers; HernquistInf's
  self-convolution is 4 times too large; untruncated classes ignore arguments; the numerical transform raises
  for one wavenumber.
* `concentration.py`: a parameter equal to 0 is replaced by its default in Duffy08; a failed nonlinear mass
  gives concentration 0; Ludlow16Empirical is NaN at z=8.
* `halo_model.py`: transformed matter and cross correlations are one too large; the bias component is
  evaluated at redshift 0; total correlations beyond the internal table are 1; a single mass raises in `power_hh`; `filtered-nl` uses radius 3 (documented 2);
  the tracer concentration alone is ignored by the tracer profile; `res.success` is not checked; scipy ≥ 1.14
  lacks `cumtrapz`, so sharp-cut density matching raises; attribute assignment bypasses the solver; a failed
  update leaves the new density with the old `M_min`; separations are not validated;
  `force_unity_dm_bias` is a plain attribute: changing it leaves computed matter terms stale; the default
  one-halo turnover is applied to auto spectra only, and the two-halo tracer-matter power exceeds the geometric
  mean of the auto terms.
* two-halo power with exclusion: exactly zero for k·r_max below 0.005 (C70); entries overwritten by a mask over the other wavenumber grid.
* `cross_correlations.py`: only the first model's mass function is used; `corr_cross` counts self pairs.
* `integrate_corr.py`: slope at the wrong sample; 1% tolerance makes rescaling inexact; angles in radians are
  compared with 180; `xvec` lacks h.
* settings: parameters that are 0, False, '' or [] pass for parameter dictionaries; the text "False" switches an option on;
  `update(hod_params=None)` raises; the default fast settings of `get_halomodel` name options that no class accepts.
  `ProjectedCF`'s default number of internal separations is five times the requested, not the stored, number and a negative `rnum` is accepted.
* `wdm.py`: the factory writes into the base class's `_defaults`; subclassing recurses; the two-halo term is
  normalised twice; fractions are off by (1+z)³; concentrations rise beyond z = 1.54; a rescaled
  tracer relation cannot be named and uses the half-mode mass 1000 (C69).

## Mutation testing

`seeded/LOG.jsonl` records every wrong program tried in a scratch copy: definition edited, edit, claim it
breaks, theorems that failed, theorems added or tightened because a mutant survived.
