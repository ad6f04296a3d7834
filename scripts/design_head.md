# Formal model of halomod — design

## Method

The model is a shallow embedding: each Python function becomes a Lean function that follows it branch
by branch. Exceptions are values (`Option`/`Except`), mutation returns the new state, external calls
(hmf, scipy splines and optimisers, random draws, uninitialised memory) are parameters whose assumed
behaviour is a named structure, listed below and shown satisfiable by an `example` or theorem.
The properties (`properties.jsonl`) were written from the API and its documentation; where the code does
not have a property, the refutation is a theorem (a *finding*), and what remains true is proved under a
name ending in `_partial` or as a separate theorem.

Layout under `lean/Verif/`:

* `Prelude/` – numpy/scipy primitives (Simpson as in scipy ≥ 1.11, trapezoid, cumulative trapezoid),
  the error function, sine/cosine integrals, a small type of floats with inf/NaN.
* `Model/`   – one file per source module (two for `halo_model.py`'s formulas and state, three small ones
  for spectra, components and the smooth density solver); every definition cites file and lines.
* `Spec/`    – small, independent specifications (what the English properties mean: joint laws of galaxy
  counts, halo radius, Simpson/trapezoid weights, mass and Fourier integrals of a profile, published
  abundance functions and tables, catalogues as lists of haloes).
* `Lemmas/`  – helper lemmas, never part of a claim.
* `Props/`   – the property theorems (`Cnn_…`) with, beside each group, `example`s showing that the
  hypotheses are met by a concrete non-trivial case.

## Trusted base

* Lean 4.33.0's kernel, and Mathlib as installed. Every theorem depends on a subset of the axioms
  `propext`, `Classical.choice`, `Quot.sound`; none of our own, no compiled evaluation.
* Our reading of the source: the code cannot be run here. Line numbers cited refer to the pinned commit.
* Floats are modelled by real numbers; rounding is outside the model. Where the code's result *depends on*
  IEEE special values (Tinker05 at its cut, Spinelli19 outside its range, `hankel_transform` of a function
  returning NaN, `TinkerSD05` of a negative base) the model carries inf/NaN explicitly (`Prelude/Fl.lean`,
  `Option`). Real-number conventions of Lean (`x/0 = 0`, `log` of non-positive numbers) never carry a
  claim: theorems assume the denominators and arguments that occur in them are in range, or the model uses
  `Option`.
* Semantics of numpy/scipy as written in `Prelude/` and in the doc comments.

Assumption structures (hypotheses of the theorems that mention them, nothing more):

| structure | about | content |
|---|---|---|
| `Exclusion.IusOk` | `InterpolatedUnivariateSpline(..).integral` | homogeneous in the data; uses only the given samples; proved of the integral of the cubic spline (C62_assumptions) |
| `Tools.SplOk`, `SplLin`, `SplConv` | interpolating splines | interpolates on increasing abscissae; linear; continuous; converges on uniform grids.  All proved of the cubic not-a-knot spline (C62), so what is trusted is only that FITPACK computes that spline |
| `Tools.LineFit` | `UnivariateSpline(k=1)` with default smoothing | if a line is within the smoothing bound, the least-squares line is returned |
| `HaloState.World.Ok` | `hmf`'s parameter framework | setting a dictionary parameter stores it; later values win; nothing else changes |
| `HaloState.OptOk` | `scipy.optimize.minimize` (Nelder–Mead) | starts at the start value; returns the best evaluated point |
| `Wdm.Heap.Ok` | Python classes | the MRO of a class only contains existing classes |
| `Populate.Ok` | arguments of `populate` | per-halo columns of equal length; a draw of `n` positions has `n` rows |
| `Profiles.Env.Good` | cosmology of a profile | positive densities, overdensity > 0 |
| `Profiles.Shape.Exact` | a profile class | proved (not assumed) for NFW, Hernquist, Constant, CoredNFW |
| `HaloModel.HM.Ok`, `Grid` | grids of a halo model | increasing, positive, non-empty |
| `Framework.Cls.Run`, `Cls.set` | `hmf`'s `@parameter` / `@cached_quantity` | computed on first read with the parameters read recorded; forgotten when one of them is set |
| `Framework.IsHalo` | the classes of /repo | declarations and reads as in the table generated from the sources by `scripts/gen_reads.py` (Python `ast`; trusted) |
| `Cross.Shared` | two halo models | same grids, mass function and centre spectrum |

## What is modelled and what is not

Modelled: `hod.py` (every class; C01–C06), `tools.py` (`power_to_corr`, `power_to_corr_ogata`,
`hankel_transform`, `corr_to_power`, `ExtendedSpline`, `spline_integral`, `populate`, `exclusion_window`),
`halo_exclusion.py` (all), `profiles.py` (base class, NFW, NFWInf, Hernquist, HernquistInf, CoredNFW, Moore,
GeneralizedNFW, Einasto, ConstantProfile, PowerLawWithExpCut, shape handling, interpolation and Meijer-G
pairing), `concentration.py` (all relations, the interpolating variants of Bullock01/Ludlow16), `bias.py`
(all), `halo_model.py` (mean densities, averages, 1- and 2-halo power and correlation for matter, tracer and
cross; spectra and their choice; components; validation; masks; the density-matching state machine and both
solvers; separations), `cross_correlations.py`, `integrate_corr.py`, `wdm.py`.

Not modelled: `functional.py` (a loop over `itertools.product` of keyword values around the constructors),
plotting/docs, `hmf`'s own mass functions, transfer functions, growth and halofit (they enter as arbitrary
tables), `colossus`, the code of `hmf`'s caching machinery (its documented behaviour is modelled in
`Model/Framework.lean`), the numerical accuracy of a quadrature or spline at a given resolution, except where
a theorem states it (limits of refined grids C56/C58, the error bound of C60, exact cases), IEEE rounding,
performance.
