# Formal model of halomod — design

## Method

The model is a shallow embedding: each Python function becomes a Lean function that follows it branch
by branch. Exceptions are values (`Option`/`Except`), mutation returns the new state, external calls
(hmf, scipy splines and optimisers, random draws, uninitialised memory) are parameters whose assumed
behaviour is a named structure, listed below and shown satisfiable by an `example` or theorem.
The properties (`properties.jsonl`) were written from the API and its documentation; where the code does
not have a property, the refutation is a theorem (a *finding*), and what remains true is proved under a
name ending in `_partial` or as a separate theorem.

Layout under `lean/Verif/`:

* `Prelude/` – numpy/scipy primitives (Simpson as in scipy ≥ 1.11, trapezoid, cumulative trapezoid),
  the error function, sine/cosine integrals, a small type of floats with inf/NaN.
* `Model/`   – one file per source module (two for `halo_model.py`'s formulas and state, three small ones
  for spectra, components and the smooth density solver); every definition cites file and lines.
* `Spec/`    – small, independent specifications (what the English properties mean: joint laws of galaxy
  counts, halo radius, Simpson/trapezoid weights, mass and Fourier integrals of a profile, published
  abundance functions and tables, catalogues as lists of haloes).
* `Lemmas/`  – helper lemmas, never part of a claim.
* `Props/`   – the property theorems (`Cnn_…`) with, beside each group, `example`s showing that the
  hypotheses are met by a concrete non-trivial case.

## Trusted base

* Lean 4.33.0's kernel, and Mathlib as installed. Every theorem depends on a subset of the axioms
  `propext`, `Classical.choice`, `Quot.sound`; none of our own, no compiled evaluation.
* Our reading of the source: the code cannot be run here. Line numbers cited refer to the pinned commit.
* Floats are modelled by real numbers; rounding is outside the model. Where the code's result *depends on*
  IEEE special values (Tinker05 at its cut, Spinelli19 outside its range, `hankel_transform` of a function
  returning NaN, `TinkerSD05` of a negative base) the model carries inf/NaN explicitly (`Prelude/Fl.lean`,
  `Option`). Real-number conventions of Lean (`x/0 = 0`, `log` of non-positive numbers) never carry a
  claim: theorems assume the denominators and arguments that occur in them are in range, or the model uses
  `Option`.
* Semantics of numpy/scipy as written in `Prelude/` and in the doc comments.

Assumption structures (hypotheses of the theorems that mention them, nothing more):

| structure | about | content |
|---|---|---|
| `Exclusion.IusOk` | `InterpolatedUnivariateSpline(..).integral` | homogeneous in the data; uses only the given samples; proved of the integral of the cubic spline (C62_assumptions) |
| `Tools.SplOk`, `SplLin`, `SplConv` | interpolating splines | interpolates on increasing abscissae; linear; continuous; converges on uniform grids.  All proved of the cubic not-a-knot spline (C62), so what is trusted is only that FITPACK computes that spline |
| `Tools.LineFit` | `UnivariateSpline(k=1)` with default smoothing | if a line is within the smoothing bound, the least-squares line is returned |
| `HaloState.World.Ok` | `hmf`'s parameter framework | setting a dictionary parameter stores it; later values win; nothing else changes |
| `HaloState.OptOk` | `scipy.optimize.minimize` (Nelder–Mead) | starts at the start value; returns the best evaluated point |
| `Wdm.Heap.Ok` | Python classes | the MRO of a class only contains existing classes |
| `Populate.Ok` | arguments of `populate` | per-halo columns of equal length; a draw of `n` positions has `n` rows |
| `Profiles.Env.Good` | cosmology of a profile | positive densities, overdensity > 0 |
| `Profiles.Shape.Exact` | a profile class | proved (not assumed) for NFW, Hernquist, Constant, CoredNFW |
| `HaloModel.HM.Ok`, `Grid` | grids of a halo model | increasing, positive, non-empty |
| `Framework.Cls.Run`, `Cls.set` | `hmf`'s `@parameter` / `@cached_quantity` | computed on first read with the parameters read recorded; forgotten when one of them is set |
| `Framework.IsHalo` | the classes of /repo | declarations and reads as in the table generated from the sources by `scripts/gen_reads.py` (Python `ast`; trusted) |
| `Cross.Shared` | two halo models | same grids, mass function and centre spectrum |

## What is modelled and what is not

Modelled: `hod.py` (every class; C01–C06), `tools.py` (`power_to_corr`, `power_to_corr_ogata`,
`hankel_transform`, `corr_to_power`, `ExtendedSpline`, `spline_integral`, `populate`, `exclusion_window`),
`halo_exclusion.py` (all), `profiles.py` (base class, NFW, NFWInf, Hernquist, HernquistInf, CoredNFW, Moore,
GeneralizedNFW, Einasto, ConstantProfile, PowerLawWithExpCut, shape handling, interpolation and Meijer-G
pairing), `concentration.py` (all relations, the interpolating variants of Bullock01/Ludlow16), `bias.py`
(all), `halo_model.py` (mean densities, averages, 1- and 2-halo power and correlation for matter, tracer and
cross; spectra and their choice; components; validation; masks; the density-matching state machine and both
solvers; separations), `cross_correlations.py`, `integrate_corr.py`, `wdm.py`.

Not modelled: `functional.py` (a loop over `itertools.product` of keyword values around the constructors),
plotting/docs, `hmf`'s own mass functions, transfer functions, growth and halofit (they enter as arbitrary
tables), `colossus`, the code of `hmf`'s caching machinery (its documented behaviour is modelled in
`Model/Framework.lean`), the numerical accuracy of a quadrature or spline at a given resolution, except where
a theorem states it (limits of refined grids C56/C58, the error bound of C60, exact cases), IEEE rounding,
performance.

## Per property: what is modelled, how it is proved, what is missing

* **C01 Central condition: no satellites without centrals** (proved). *Modelled:* all HOD classes, `_central_occupation`, `_satellite_occupation`, the wrappers. *Proof:* algebra over the class table; pointwise in the mass. *Scope/missing:* All HOD classes. Finding: Leauthaud11 puts the factor nc inside its own satellite function without declaring it, so central=True yields nc^2 (C01_leauthaud_factor_twice). Spinelli19 outside its counts range is excluded from the real-number model and treated in C05.
* **C02 Pair counts and scatters are the moments of the assumed galaxy distribution** (proved). *Modelled:* `ss_pairs`, `cs_pairs`, `sigma_*` of every class. *Proof:* the pair counts are compared with second factorial moments of explicit joint laws (`Spec/Counts`: Bernoulli central, Poisson satellites) via `tsum`; algebra. *Scope/missing:* Marks included. Finding: with central=True ss_pairs is not the pair count of the conditional joint law unless nc is 0 or 1 (C02_ss_pairs_conditional_iff).
* **C03 Occupation functions are in range, have the right support, and grow with mass** (proved). *Modelled:* occupation functions of every class. *Proof:* `erf` as a Gaussian integral (monotone, odd, bounded); real powers; case analysis on cuts. *Scope/missing:* Finding: Contreras13 may exceed one central per halo.
* **C04 A mark does not change normalised statistics** (partial). *Modelled:* marked HODs, averages. *Proof:* linearity. *Scope/missing:* Missing because false: the satellite scatter scales with sqrt(A), not A (C04_sigma_satellite_not_scaling).
* **C05 Occupations are numbers at every mass** (partial). *Modelled:* Tinker05, Spinelli19 and the smooth classes over floats with inf/NaN; every class over the reals for signs. *Proof:* evaluation of special values; intervals where no overflow occurs; case analysis over all HOD classes. *Scope/missing:* Missing because false: Tinker05 just below 10**M_min is NaN, Spinelli19 outside its counts range is inf/NaN; both refutations are theorems about an IEEE-like model with overflow. Non-negativity of every occupation, number, pair function and scatter of every class is C05_nonneg (non-negative amplitudes, reals).
* **C06 Leauthaud11 stellar-to-halo-mass relation is monotone, and evaluation order does not matter** (partial). *Modelled:* Leauthaud11 SHMR, its table inversion, and the object as a state with cached parameters. *Proof:* monotonicity by derivative signs; induction over call histories. *Scope/missing:* Missing because false: mmin changes after the first occupation call (C06_mmin_depends_on_history).
* **C07 Catalogue accounting of populate()** (proved). *Modelled:* `populate` as a list program with the random outcomes as arguments; pool branch with lost writes. *Proof:* list induction over the catalogue. *Scope/missing:* Serial and process-pool branch; the pool branch loses the satellite positions (C07_pool_positions_lost), which the row/label accounting of C07 does not cover.
* **C08 populate() respects the central condition halo by halo** (proved). *Modelled:* same. *Proof:* list induction. *Scope/missing:* Serial branch; the pool branch has the same halo column (C07_pool_same_bookkeeping).
* **C09 populate() galaxies lie in their halo and, when a box is given, in the box** (partial). *Modelled:* position sampling, periodic wrap, and both composed with the bookkeeping of populate (Model/Catalogue). *Proof:* vector algebra; case analysis of the wrap; induction over the host list. *Scope/missing:* Missing because false: galaxies more than a box length outside stay outside; pool branch returns uninitialised positions. For the serial branch the statement is proved for the whole returned catalogue: every row is within the virial radius of the halo its row names (C09_catalogue), also modulo the box and inside the box when all haloes are and none is larger than the box (C09_catalogue_box).
* **C10 Mean satellite number in the catalogue matches the HOD** (partial). *Modelled:* expectation of the drawn satellite numbers. *Proof:* finite/infinite sums over the draw laws. *Scope/missing:* Missing because false: with central=True and a gradual central occupation populate applies the central factor twice (C10_zheng_half).
* **C11 hankel_transform sums a contiguous set of nodes exactly once and terminates** (proved). *Modelled:* `hankel_transform` loop as a while relation; Ogata nodes and weights. *Proof:* loop invariant, termination by the node limit, derivative of the transformation. *Scope/missing:* hankel_transform (the generic chunked routine); real arithmetic, user function may return NaN.
* **C12 ExtendedSpline evaluates the right branch everywhere and joins continuously** (partial). *Modelled:* `ExtendedSpline` with an abstract spline. *Proof:* case analysis; least squares for the power-law extension. *Scope/missing:* Missing because false: power_law extensions of negative data are identically zero, and of data that are not an exact power law do not join at the boundary; integer arrays are truncated.
* **C13 spline_integral integrates between the limits the caller gave** (partial). *Modelled:* `spline_integral`, FITPACK's zero extension. *Proof:* case analysis; integrals. *Scope/missing:* Missing because false: a limit equal to 0 is ignored with log=False.
* **C14 corr/power transforms are linear and mutually consistent** (proved). *Modelled:* `power_to_corr`, `power_to_corr_ogata`, `corr_to_power`. *Proof:* linearity; floor arithmetic for the k range. *Scope/missing:* Including the tabulated-power extrapolation (pfunc).
* **C15 The exclusion window is a normalised top-hat transform** (proved). *Modelled:* `exclusion_window`. *Proof:* calculus (sine/cosine bounds, limit at 0).
* **C16 Halo exclusion only removes pairs, symmetrically and monotonically in separation** (proved). *Modelled:* masks, radii and density modifications of Sphere/DblSphere. *Proof:* monotone powers; congruence of integrals.
* **C17 Ellipsoidal exclusion probability** (proved). *Modelled:* ellipsoid probabilities (plain and compiled) and density modification. *Proof:* polynomial inequalities; equality with the documented formula.
* **C18 Exclusion has no effect beyond twice the largest halo** (partial). *Modelled:* `integrate`/`density_mod` for large separations with and without `xmin`. *Proof:* congruence, separability of double integrals. *Scope/missing:* Missing because false: with a minimum mass DblSphere/DblEllipsoid integrate the inner mass over the whole grid (C18_dblsphere_xmin, C18_xmin_not_noexclusion). Ellipsoid density modification proved as the trapezoid value.
* **C19 Fast double-integral kernels equal the documented double Simpson/trapezoid rule** (proved). *Modelled:* `dblsimps_`, `dbltrapz_`, `makeW_`, `makeH_` as sequences of in-place updates. *Proof:* fold over updates computed for every n; symmetric double sums. *Scope/missing:* n>=3 for Simpson, n>=2 for trapezoid (the code's loops need that many).
* **C20 Fast exclusion classes agree with the plain ones** (partial). *Modelled:* fast classes incl. uninitialised memory. *Proof:* reduction to C19; counterexample for even n. *Scope/missing:* Missing because false: even grid sizes (DblSphere_) and DblEllipsoid_.integrate use other quadratures than the plain classes.
* **C21 cumsimps is a cumulative Simpson integral** (partial). *Modelled:* `cumsimps`. *Proof:* induction over panels. *Scope/missing:* Missing because false: the last entry, which should be the whole integral, drops its last sample for an odd number of samples (C21_cumsimps_last) and ignores the last interval's end for an even number (C21_cumsimps_last_even).
* **C22 Halo exclusion never increases the two-halo integral** (proved). *Modelled:* raw integrands, bounds, NgMatched mask. *Proof:* monotonicity of (double) Simpson and trapezoid sums with non-negative weights. *Scope/missing:* No minimum mass; mass-only bias for monotonicity in r. Order of the models: C22_double_bounds, C22_density_order, C22_ng_grows.
* **C23 Mass, radius and scale-radius conversions are mutually inverse** (partial). *Modelled:* mass/radius/scale-radius conversions, virial velocity. *Proof:* real cube roots; intermediate monotonicity. *Scope/missing:* Missing because false: Moore.scale_radius raises and Moore's virial radius is not at its concentration.
* **C24 Analytic profile normalisations are the integrals they claim to be** (proved). *Modelled:* `_h` of the profile classes. *Proof:* fundamental theorem of calculus, substitution. *Scope/missing:* NFW, Hernquist, Moore, Constant, CoredNFW, Einasto, power law with cut-off; the volume integral for every profile with the Exact interface (NFW, Hernquist, Constant, CoredNFW).
* **C25 Density profile is non-negative, truncated at the virial radius and integrates to the halo mass** (partial). *Modelled:* `rho`, normalisations, truncation, array shapes. *Proof:* monotone shapes; shape arithmetic. *Scope/missing:* Missing because false: norm=None integrates to m*rho(z)/rho(0) (C25_norm_none_iff); Constant.rho and scalar calls raise.
* **C26 Normalised Fourier transform of the profile** (partial). *Modelled:* `u`, `_p`, Einasto interpolation, Meijer-G ordering. *Proof:* sine/cosine integrals by calculus; permutation arguments. *Scope/missing:* Proved for the analytic profiles and for the power law with exponential cut-off (C26_powerlaw*); Einasto's interpolated transform pairs haloes wrongly, the Meijer-G ones permute wavenumbers, generic numeric shape handling raises.
* **C27 Radial CDF of a profile is a CDF** (partial). *Modelled:* `cdf` and enclosed mass. *Proof:* monotonicity of the mass integral. *Scope/missing:* Missing because false: beyond the virial radius cdf exceeds 1; calls without a mass raise.
* **C28 Untruncated profiles are the limits of truncated ones** (proved). *Modelled:* NFWInf, HernquistInf. *Proof:* limits; improper integrals. *Scope/missing:* Density, Fourier transforms (NFW, Hernquist), self-convolutions; finding: HernquistInf lam is 4 times too large.
* **C29 NFW self-convolution is continuous with bounded support** (proved). *Modelled:* `lam` of NFW. *Proof:* convolution integral computed by calculus; continuity at the branch points. *Scope/missing:* Closed form equals the self-convolution integral.
* **C30 Concentrations are positive and fall with mass and redshift** (partial). *Modelled:* all concentration relations. *Proof:* monotone real powers; option-valued failure paths. *Scope/missing:* Missing because false: an explicit Duffy08 parameter equal to 0 is ignored; a failed non-linear-mass search gives concentration 0; Ludlow16Empirical is NaN at z=8.
* **C31 Interpolated concentrations are positive and agree with valid samples** (proved). *Modelled:* interpolating relations. *Proof:* list masks; linear interpolation between neighbours. *Scope/missing:* Ludlow16: non-empty table (an empty table raises).
* **C32 Bullock01 collapse redshift** (proved). *Modelled:* Bullock01 collapse redshift by grid/growth inversion. *Proof:* monotone inverse.
* **C33 Peak-background split: mean bias is one** (proved). *Modelled:* bias functions against abundances (Spec). *Proof:* integration by parts over (0,∞) via a general form lemma with Gamma-type integrability. *Scope/missing:* Continuous integrals over peak height.
* **C34 Bias functions are positive and increase with peak height; typical haloes are unbiased** (proved). *Modelled:* bias functions. *Proof:* derivative signs; explicit rational bounds on exp and powers. *Scope/missing:* Positivity of Tinker10 for overdensities 100..3200.
* **C35 Scale-dependent bias** (proved). *Modelled:* scale-dependent bias. *Proof:* real powers with NaN branch.
* **C36 Tracer bookkeeping identities** (partial). *Modelled:* densities, averages, fractions, 1-halo power. *Proof:* linear functionals on the masked grid. *Scope/missing:* Missing because false: for Zehavi05WithMax and Zehavi05Marked the mass integrals use a central occupation of one (C36_withmax_counts_absent_centrals, C36_marked_ignores_amplitude); 1-halo integrals pass log M_min as a mass. C36_mesh_averages: for every HOD class the averages tend to values inside the documented ranges, without assumptions on quadrature weights.
* **C37 Matching the tracer density** (proved). *Modelled:* update/construct/solve as a state machine with failures. *Proof:* induction over histories. *Scope/missing:* State machine over every history of updates, with failures; direct attribute assignment is outside the claim and refuted (C37_assignment_stale).
* **C38 Sharp-cut density inversion brackets the requested density** (partial). *Modelled:* sharp-cut solver: cumulative integral, argmax, log interpolation. *Proof:* monotone sequences; bracketing. *Scope/missing:* Missing because false: densities below the one above the second largest grid mass are extrapolated; exactly the largest density raises IndexError; scipy>=1.14 raises AttributeError always.
* **C39 Correlation functions have one meaning of offset** (partial). *Modelled:* the 22 correlation/power properties. *Proof:* interpolation at table points; algebra. *Scope/missing:* Missing because false: transformed matter and cross correlations are one too large; extra central factor for smooth HODs.
* **C40 Halo-centre power for constant bias, symmetry, and cosmology-consistent bias** (partial). *Modelled:* `power_hh`, centre power, masks. *Proof:* linear functionals; symmetric bracket. *Scope/missing:* Missing because false: the bias component is evaluated at redshift 0 (C40_bias_ignores_redshift); single masses raise.
* **C41 Cross-correlations are symmetric in the two tracers and reduce to auto-correlations** (proved). *Modelled:* `cross_correlations.py`. *Proof:* algebra of sums; symmetry.
* **C42 Projected and angular correlations are linear and normalised** (partial). *Modelled:* projected and angular correlations. *Proof:* linearity of Simpson; counterexamples to scale invariance; convergence of Simpson sums and monotone bounds on the excised part. *Scope/missing:* Additivity only for slopes that do not matter; normalisation and rescaling only up to the code's 1% tolerance (refuted beyond). The cut of the line-of-sight integral, its integrand, Limber's equation and the redshift/distance choice are C42_theta_peak, C42_theta_cut, C42_projected_integrand, C42_projection_is_line_of_sight, C42_limber, C42_redshift_or_distance. The 1000-point rule is one member of a family that converges to the integral from the cut to the limit (C42_projection_converges), and for a non-negative, non-increasing correlation the cut loses at most 4.1% of rp*xi(rp) (C42_inner_cut). Where the correlation drops from a positive value to exactly zero between two input separations the projected correlation is NaN (C42_projected_drop_to_zero).
* **C43 WDM models preserve CDM models and conserve matter** (partial). *Modelled:* `wdm.py` incl. class dictionaries on a heap. *Proof:* heap invariants; algebra. *Scope/missing:* Missing because false: building a WDM relation adds its parameters to the base's defaults; concentrations rise beyond z=1.54; large-scale power exceeds the linear one.
* **C44 Large-scale limit of the two-halo terms** (partial). *Modelled:* low-k rows of the 2-halo terms. *Proof:* limit k→0 of `u` (C26) through finite sums. In the mass-refinement limit from C56_two_halo_power. *Scope/missing:* On a finite grid the code's Simpson value of the bias appears instead of bias_effective_tracer (a spline integral) for tracers without a cut; the exact statement holds in the limit of fine mass grids for every HOD (C44_large_scale_limit; C44_mesh_large_scale_limit on the package's own mass grid and for HODs with steps). Missing because false: with exclusion or scale-dependent bias low wavenumbers are overwritten with one power of the bias (C44_low_k_overwrite).
* **C45 Separation grids and filtered spectra** (proved). *Modelled:* `r`, `hm_k` grids, filtered tables. *Proof:* grid arithmetic.
* **C46 Tracer-matter cross power** (partial). *Modelled:* cross tables. *Proof:* linear functionals; bounds. *Scope/missing:* Missing because false: the matter factor is the bias integral over the mean density whatever force_unity_dm_bias says (C46_two_halo_consistent_iff); the tracer auto term smears centrals with the profile (C46_centrals_not_smeared).
* **C47 Power functions and choice of the halo-centre spectrum** (partial). *Modelled:* `linear_power_fnc` etc., `hc_spectrum` choice. *Proof:* C12 branches specialised. *Scope/missing:* Missing because false: filtered-nl uses radius 3; a filtered spectrum jumps at the first wavenumber unless the window is 1 there; _corr_mm_base_fnc is None for filtered-lin.
* **C48 Tracer components default to the halo's and stay consistent with each other** (partial). *Modelled:* component construction. *Proof:* case analysis over configurations. *Scope/missing:* Missing because false: a tracer concentration given without a tracer profile is ignored by the tracer profile's own methods (C48_concentration_alone).
* **C49 Validation accepts exactly the usable configurations** (partial). *Modelled:* `validate`, `_tm`. *Proof:* list/grid arithmetic. *Scope/missing:* Missing because false: non-positive scalar separations and any array of separations are accepted (C49_separations_unchecked); one remaining mass is rejected.
* **C50 Density matching without a sharp cut** (partial). *Modelled:* `_find_m_min` for smooth HODs. *Proof:* optimiser contract; mask arithmetic. *Scope/missing:* Missing because false: convergence is not checked, the start value must be valid, Contreras13 galaxies below M_min are not counted.
* **C51 Results follow the current inputs, whatever was read or assigned before** (partial). *Modelled:* Model/Framework.lean: objects as inputs plus a cache with recorded dependencies, computations as arbitrary adaptive readers; Model/HaloReads.lean: generated table of the attributes each quantity of /repo mentions. *Proof:* Invariant over runs (each cached value is right for all inputs that agree on the recorded parameters), induction over histories, against a cache-free reference semantics in Spec/Framework.lean; termination by the rank of the table. *Scope/missing:* Missing because false: force_unity_dm_bias is a plain attribute, so changing it leaves ten matter quantities stale (C51_force_unity_is_stale, C51_untracked_dependents); proved for every history that does not assign it. Assumes hmf's documented caching decorators.
* **C52 Components of different models do not influence each other** (partial). *Modelled:* Process state with colossus' global cosmology; components native or colossus-backed; programs = lists of build/eval events. *Proof:* Induction over programs. *Scope/missing:* Proved for every program: native components are isolated; a colossus-backed component evaluates in the cosmology of the colossus-backed component built last (finding C52_second_model_interferes: so it changes when another model is built); it is right in programs that use one cosmology. colossus itself is a function of its global cosmology.
* **C53 The mass function goes with the bias model** (partial). *Modelled:* pair_hmf attributes with inheritance for each bias class, constructor's choice of hmf_model, update. *Proof:* Case analysis over classes, induction over update sequences. *Scope/missing:* Proved: pairing at construction, explicit mass function wins, when the warning appears. Findings: the pairing is not redone on update (C53_update_keeps_mass_function, C53_update_unpairs), and the default bias Tinker10 always warns because it declares no partner (C53_warning).
* **C54 Scale-dependent bias multiplies the two-halo correlation** (partial). *Modelled:* All exclusion classes' integrate/density_mod with the outer-product bias; rows of _get_power_2h_primitive; debiasing with bias[-1]; transform per row. *Proof:* Homogeneity of each quadrature (case analysis over classes) and of ExtendedSpline; for the transform of the code see C68; counterexample: a linear power with two spikes below the table. *Scope/missing:* For all eight exclusion classes the corrected spectrum of each separation is the uncorrected one times the squared correction (C54_tracer_spectrum, C54_matter_spectrum: no assumption on the transform). That the correlation is rescaled likewise is false of the code: the transform stops on an absolute tolerance (C54_tolerance_breaks, a full model with the transform of the code); it holds wherever both sums over nodes end after as many chunks (C54_code_partial). Assumes the interpolating spline is linear in its data (proved of the cubic spline in C62) and the power-law fit follows a rescaling; the correction must not vanish and the linear power be non-zero at the first wavenumber. C54_density: the density every class uses is the documented pair integral.
* **C55 Updating a projected or angular model to settings equals building it with them** (partial). *Modelled:* Model/Observables.lean: keyword records (given or omitted) for both classes, constructors with their conditional defaults, update as assignment through the setters, the constructor's warning and the table warning of rmax. *Proof:* Case analysis over given/omitted keywords; the flat distribution determines its range, so the iff is exact. Sizes: `C55_sizes_truncated` gives the stored number of separations for every real argument. *Scope/missing:* Missing because false: rnum is taken from rp_num, and the default distribution from zmin/zmax, only at construction (C55_projected_stale, C55_angular_stale_range); proved: exactly when the two ways agree (C55_projected_update_iff, C55_angular_update_iff), all other settings and refusals always agree. hmf's update is modelled as assignment through the setters.
* **C56 Refining the mass grid converges to the documented integrals over halo mass** (proved). *Modelled:* Lemmas/Converge*.lean: error bounds of trapezoid, Simpson and Simpson+trapezoid rules in terms of the oscillation on two panels, uniform in a cut; the exclusion models on refined grids (`refined`) and halo models on refined grids (`fine`). Two-halo terms: `C56_two_halo_power` (no exclusion) and `C56_two_halo_tracer_excl`/`_matter_excl` (Props/Converge5.lean, all exclusion classes). On hmf's own grid: `mesh` (Props/Converge6.lean), with `Tame` = bounded and continuous off a countable set (Lemmas/Tame.lean). *Proof:* Heine–Cantor bounds the oscillation; the inner quadrature converges uniformly in the outer mass, the inner integral is continuous by dominated convergence, change of variables to log mass; the number-matched cut converges because the cumulated density is strictly increasing. Two-halo: exclusion objects are homogeneous in the density (`Scaled`), the extended spline is linear in its table, so tables, splines and transforms converge. Mesh: the broken line through samples of a tame function converges almost everywhere, dominated convergence with a moving end point; the spline differs from the broken line by O(step) because the moments are O(jump/step²). *Scope/missing:* Two families. C56_mesh_*: the grid of hmf, 10**np.arange(Mmin, Mmax, dlog10m), whose last mass moves with dlog10m and stays below 10**Mmax, as dlog10m tends to 0; mass function, bias, profiles and occupations may have jumps (bounded, continuous except at countably many masses), so steps of the HOD inside the range are covered; C56_mesh_every_hod(_power) discharges this for every HOD class and C56_mesh_default for the package default Zehavi05; C56_mesh_tracer_matter_power, C56_mesh_cross_power and C56_mesh_wdm cover the tracer-matter cross power, the power of two different tracers and warm dark matter on the same grid. The spline is assumed to integrate like the broken line up to a multiple of the step (SplQuad, proved of the cubic spline: C62_integral_jumps). The other C56_* theorems: n+2 masses evenly spaced in log mass over a fixed closed range and continuous inputs (SplConv, proved of the cubic spline in C62). Cross power: the two models share the mass range and no pair count is NaN. Two-halo correlations with exclusion: HODs without a sharp cut, and convergence at every separation at which the transform is continuous at the limiting spectrum; for the transform of the code this holds unless its stopping test is met exactly on its boundary (C56_code_transform, C68_continuous).
* **C57 Cross-correlation and WDM results follow the current inputs of all objects involved** (proved). *Modelled:* Model/CrossReads.lean: declarations and reads of CrossCorrelations with both sub-models as one graph, and of the WDM classes; caching semantics of Model/Framework.lean. *Proof:* Generic version of the C51 invariant over an arbitrary graph of reads; reachability by closed sets of attributes; independence by congruence of the reference semantics. *Scope/missing:* Assumes hmf's documented caching, including that quantities reading a sub-framework depend on its parameters. The two private limits of the separation table are excluded; re-assigning the private dictionaries _halo_model_1_params/_halo_model_2_params after construction is not modelled. Finding: in WDM models five cached matter quantities depend on the untracked force_unity_dm_bias (C57_wdm_untracked), like the ten of C51.
* **C58 Angular correlation functions converge to Limber's integral** (proved). *Modelled:* Model/IntegrateCorr.lean `angular` and `checkP` (function, normalisation, grids); Lemmas/SimpsonX*.lean: error of scipy's Simpson rule (both parities) on a grid that is the image of a uniform one under a smooth change of variable. *Proof:* Spec/Angular.lean states Limber's integral with normalised distributions; the inner rule converges uniformly in the outer point, the inner integral is continuous, change of variables from log10 u to u and from z to distance. *Scope/missing:* xi continuous on r>0, distributions continuous on the sample, dx/dz the positive continuous derivative of h·distance; the integral of each distribution is neither 0 nor exactly on the tolerance of the normalisation check. The limit is over znum and unum going to infinity independently, with the ranges of z and u fixed (the truncation of u is the code's own).
* **C59 Satellites are distributed as the halo's density profile** (proved). *Modelled:* Model/Sample.lean: `populate` for one satellite as a function of its uniform deviate and three normals (table of 1000 radii, cdf, interpolated inverse, placement). Spec/Sample.lean: the product of the uniform law and three standard normals (Mathlib measures). *Proof:* Strict monotonicity turns the event 'within a tabulated radius' into 'deviate below the cdf there'; rotation invariance of the standard Gaussian; product measure for independence; integral over n independent copies; Poisson average. *Scope/missing:* Assumes that the interpolating spline of the inverse cdf through the code's own table increases (Shape.InverseIncreasing; shown for piecewise-linear interpolation; scipy's cubic spline does not guarantee it), no bloating, and an exact cdf vanishing at 0 (NFW, Hernquist, CoredNFW, Constant). The random generator is its documented law.
* **C60 Profiles without closed forms are normalised and transformed numerically, halo by halo** (partial). *Modelled:* Model/GenericProfile.lean: `Profile._h` (2000-point grid, scipy's cumulative_simpson, scalar/array branches, argument precedence), `Profile._p` (sort, cumulative loop over haloes per wavenumber, 100-point wavenumber grid, spline), break points, `_reduce` and the shape of K. Externals: quad (exact integral), argsort (any sorting permutation), spline. *Proof:* cumulative Simpson equals composite Simpson at even entries and scipy's simpson at the end; error bound for monotone functions by telescoping, extended to differences; the loop by induction over the sorted order; unimodality of the generalised NFW integrand from its log-derivative. Between the wavenumbers: the interpolant is a fixed combination of the entries, so its error commutes with the integrals and reduces to that for cos(κu), bounded by C62's local accuracy; array normalisations: each entry of the cumulative rule is bounded by telescoping, the spline stays near the polygon. *Scope/missing:* Missing because false: all wavenumbers equal (in particular one wavenumber and one halo) raise (C60_single_wavenumber); one zero is missing from the break points (C60_break_points), harmless for an exact integrator. quad is taken as exact. The error between the 100 tabulated wavenumbers (C60_transform_accuracy) and of the normalisation of every halo in an array (C60_norm_array_unimodal) is bounded explicitly with the cubic spline of C62.
* **C61 Power spectra and correlation functions outside their tables** (partial). *Modelled:* Model/Tools.lean `ExtendedSpline` and the callables of Model/HaloModel.lean and Model/Cross.lean. *Proof:* the branch theorem C12 plus the extension each callable is built with; totals by their added constants. *Scope/missing:* Missing because false: totals beyond the largest tabulated separation are 1 for matter, tracer-matter, two tracers and tracers without analytic self-convolution (C61_matter_correlation_far, C61_cross_correlation_far, C61_two_tracers_far, C61_tracer_correlation_far).
* **C62 Interpolation between tabulated values** (proved). *Modelled:* Model/Spline.lean: interpolation in the truncated-power basis by inverting its matrix; Spec/Spline.lean: piecewise cubics with matching derivatives and the not-a-knot conditions. *Proof:* existence and uniqueness: the homogeneous piecewise system has only the zero solution (slope and curvature keep one sign pattern from left to right that the right end excludes); stability: maximum principle for the moment equations; convergence: uniform continuity. Local accuracy on any grid: the moments are bounded by the second divided differences (diagonal dominance), Taylor's formula. *Scope/missing:* The model is the element of the space of cubic splines with FITPACK's knots (all data points but the second and last but one) that interpolates the data; that FITPACK computes it is trusted. Rounding is not modelled. Degree-1 splines (profiles.py:863, 953) and the smoothing spline (tools.py:543) are other functions. Fewer than five points: the polynomial through them (scipy refuses fewer than four).
* **C63 Documented formulas, defaults and meanings of model parameters** (partial). *Modelled:* Model/Params.lean: _defaults dictionaries, Component.__init__, and bias()/cm() of each class reading self.params, on top of Model/Bias, Model/Concentration; Model/Hod for the HOD parameters *Proof:* Spec/Documented.lean transcribes the docstrings; unfolding of dictionary look-ups for an arbitrary keyword dictionary, algebra; explicit inputs refute the false docstrings *Scope/missing:* False in the code for the classes and parameters named in the property (refutations: C63_jing98_notation, C63_st99_defaults_swapped, C63_manera10_default_differs, C63_bullock01_K, C63_seljak04Cosmo_frozen, C63_pillepich10_B3, C63_tinkerPB_alpha_unused, C63_zheng_M1, C63_zheng_Mmin, C63_contreras_M0, C63_moore_formula); proved for all others, and for those classes with the actual defaults. hmf's Component.__init__ (outside the repository) is modelled as documented there: unknown keywords refused, defaults updated. Duffy08 is C30_duffy_*; formulas given only by citation (Maccio07, Ludlow16) are not claimed, Ludlow16Empirical is compared with equations C1-C6 transcribed from the cited paper.
* **C64 Auto and cross power spectra are mutually consistent** (partial). *Modelled:* The one- and two-halo power functions of Model/HaloModel at tabulated wavenumbers on a sequence of refined mass grids. Occupations with jumps on the grid of hmf: Lemmas/Tame2.lean, Props/Mesh2.lean, Props/Bound2.lean. *Proof:* Limits of all spectra (C56), Cauchy-Schwarz for integrals by the discriminant, the pair counts of Poisson HODs; refutations by the vanishing of spline integrals beyond the last mass and by strict monotonicity of integrals. *Scope/missing:* Missing because false: the default one-halo turnover is applied to the auto terms only, so on large scales both vanish while the cross term does not (C64_turnover_breaks_bound), and the two-halo cross power exceeds the geometric mean of the auto terms wherever the tracer profile is resolved (C64_two_halo; C64_mesh_turnover_breaks_bound, C64_mesh_two_halo and C64_default_two_halo: the same on the package's mass grid, for occupations with steps, in particular the default HOD). Proved with the turnover off in the limit of fine mass grids (the spline quadrature on a fixed grid need not be positive): for occupations continuous over the mass range (C64_one_halo_bound_partial) and, on the mass grid the package makes, for occupations with jumps inside it (C64_mesh_one_halo_bound_partial), in particular the default HOD (C64_default_partial). Two tracers: the two-halo terms are perfectly correlated exactly, on every grid (C64_two_tracers_two_halo); the one-halo bound with the turnover off, fine grids, also for occupations that jump (C64_mesh_two_tracers_one_halo_partial). C64_default_* are for Zehavi05, C64_zheng_* for Zheng05.
* **C65 The Hankel transforms converge to the exact Fourier integral** (partial). *Modelled:* The loop of hankel_transform and the cumulative sums of power_to_corr_ogata (Model/Tools), with nodes, weights, chunking and tolerance tests. *Proof:* The nodes form a partition whose mesh up to any fixed point tends to 0 with h (monotonicity of psi, mean value theorem, local Lipschitz bound of the derivative), so the weighted sum is a perturbed Riemann sum; tails are dominated because every weight is at most 1 + pi/2 times its cell; then an improper-integral limit. *Scope/missing:* Missing because false: with a fixed chunk size and a positive absolute tolerance (the defaults) the result of hankel_transform tends to zero as h tends to zero, for every spectrum (C65_refining_gives_zero, C65_chunk_matters): the first chunk collapses onto the origin and its smallness is taken for convergence; and power_to_corr_ogata ends up integrating the tabulated range only, ignoring the documented extension above it. Proved: convergence of hankel_transform to the exact transform when the chunk covers the available nodes, in r and k space, and convergence of power_to_corr_ogata and corr_to_power_ogata to the integral over the tabulated range with the extension below it. Real arithmetic; convergence, no rate.
* **C66 Power to correlation and back is the identity** (proved). *Modelled:* hankel_transform (Model/Tools) in both directions. *Proof:* C65 for each direction, then inversion of the sine transform on the half line, from the Fourier inversion formula of Mathlib applied to the odd extension. *Scope/missing:* For every pair of transformable functions; C66_worked_pair is a closed-form pair satisfying all hypotheses. Real arithmetic.
* **C67 Settings and keywords** (partial). *Modelled:* Model/Settings.lean: Python values, every setter of DMHaloModel and TracerHaloModel, the constructors' keyword routing, update, the WDM default and get_halomodel's default settings *Proof:* Case analysis over setters and values; the constructor as a monadic map and update as a monadic fold over arbitrary keyword lists, compared by induction *Scope/missing:* Missing because false: 0, False, '' and [] pass for parameter dictionaries (C67_params_not_checked), any non-empty text turns a switch on (C67_switch_text), update(hod_params=None) raises although None is the documented default (C67_update_none_raises), and the default fast settings of get_halomodel name options that no longer exist, so no model can be built from them (C67_fast_kwargs, for any hmf that does not know halomod's old names). Construction equals default-plus-update for dictionaries in hod_params and no tracer density (C37 for that). hmf's look-up of classes, assignment and update are externals, hmf's own setters are not modelled.
* **C68 Rescaled, added and slightly changed spectra** (partial). *Modelled:* The while loop of hankel_transform run to its end as a function of the spectrum (Props/Hankel.lean: hankelAt, over the model of C10); Props/CodeEnv.lean puts it, with the three settings the code uses, into the halo model. *Proof:* The loop state after j chunks is a partial sum, so the result is determined by the first j meeting the stopping test; that j is invariant under rescaling without absolute tolerance, locally constant in the spectrum off ties; counterexample: two spikes at nodes of the first and second chunk. *Scope/missing:* Missing because false: with an absolute tolerance (1e-8 by default) every small enough spectrum is summed over the first chunk only (C68_faint_first_chunk), so faint copies of a spectrum are not transformed into faint copies (C68_scaling_breaks, C68_scaling_breaks_here with the settings of the two-halo terms). Proved: C68_value identifies the transform with the modelled loop; it is linear wherever the sums end after as many chunks, homogeneous with a purely relative tolerance, a brighter copy never uses fewer nodes, and it is continuous in the spectrum unless the stopping test is met exactly on its boundary. Real arithmetic; no NaN in the spectrum.
* **C69 The concentration of warm-dark-matter models** (partial). *Modelled:* The setters of the two concentration settings in a WDM model, making an instance from a dictionary of parameters, and the half-mode mass written into it (Model/WdmConc.lean); hmf's registry and the relations themselves are parameters. *Proof:* Case analysis on the suffix and on the dictionary; the tracers' value equals the haloes' iff the masses agree, since x ↦ (1+g1 x/m)^(-g2) is injective. *Scope/missing:* Missing because false: a rescaled relation of the tracers uses the keyword m_hm, 1000 by default, not the half-mode mass of the model (C69_tracer_half_mode), and cannot be named (C69_tracer_names). Proved: names with the suffix are lowered by the documented factor with the model's half-mode mass (C69_named); names without it, the default included, are used as they are (C69_default_not_rescaled; such a relation may still know about the dark matter through the variance of the density field); tracers without a relation of their own follow the haloes. hmf's registry of names is a parameter.
* **C70 Two-halo power with exclusion or scale-dependent bias** (partial). *Modelled:* _get_power_2h_auto_fnc in all cases (Model/ScaleDep.lean: HM.power2hX), with the transform of the code as in C68 for the zero ranges. *Proof:* The tabulated values are the transform of the correlation spline; the spline is zero outside its table, so all hundred nodes of the first chunk see zeros and the loop stops there. *Scope/missing:* Missing because false: with a halo-model wavenumber below 1e-2 the result is overwritten at the wrong places or fails (C70_low_wavenumbers), and with the transform of the code the power is exactly zero at small and large wavenumbers (C70_zero_at_ends, C70_ends_met). Proved: otherwise the power is the transform of the reported correlation for every exclusion class and scale-dependent bias.
* **C71 Auto power spectra are not negative** (partial). *Modelled:* The power spectra of Model/HaloModel.lean with the package's spline (Model/Spline.lean). *Proof:* Squares and extensions of C61 for the two-halo term, the mesh limits of C56 for the one-halo term; the findings evaluate the not-a-knot spline exactly on cubic data. *Scope/missing:* Missing because false: the two-halo power can be negative between wavenumbers (C71_negative_between_wavenumbers) and the one-halo power on a fixed mass table (C71_one_halo_negative). Proved: the two-halo powers without exclusion at every tabulated wavenumber and outside the table, and the one-halo powers in the limit of a fine mass table, for every HOD.
* **C72 Integer-typed masses and separations** (partial). *Modelled:* Model/IntInput.lean: the functions that allocate their result with the type of the argument, with that type as an input. *Proof:* Case analysis on the class; truncation lemmas for the cast; the float case is shown equal to the models of the other properties. *Scope/missing:* Missing because false: integer input is cut to whole numbers by Zheng05 (C72_zheng_floor, C72_zheng_populate), Spinelli19 satellite sources (C72_spinelli), every tabulated correlation function (C72_correlation_truncated), power_to_corr, projected_corr_gal and Ludlow16. Proved: all other HOD classes are independent of the type.
* **C73 One halo at a time: arrays, numbers and order** (partial). *Modelled:* Model/Batch.lean: Python numbers, numpy scalars, arrays of dimension 0 and 1; broadcasting, comparison, boolean selection and masked assignment; every method of hod.py on such arguments, the bias with a masked assignment, the NFW self-convolution with its `np.any` guards; Bullock01 is on lists already (Model/Concentration.lean). *Proof:* A relation between a method on arguments and a function of one mass that is preserved by arithmetic, broadcasting operations, and masked writes (induction over the array); the classes are compositions of these. Refutations by evaluation. *Scope/missing:* Missing because false: C73_bullock01_descending, C73_numbers_raise, second half of C73_seljak04Cosmo_partial. Proved for arrays of every length and order: all public methods of every HOD class (C73_hod_arrays), Seljak04Cosmo, the NFW self-convolution with its whole-array guards; numbers of each kind wherever the code accepts them. Ludlow16: C30 (the scalar branch raises where the array branch clamps). Numerically normalised profiles depend on their companions within the bounds of C60. Numpy semantics of masks, broadcasting and scalars are modelled in Model/Batch.lean as documented by numpy.
* **C74 A higher mass threshold gives rarer, more massive, more biased tracers** (proved). *Modelled:* The tracer averages of the model (mean density, effective bias and mass, satellite fraction) for Zehavi05 and Zheng05 with satellites beside centrals, on the package's mass grid. *Proof:* Limits of the averages (C56) are weighted means over masses above the threshold; the mean of an increasing function over the upper part of an interval exceeds that over the whole, and tilting weights towards large values raises the mean (Chebyshev); strict inequalities of limits hold eventually. For Zheng05 the ratio of the two occupation functions increases with mass because the Gaussian cumulative distribution is log-concave, and a general Chebyshev inequality gives the order of the weighted means. *Scope/missing:* Zehavi05: C74_threshold, C74_satellites; Zheng05: C74_zheng_threshold, C74_zheng_satellites. For every pair of parameter values the inequalities hold on all mass tables with a small enough step. C74_without_condition_fails is the finding for central=False.
* **C75 How accurate the averages are for a given dlog10m** (proved). *Modelled:* spline_integral with the not-a-knot cubic spline (cubicSpl) on the mass grid of np.arange, and the tracer and matter averages and the one-halo table built on it. *Proof:* The integral of the spline differs from that of the polygon by at most 40 times step times largest datum (moments of the spline are bounded); the polygon differs from the function by its variation on each panel; the part above the last mass is at most one step. Second order: C62_accuracy at every point. *Scope/missing:* C75_integral, C75_tracer, C75_matter_bias, C75_one_halo_power, C75_one_halo_tracer for all integrands of bounded variation; C75_increasing_hod, C75_default (Zehavi05) and C75_zheng give the bound in terms of the mass function and HOD parameters; C75_smooth is the second-order bound; C75_first_order shows that the first order is attained.
* **C76 Amplitudes of the mass function, the bias and the spectra** (proved). *Modelled:* HM with dndm, bias, power of halo centres, linear power and the mass density in halos rescaled (`rescale`); the transforms are arbitrary. *Proof:* spline_integral is linear in its integrand; ExtendedSpline is homogeneous for positive factors, with its power-law, boundary, zero and matched extensions. *Scope/missing:* C76_averages, C76_one_halo_power, C76_two_halo_power, C76_total_power and C76_one_halo_correlation are exact for every table, for any spline that is linear in its data; C76_two_halo_correlation holds where the transform is homogeneous (C68).
* **C77 More concentrated haloes** (proved). *Modelled:* The shape functions and cdf, rho, u of Profile; Einasto as a Shape with index alpha and arbitrary _p. *Proof:* Each shape function's logarithmic slope steepens strictly; two weights whose ratio falls cross once after normalisation (intermediate value theorem), which orders their shares inside any radius and their averages of any decreasing quantity; sin(x)/x decreases on [0, pi] by strict concavity of the sine. *Scope/missing:* C77_shapes and C77_peaked give the classes covered; C77_enclosed, C77_density and C77_transform the three statements at fixed mass; C77_fraction and C77_fraction_mass those at a fixed fraction of the radius. Bloating is excluded from the statements at fixed radius; Moore is excluded from them because its scale radius converts the concentration twice (C23_moore_virial).
* **C78 Units of mass and length** (partial). *Modelled:* HM in other units (`units`): masses, number densities, wavenumbers, separations, profiles, densities and spectra converted; exclusion objects likewise (`unitsExcl`); occupations related by `HodUnits`; the splines see only the shape of their abscissae (`EnvUnits`, proved for the package's cubic spline). *Proof:* spline_integral over ln m shifts with the masses; ExtendedSpline with dilated abscissae; masks and overlap probabilities are functions of ratios; then each table is multiplied by a power of l. *Scope/missing:* Proved for every halo model, all positive unit factors, all exclusion classes and scale-dependent bias: averages, exclusion, matter, cross and two-halo spectra, one-halo correlations from profiles, eight HOD classes. _partial because false beyond: C78_one_halo_tracer_partial and C78_total_power_partial need the logarithm of the minimum mass (used as a mass by the code) to stay below the mass table in both units (C78_lower_limit_breaks shows the failure, with a concrete model); C78_code_correlation_partial needs the transform's sum to end after as many chunks in both units (C78_tolerance_breaks); Spinelli19 cannot be converted (C78_spinelli_hard_coded). Leauthaud11's hard-coded 1e12*0.72 is compensated by its amplitudes (C78_leauthaud, for any interpolation that commutes with shifts). Single profiles (all classes, normalisations and coordinates), drawn positions, concentrations and biases are converted too (C78_profiles, C78_populate, C78_concentrations, C78_biases); findings: Ludlow16Empirical carries a mass (C78_empirical_hard_coded), virial_velocity the SI constant of gravity (C78_virial_velocity). Not treated: the overwriting below k_hm = 1e-2 with exclusion (C70).
* **C79 Small changes of the inputs** (proved). *Modelled:* Two halo models (`HM`) on one mass table (`SameTable`, `LogMasses`: the mesh of np.arange), spline_integral with the not-a-knot cubic spline, the two-halo integral of the exclusion code without exclusion. *Proof:* The spline integral of bounded data is bounded: it is within 40 step times the bound of the integral of the polygon. Integrals are linear in the data, so differences are integrals of differences; quotients by elementary estimates; relative errors multiply. *Scope/missing:* C79_bounded and C79_integrals for one integral; C79_tracer, C79_matter_bias, C79_one_halo, C79_two_halo (C79_two_halo_root in terms of the spectra) for the quantities built on it; C79_relative for relative errors of the ingredients.
* **C80 The mass range of the table** (proved). *Modelled:* One model on two mass tables (`mesh` with two ranges and steps, `TwoTables`), spline_integral with the not-a-knot cubic spline on them. *Proof:* C75's error bounds on each table against the true integral; the true integrals differ by a stretch where the integrand vanishes and a stretch bounded by an integrated power; quotients by elementary estimates. *Scope/missing:* C80_integrals for one integral, C80_tracer for the averages over tracers, C80_matter for matter, C80_one_halo_tracer for the one-halo power of tracers, C80_upper_end for raising Mmax, C80_default for the default HOD.

Not expressible in a model of this code: accuracy of the quadratures against the physical integrals with
IEEE rounding; performance; values produced by hmf/CAMB/colossus.

## Findings (each is a theorem; the names are in MANIFEST.json)

* `hod.py`: Leauthaud11 with `central=True` squares the central occupation; its `mmin` depends on call
  history; Contreras13 may exceed one central; Tinker05/Spinelli19 produce NaN/inf; satellite scatter of a
  marked HOD does not scale with the mark.
* `populate`: pool branch loses satellite positions; periodic wrap only moves by one box; the central factor
  is applied twice for smooth HODs; an empty catalogue raises.
* `tools.py`: `power_law` extension of negative data is zero and generally jumps at the boundary; integer
  arrays are truncated; `spline_integral` ignores a limit equal to 0; FITPACK integrals are zero outside the
  data although the warning announces extrapolation; refining the step of `hankel_transform` at fixed chunk
  size drives every result to zero; `power_to_corr_ogata` in the limit ignores its extension above the table;
  the absolute tolerance of `hankel_transform` makes it sum faint spectra over the first chunk only, so rescaling a spectrum does not rescale its correlation.
* `halo_exclusion.py`: `xmin` is ignored by the inner integral and by the compiled classes; even sizes use
  other rules than the plain classes; `cumsimps` drops its last sample; `makeW` is no quadrature for even n.
* `profiles.py`: Moore's scale radius raises; `norm=None` uses the mean density at z=0; Einasto's
  interpolated transform pairs haloes wrongly; Meijer-G transforms permute wavenumbers; HernquistInf's
  self-convolution is 4 times too large; untruncated classes ignore arguments; the numerical transform raises
  for one wavenumber.
* `concentration.py`: a parameter equal to 0 is replaced by its default in Duffy08; a failed nonlinear mass
  gives concentration 0; Ludlow16Empirical is NaN at z=8.
* `halo_model.py`: transformed matter and cross correlations are one too large; the bias component is
  evaluated at redshift 0; total correlations beyond the internal table are 1; a single mass raises in `power_hh`; `filtered-nl` uses radius 3 (documented 2);
  the tracer concentration alone is ignored by the tracer profile; `res.success` is not checked; scipy ≥ 1.14
  lacks `cumtrapz`, so sharp-cut density matching raises; attribute assignment bypasses the solver; a failed
  update leaves the new density with the old `M_min`; separations are not validated;
  `force_unity_dm_bias` is a plain attribute: changing it leaves computed matter terms stale; the default
  one-halo turnover is applied to auto spectra only, and the two-halo tracer-matter power exceeds the geometric
  mean of the auto terms.
* two-halo power with exclusion: exactly zero for k·r_max below 0.005 (C70); entries overwritten by a mask over the other wavenumber grid.
* `cross_correlations.py`: only the first model's mass function is used; `corr_cross` counts self pairs.
* `integrate_corr.py`: slope at the wrong sample; 1% tolerance makes rescaling inexact; angles in radians are
  compared with 180; `xvec` lacks h.
* settings: parameters that are 0, False, '' or [] pass for parameter dictionaries; the text "False" switches an option on;
  `update(hod_params=None)` raises; the default fast settings of `get_halomodel` name options that no class accepts.
  `ProjectedCF`'s default number of internal separations is five times the requested, not the stored, number and a negative `rnum` is accepted.
* `wdm.py`: the factory writes into the base class's `_defaults`; subclassing recurses; the two-halo term is
  normalised twice; fractions are off by (1+z)³; concentrations rise beyond z = 1.54; a rescaled
  tracer relation cannot be named and uses the half-mode mass 1000 (C69).

## Mutation testing

`seeded/LOG.jsonl` records every wrong program tried in a scratch copy: definition edited, edit, claim it
breaks, theorems that failed, theorems added or tightened because a mutant survived.
