{
 "C01": [
  "all HOD classes, `_central_occupation`, `_satellite_occupation`, the wrappers.",
  "algebra over the class table; pointwise in the mass."
 ],
 "C02": [
  "`ss_pairs`, `cs_pairs`, `sigma_*` of every class.",
  "the pair counts are compared with second factorial moments of explicit joint laws (`Spec/Counts`: Bernoulli central, Poisson satellites) via `tsum`; algebra."
 ],
 "C03": [
  "occupation functions of every class.",
  "`erf` as a Gaussian integral (monotone, odd, bounded); real powers; case analysis on cuts."
 ],
 "C04": [
  "marked HODs, averages.",
  "linearity."
 ],
 "C05": [
  "Tinker05, Spinelli19 and the smooth classes over floats with inf/NaN; every class over the reals for signs.",
  "evaluation of special values; intervals where no overflow occurs; case analysis over all HOD classes."
 ],
 "C06": [
  "Leauthaud11 SHMR, its table inversion, and the object as a state with cached parameters.",
  "monotonicity by derivative signs; induction over call histories."
 ],
 "C07": [
  "`populate` as a list program with the random outcomes as arguments; pool branch with lost writes.",
  "list induction over the catalogue."
 ],
 "C08": [
  "same.",
  "list induction."
 ],
 "C09": [
  "position sampling, periodic wrap, and both composed with the bookkeeping of populate (Model/Catalogue).",
  "vector algebra; case analysis of the wrap; induction over the host list."
 ],
 "C10": [
  "expectation of the drawn satellite numbers.",
  "finite/infinite sums over the draw laws."
 ],
 "C11": [
  "`hankel_transform` loop as a while relation; Ogata nodes and weights.",
  "loop invariant, termination by the node limit, derivative of the transformation."
 ],
 "C12": [
  "`ExtendedSpline` with an abstract spline.",
  "case analysis; least squares for the power-law extension."
 ],
 "C13": [
  "`spline_integral`, FITPACK's zero extension.",
  "case analysis; integrals."
 ],
 "C14": [
  "`power_to_corr`, `power_to_corr_ogata`, `corr_to_power`.",
  "linearity; floor arithmetic for the k range."
 ],
 "C15": [
  "`exclusion_window`.",
  "calculus (sine/cosine bounds, limit at 0)."
 ],
 "C16": [
  "masks, radii and density modifications of Sphere/DblSphere.",
  "monotone powers; congruence of integrals."
 ],
 "C17": [
  "ellipsoid probabilities (plain and compiled) and density modification.",
  "polynomial inequalities; equality with the documented formula."
 ],
 "C18": [
  "`integrate`/`density_mod` for large separations with and without `xmin`.",
  "congruence, separability of double integrals."
 ],
 "C19": [
  "`dblsimps_`, `dbltrapz_`, `makeW_`, `makeH_` as sequences of in-place updates.",
  "fold over updates computed for every n; symmetric double sums."
 ],
 "C20": [
  "fast classes incl. uninitialised memory.",
  "reduction to C19; counterexample for even n."
 ],
 "C21": [
  "`cumsimps`.",
  "induction over panels."
 ],
 "C22": [
  "raw integrands, bounds, NgMatched mask.",
  "monotonicity of (double) Simpson and trapezoid sums with non-negative weights."
 ],
 "C23": [
  "mass/radius/scale-radius conversions, virial velocity.",
  "real cube roots; intermediate monotonicity."
 ],
 "C24": [
  "`_h` of the profile classes.",
  "fundamental theorem of calculus, substitution."
 ],
 "C25": [
  "`rho`, normalisations, truncation, array shapes.",
  "monotone shapes; shape arithmetic."
 ],
 "C26": [
  "`u`, `_p`, Einasto interpolation, Meijer-G ordering.",
  "sine/cosine integrals by calculus; permutation arguments."
 ],
 "C27": [
  "`cdf` and enclosed mass.",
  "monotonicity of the mass integral."
 ],
 "C28": [
  "NFWInf, HernquistInf.",
  "limits; improper integrals."
 ],
 "C29": [
  "`lam` of NFW.",
  "convolution integral computed by calculus; continuity at the branch points."
 ],
 "C30": [
  "all concentration relations.",
  "monotone real powers; option-valued failure paths."
 ],
 "C31": [
  "interpolating relations.",
  "list masks; linear interpolation between neighbours."
 ],
 "C32": [
  "Bullock01 collapse redshift by grid/growth inversion.",
  "monotone inverse."
 ],
 "C33": [
  "bias functions against abundances (Spec).",
  "integration by parts over (0,\u221e) via a general form lemma with Gamma-type integrability."
 ],
 "C34": [
  "bias functions.",
  "derivative signs; explicit rational bounds on exp and powers."
 ],
 "C35": [
  "scale-dependent bias.",
  "real powers with NaN branch."
 ],
 "C36": [
  "densities, averages, fractions, 1-halo power.",
  "linear functionals on the masked grid."
 ],
 "C37": [
  "update/construct/solve as a state machine with failures.",
  "induction over histories."
 ],
 "C38": [
  "sharp-cut solver: cumulative integral, argmax, log interpolation.",
  "monotone sequences; bracketing."
 ],
 "C39": [
  "the 22 correlation/power properties.",
  "interpolation at table points; algebra."
 ],
 "C40": [
  "`power_hh`, centre power, masks.",
  "linear functionals; symmetric bracket."
 ],
 "C41": [
  "`cross_correlations.py`.",
  "algebra of sums; symmetry."
 ],
 "C42": [
  "projected and angular correlations.",
  "linearity of Simpson; counterexamples to scale invariance; convergence of Simpson sums and monotone bounds on the excised part."
 ],
 "C43": [
  "`wdm.py` incl. class dictionaries on a heap.",
  "heap invariants; algebra."
 ],
 "C44": [
  "low-k rows of the 2-halo terms.",
  "limit k\u21920 of `u` (C26) through finite sums. In the mass-refinement limit from C56_two_halo_power."
 ],
 "C45": [
  "`r`, `hm_k` grids, filtered tables.",
  "grid arithmetic."
 ],
 "C46": [
  "cross tables.",
  "linear functionals; bounds."
 ],
 "C47": [
  "`linear_power_fnc` etc., `hc_spectrum` choice.",
  "C12 branches specialised."
 ],
 "C48": [
  "component construction.",
  "case analysis over configurations."
 ],
 "C49": [
  "`validate`, `_tm`.",
  "list/grid arithmetic."
 ],
 "C50": [
  "`_find_m_min` for smooth HODs.",
  "optimiser contract; mask arithmetic."
 ],
 "C51": [
  "Model/Framework.lean: objects as inputs plus a cache with recorded dependencies, computations as arbitrary adaptive readers; Model/HaloReads.lean: generated table of the attributes each quantity of /repo mentions.",
  "Invariant over runs (each cached value is right for all inputs that agree on the recorded parameters), induction over histories, against a cache-free reference semantics in Spec/Framework.lean; termination by the rank of the table."
 ],
 "C52": [
  "Process state with colossus' global cosmology; components native or colossus-backed; programs = lists of build/eval events.",
  "Induction over programs."
 ],
 "C53": [
  "pair_hmf attributes with inheritance for each bias class, constructor's choice of hmf_model, update.",
  "Case analysis over classes, induction over update sequences."
 ],
 "C54": [
  "All exclusion classes' integrate/density_mod with the outer-product bias; rows of _get_power_2h_primitive; debiasing with bias[-1]; transform per row.",
  "Homogeneity of each quadrature (case analysis over classes) and of ExtendedSpline; for the transform of the code see C68; counterexample: a linear power with two spikes below the table."
 ],
 "C55": [
  "Model/Observables.lean: keyword records (given or omitted) for both classes, constructors with their conditional defaults, update as assignment through the setters, the constructor's warning and the table warning of rmax.",
  "Case analysis over given/omitted keywords; the flat distribution determines its range, so the iff is exact. Sizes: `C55_sizes_truncated` gives the stored number of separations for every real argument."
 ],
 "C56": [
  "Lemmas/Converge*.lean: error bounds of trapezoid, Simpson and Simpson+trapezoid rules in terms of the oscillation on two panels, uniform in a cut; the exclusion models on refined grids (`refined`) and halo models on refined grids (`fine`). Two-halo terms: `C56_two_halo_power` (no exclusion) and `C56_two_halo_tracer_excl`/`_matter_excl` (Props/Converge5.lean, all exclusion classes). On hmf's own grid: `mesh` (Props/Converge6.lean), with `Tame` = bounded and continuous off a countable set (Lemmas/Tame.lean).",
  "Heine\u2013Cantor bounds the oscillation; the inner quadrature converges uniformly in the outer mass, the inner integral is continuous by dominated convergence, change of variables to log mass; the number-matched cut converges because the cumulated density is strictly increasing. Two-halo: exclusion objects are homogeneous in the density (`Scaled`), the extended spline is linear in its table, so tables, splines and transforms converge. Mesh: the broken line through samples of a tame function converges almost everywhere, dominated convergence with a moving end point; the spline differs from the broken line by O(step) because the moments are O(jump/step\u00b2)."
 ],
 "C57": [
  "Model/CrossReads.lean: declarations and reads of CrossCorrelations with both sub-models as one graph, and of the WDM classes; caching semantics of Model/Framework.lean.",
  "Generic version of the C51 invariant over an arbitrary graph of reads; reachability by closed sets of attributes; independence by congruence of the reference semantics."
 ],
 "C58": [
  "Model/IntegrateCorr.lean `angular` and `checkP` (function, normalisation, grids); Lemmas/SimpsonX*.lean: error of scipy's Simpson rule (both parities) on a grid that is the image of a uniform one under a smooth change of variable.",
  "Spec/Angular.lean states Limber's integral with normalised distributions; the inner rule converges uniformly in the outer point, the inner integral is continuous, change of variables from log10 u to u and from z to distance."
 ],
 "C59": [
  "Model/Sample.lean: `populate` for one satellite as a function of its uniform deviate and three normals (table of 1000 radii, cdf, interpolated inverse, placement). Spec/Sample.lean: the product of the uniform law and three standard normals (Mathlib measures).",
  "Strict monotonicity turns the event 'within a tabulated radius' into 'deviate below the cdf there'; rotation invariance of the standard Gaussian; product measure for independence; integral over n independent copies; Poisson average."
 ],
 "C60": [
  "Model/GenericProfile.lean: `Profile._h` (2000-point grid, scipy's cumulative_simpson, scalar/array branches, argument precedence), `Profile._p` (sort, cumulative loop over haloes per wavenumber, 100-point wavenumber grid, spline), break points, `_reduce` and the shape of K. Externals: quad (exact integral), argsort (any sorting permutation), spline.",
  "cumulative Simpson equals composite Simpson at even entries and scipy's simpson at the end; error bound for monotone functions by telescoping, extended to differences; the loop by induction over the sorted order; unimodality of the generalised NFW integrand from its log-derivative. Between the wavenumbers: the interpolant is a fixed combination of the entries, so its error commutes with the integrals and reduces to that for cos(\u03bau), bounded by C62's local accuracy; array normalisations: each entry of the cumulative rule is bounded by telescoping, the spline stays near the polygon."
 ],
 "C61": [
  "Model/Tools.lean `ExtendedSpline` and the callables of Model/HaloModel.lean and Model/Cross.lean.",
  "the branch theorem C12 plus the extension each callable is built with; totals by their added constants."
 ],
 "C62": [
  "Model/Spline.lean: interpolation in the truncated-power basis by inverting its matrix; Spec/Spline.lean: piecewise cubics with matching derivatives and the not-a-knot conditions.",
  "existence and uniqueness: the homogeneous piecewise system has only the zero solution (slope and curvature keep one sign pattern from left to right that the right end excludes); stability: maximum principle for the moment equations; convergence: uniform continuity. Local accuracy on any grid: the moments are bounded by the second divided differences (diagonal dominance), Taylor's formula."
 ],
 "C63": [
  "Model/Params.lean: _defaults dictionaries, Component.__init__, and bias()/cm() of each class reading self.params, on top of Model/Bias, Model/Concentration; Model/Hod for the HOD parameters",
  "Spec/Documented.lean transcribes the docstrings; unfolding of dictionary look-ups for an arbitrary keyword dictionary, algebra; explicit inputs refute the false docstrings"
 ],
 "C64": [
  "The one- and two-halo power functions of Model/HaloModel at tabulated wavenumbers on a sequence of refined mass grids. Occupations with jumps on the grid of hmf: Lemmas/Tame2.lean, Props/Mesh2.lean, Props/Bound2.lean.",
  "Limits of all spectra (C56), Cauchy-Schwarz for integrals by the discriminant, the pair counts of Poisson HODs; refutations by the vanishing of spline integrals beyond the last mass and by strict monotonicity of integrals."
 ],
 "C65": [
  "The loop of hankel_transform and the cumulative sums of power_to_corr_ogata (Model/Tools), with nodes, weights, chunking and tolerance tests.",
  "The nodes form a partition whose mesh up to any fixed point tends to 0 with h (monotonicity of psi, mean value theorem, local Lipschitz bound of the derivative), so the weighted sum is a perturbed Riemann sum; tails are dominated because every weight is at most 1 + pi/2 times its cell; then an improper-integral limit."
 ],
 "C66": [
  "hankel_transform (Model/Tools) in both directions.",
  "C65 for each direction, then inversion of the sine transform on the half line, from the Fourier inversion formula of Mathlib applied to the odd extension."
 ],
 "C67": [
  "Model/Settings.lean: Python values, every setter of DMHaloModel and TracerHaloModel, the constructors' keyword routing, update, the WDM default and get_halomodel's default settings",
  "Case analysis over setters and values; the constructor as a monadic map and update as a monadic fold over arbitrary keyword lists, compared by induction"
 ],
 "C68": [
  "The while loop of hankel_transform run to its end as a function of the spectrum (Props/Hankel.lean: hankelAt, over the model of C10); Props/CodeEnv.lean puts it, with the three settings the code uses, into the halo model.",
  "The loop state after j chunks is a partial sum, so the result is determined by the first j meeting the stopping test; that j is invariant under rescaling without absolute tolerance, locally constant in the spectrum off ties; counterexample: two spikes at nodes of the first and second chunk."
 ],
 "C69": [
  "The setters of the two concentration settings in a WDM model, making an instance from a dictionary of parameters, and the half-mode mass written into it (Model/WdmConc.lean); hmf's registry and the relations themselves are parameters.",
  "Case analysis on the suffix and on the dictionary; the tracers' value equals the haloes' iff the masses agree, since x \u21a6 (1+g1 x/m)^(-g2) is injective."
 ],
 "C70": [
  "_get_power_2h_auto_fnc in all cases (Model/ScaleDep.lean: HM.power2hX), with the transform of the code as in C68 for the zero ranges.",
  "The tabulated values are the transform of the correlation spline; the spline is zero outside its table, so all hundred nodes of the first chunk see zeros and the loop stops there."
 ],
 "C71": [
  "The power spectra of Model/HaloModel.lean with the package's spline (Model/Spline.lean).",
  "Squares and extensions of C61 for the two-halo term, the mesh limits of C56 for the one-halo term; the findings evaluate the not-a-knot spline exactly on cubic data."
 ],
 "C72": [
  "Model/IntInput.lean: the functions that allocate their result with the type of the argument, with that type as an input.",
  "Case analysis on the class; truncation lemmas for the cast; the float case is shown equal to the models of the other properties."
 ],
 "C73": [
  "Model/Batch.lean: Python numbers, numpy scalars, arrays of dimension 0 and 1; broadcasting, comparison, boolean selection and masked assignment; every method of hod.py on such arguments, the bias with a masked assignment, the NFW self-convolution with its `np.any` guards; Bullock01 is on lists already (Model/Concentration.lean).",
  "A relation between a method on arguments and a function of one mass that is preserved by arithmetic, broadcasting operations, and masked writes (induction over the array); the classes are compositions of these. Refutations by evaluation."
 ],
 "C74": [
  "The tracer averages of the model (mean density, effective bias and mass, satellite fraction) for Zehavi05 and Zheng05 with satellites beside centrals, on the package's mass grid.",
  "Limits of the averages (C56) are weighted means over masses above the threshold; the mean of an increasing function over the upper part of an interval exceeds that over the whole, and tilting weights towards large values raises the mean (Chebyshev); strict inequalities of limits hold eventually. For Zheng05 the ratio of the two occupation functions increases with mass because the Gaussian cumulative distribution is log-concave, and a general Chebyshev inequality gives the order of the weighted means."
 ],
 "C75": [
  "spline_integral with the not-a-knot cubic spline (cubicSpl) on the mass grid of np.arange, and the tracer and matter averages and the one-halo table built on it.",
  "The integral of the spline differs from that of the polygon by at most 40 times step times largest datum (moments of the spline are bounded); the polygon differs from the function by its variation on each panel; the part above the last mass is at most one step. Second order: C62_accuracy at every point."
 ],
 "C76": [
  "HM with dndm, bias, power of halo centres, linear power and the mass density in halos rescaled (`rescale`); the transforms are arbitrary.",
  "spline_integral is linear in its integrand; ExtendedSpline is homogeneous for positive factors, with its power-law, boundary, zero and matched extensions."
 ],
 "C77": [
  "The shape functions and cdf, rho, u of Profile; Einasto as a Shape with index alpha and arbitrary _p.",
  "Each shape function's logarithmic slope steepens strictly; two weights whose ratio falls cross once after normalisation (intermediate value theorem), which orders their shares inside any radius and their averages of any decreasing quantity; sin(x)/x decreases on [0, pi] by strict concavity of the sine."
 ],
 "C78": [
  "HM in other units (`units`): masses, number densities, wavenumbers, separations, profiles, densities and spectra converted; exclusion objects likewise (`unitsExcl`); occupations related by `HodUnits`; the splines see only the shape of their abscissae (`EnvUnits`, proved for the package's cubic spline).",
  "spline_integral over ln m shifts with the masses; ExtendedSpline with dilated abscissae; masks and overlap probabilities are functions of ratios; then each table is multiplied by a power of l."
 ],
 "C79": [
  "Two halo models (`HM`) on one mass table (`SameTable`, `LogMasses`: the mesh of np.arange), spline_integral with the not-a-knot cubic spline, the two-halo integral of the exclusion code without exclusion.",
  "The spline integral of bounded data is bounded: it is within 40 step times the bound of the integral of the polygon. Integrals are linear in the data, so differences are integrals of differences; quotients by elementary estimates; relative errors multiply."
 ],
 "C80": [
  "One model on two mass tables (`mesh` with two ranges and steps, `TwoTables`), spline_integral with the not-a-knot cubic spline on them.",
  "C75's error bounds on each table against the true integral; the true integrals differ by a stretch where the integrand vanishes and a stretch bounded by an integrated power; quotients by elementary estimates."
 ]
}